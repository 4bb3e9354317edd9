import Verif.Model.Nft
/-
The NFT contract with receivers that do something: `safeTransferFrom` and `mint` call the receiver's `onERC721Received`
(x/evm/contracts/erc721/ERC721.sol:166-172 and 317-325, x/evm/contracts/utils/ERC721Utils.sol:21-46), and in it the receiver, and whatever it
calls, may call the NFT contract again, to any depth, before the call it answers has returned. `mint` writes the token's metadata only
afterwards (x/evm/contracts/ics721_erc721/ICS721ERC721.sol:27-31).
-/
namespace Verif.NftHooks
open Verif Verif.Text Verif.Nft

/-- A call of the NFT contract by `caller`, with what happens to the contract while the receiver's hook runs — further calls, by
whomever — and whether the hook accepts in the end. For a receiver without code the hook is empty and accepts. -/
inductive Op where
  | mk (caller : Addr) (call : Call) (hook : List Op) (accepts : Bool)

/-- The call up to the hook; `none` is a revert. ERC721.sol:117-172, 294-325 and ICS721ERC721.sol:15-31. -/
def before (caller : Addr) (call : Call) (c : Nft) : Option Nft :=
  match call with
  | .safeTransferFrom f t id => transferFrom c caller f t id
  | .mint to id _ _ => if caller ≠ c.owner then none else mintTok c to id
  | call => exec (fun _ => true) caller call c

/-- The call after the hook. ICS721ERC721.sol:29-30. -/
def after (call : Call) (c : Nft) : Nft :=
  match call with
  | .mint _ id uri origin => { c with tokenUris := put c.tokenUris id uri, tokenOriginIds := put c.tokenOriginIds id origin }
  | _ => c

/-- Does the call have a hook? -/
def hooked : Call → Bool
  | .safeTransferFrom _ _ _ => true
  | .mint _ _ _ _ => true
  | _ => false

mutual
/-- One call, from start to end; `none` is a revert: nothing it or its hook did remains. -/
def run : Op → Nft → Option Nft
  | .mk caller call hook accepts, c =>
    match before caller call c with
    | none => none
    | some c1 =>
      if hooked call then if accepts then some (after call (runAll hook c1)) else none
      else some c1
/-- The calls of a hook (or of a history), one after another; a call that reverts changes nothing (the hook may go on). -/
def runAll : List Op → Nft → Nft
  | [], c => c
  | o :: r, c => runAll r ((run o c).getD c)
end

mutual
/-- The calls of a tree in the order in which they begin. -/
def calls : Op → List (Addr × Call)
  | .mk caller call hook _ => (caller, call) :: callsAll hook
/-- … of a list of trees -/
def callsAll : List Op → List (Addr × Call)
  | [] => []
  | o :: r => calls o ++ callsAll r
end

end Verif.NftHooks
