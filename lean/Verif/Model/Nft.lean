import Verif.Model.Denom
/-
Model of the NFT contract x/evm/contracts/ics721_erc721/ICS721ERC721.sol (over x/evm/contracts/erc721/ERC721.sol), of the
class and token identifiers of x/evm/types/collection.go and of the keeper functions of x/evm/keeper/erc721.go.
Addresses are EVM addresses (the conversion of Cosmos addresses is Model/Identity); receivers' `onERC721Received`
hooks accept or refuse and do nothing else; contracts that are not ICS721ERC721 are not modelled.
-/
namespace Verif.Nft
open Verif Verif.Text Verif.Denom

/-- Storage of one contract: ERC721.sol:38-44, ICS721ERC721.sol:11-12, Ownable.sol:10. `Addr.zero` is `address(0)`. -/
structure Nft where
  owners : Nat → Addr
  balances : Addr → Nat
  tokenApprovals : Nat → Addr
  operatorApprovals : Addr → Addr → Bool
  tokenUris : Nat → Str
  tokenOriginIds : Nat → Str
  owner : Addr

/-- The constructor (ICS721ERC721.sol:13). -/
def Nft.fresh (owner : Addr) : Nft :=
  ⟨fun _ => Addr.zero, fun _ => 0, fun _ => Addr.zero, fun _ _ => false, fun _ => [], fun _ => [], owner⟩

/-- Assignment to a mapping entry. -/
def put {K V : Type} [DecidableEq K] (f : K → V) (k : K) (v : V) : K → V := fun x => if x = k then v else f x

/-- `unchecked { x += 1 }` on `uint256` -/
def inc (x : Nat) : Nat := (x + 1) % 2 ^ 256

/-- `unchecked { x -= 1 }` -/
def dec (x : Nat) : Nat := (x + 2 ^ 256 - 1) % 2 ^ 256

/-- ERC721.sol:200-205 (`_isAuthorized`) -/
def isAuthorized (c : Nft) (owner spender : Addr) (id : Nat) : Bool :=
  spender != Addr.zero && (owner == spender || c.operatorApprovals owner spender || c.tokenApprovals id == spender)

/-- ERC721.sol:251-279: the writes of `_update`. -/
def writeOwner (c : Nft) (to : Addr) (id : Nat) : Nft :=
  let f := c.owners id
  let c1 := if f ≠ Addr.zero then
      { c with tokenApprovals := put c.tokenApprovals id Addr.zero, balances := put c.balances f (dec (c.balances f)) }
    else c
  let c2 := if to ≠ Addr.zero then { c1 with balances := put c1.balances to (inc (c1.balances to)) } else c1
  { c2 with owners := put c2.owners id to }

/-- ERC721.sol:251-279 (`_update`): the new state; the previous owner is `c.owners id`. -/
def update (c : Nft) (to : Addr) (id : Nat) (auth : Addr) : Option Nft :=
  if auth ≠ Addr.zero ∧ isAuthorized c (c.owners id) auth id = false then none else some (writeOwner c to id)

/-- The entry points that change state. -/
inductive Call where
  | approve (to : Addr) (id : Nat)
  | setApprovalForAll (op : Addr) (b : Bool)
  | transferFrom (f t : Addr) (id : Nat)
  | safeTransferFrom (f t : Addr) (id : Nat)
  | burn (id : Nat)
  | mint (to : Addr) (id : Nat) (uri origin : Str)
  | transferOwnership (n : Addr)

/-- ERC721.sol:147-157 (`transferFrom`) -/
def transferFrom (c : Nft) (caller f t : Addr) (id : Nat) : Option Nft :=
  if t = Addr.zero then none
  else match update c t id caller with
    | none => none
    | some c' => if c.owners id ≠ f then none else some c'

/-- ERC721.sol:294-302 (`_mint`) -/
def mintTok (c : Nft) (to : Addr) (id : Nat) : Option Nft :=
  if to = Addr.zero then none
  else match update c to id Addr.zero with
    | none => none
    | some c' => if c.owners id ≠ Addr.zero then none else some c'

/-- ERC721.sol:117-172, 410-440 and ICS721ERC721.sol:15-31: a call by `caller`; `none` is a revert. `accepts a`: is `a` an
account without code or a contract whose hook accepts (ERC721Utils.sol:21-46)? -/
def exec (accepts : Addr → Bool) (caller : Addr) (call : Call) (c : Nft) : Option Nft :=
  match call with
  | .approve to id =>
    if c.owners id = Addr.zero then none
    else if caller ≠ Addr.zero ∧ c.owners id ≠ caller ∧ c.operatorApprovals (c.owners id) caller = false then none
    else some { c with tokenApprovals := put c.tokenApprovals id to }
  | .setApprovalForAll op b =>
    if op = Addr.zero then none
    else some { c with operatorApprovals := fun x y => if x = caller ∧ y = op then b else c.operatorApprovals x y }
  | .transferFrom f t id => transferFrom c caller f t id
  | .safeTransferFrom f t id =>
    match transferFrom c caller f t id with
    | none => none
    | some c' => if accepts t then some c' else none
  | .burn id =>
    if c.owners id = Addr.zero then none
    else if isAuthorized c (c.owners id) caller id = false then none
    else update c Addr.zero id Addr.zero
  | .mint to id uri origin =>
    if caller ≠ c.owner then none
    else match mintTok c to id with
      | none => none
      | some c' =>
        if accepts to then some { c' with
          tokenUris := put c'.tokenUris id uri, tokenOriginIds := put c'.tokenOriginIds id origin }
        else none
  | .transferOwnership n => if caller ≠ c.owner then none else if n = Addr.zero then none else some { c with owner := n }

/-- x/evm/types/collection.go:15 -/
def ibcPrefix : Str := ['i', 'b', 'c', '/']

/-- x/evm/types/collection.go:24-31 (`TokenIdToBigInt`); `sha` is SHA-256 as a big-endian number. -/
def tokenIdToBigInt (sha : Str → Nat) (classId tokenId : Str) : Option Int :=
  if ibcPrefix.isPrefixOf classId then some (Int.ofNat (sha tokenId)) else parseInt tokenId

/-- ABI packing of a `uint256` argument (go-ethereum `math.U256Bytes`): two's complement, modulo 2^256. -/
def packU256 (i : Int) : Nat := (i % (2 ^ 256 : Int)).toNat

/-- The number a token id is turned into when a contract is called. -/
def tokenNumber (sha : Str → Nat) (classId tokenId : Str) : Option Nat :=
  (tokenIdToBigInt sha classId tokenId).map packU256

/-- Chain state relevant to NFTs. -/
structure NW where
  /-- `ERC721ContractAddrsByClassId` and `ERC721ClassIdsByContractAddr` -/
  maps : Maps
  /-- `ERC721ClassURIs` -/
  uris : Addr → Option Str
  /-- ICS721ERC721 contracts; `none`: no code -/
  nfts : Addr → Option Nft
  /-- contracts deployed by `StdAddress` -/
  nonce : Nat

/-- Surroundings. -/
structure Env where
  sha : Str → Nat
  accepts : Addr → Bool
  /-- address of the n-th contract deployed by `StdAddress` (0x1) -/
  deployed : Nat → Addr
  std : Addr
  /-- letter case of `Address.Hex` (EIP-55) -/
  mask : Str → List Bool

/-- x/evm/types/collection.go:33-44 (`ContractAddressFromClassId`) -/
def classToContract (w : NW) (classId : Str) : Option Addr :=
  if evmPrefix.isPrefixOf classId then
    let s := classId.drop 4
    if isHexAddress s then some (hexToAddress s) else none
  else w.maps.toAddr classId

/-- x/evm/types/collection.go:46-54 (`ClassIdFromCollectionAddress`) -/
def contractToClass (e : Env) (w : NW) (a : Addr) : Str :=
  match w.maps.toDenom a with
  | some d => d
  | none => evmPrefix ++ trimHex e.mask a

/-- x/evm/keeper/erc721.go:54-71: the deployment in `CreateOrUpdateClass` (fails if there is code already). -/
def deployClass (e : Env) (w : NW) (classId : Str) : Option NW :=
  let a := e.deployed w.nonce
  match w.nfts a with
  | some _ => none
  | none => some { w with
      nfts := put w.nfts a (some (Nft.fresh e.std))
      nonce := w.nonce + 1
      maps := ⟨fun x => if x = classId then some a else w.maps.toAddr x,
               fun x => if x = a then some classId else w.maps.toDenom x⟩ }

/-- x/evm/keeper/erc721.go:53-98 (`CreateOrUpdateClass`) -/
def createOrUpdateClass (e : Env) (classId uri : Str) (w : NW) : Option NW :=
  match (if (w.maps.toAddr classId).isSome then some w else deployClass e w classId) with
  | none => none
  | some w1 =>
    match classToContract w1 classId with
    | none => none
    | some a => some { w1 with uris := put w1.uris a (some uri) }

/-- A message call to a contract; an account without code accepts every call and does nothing. -/
def callNft (e : Env) (w : NW) (caller a : Addr) (call : Call) : Option NW :=
  match w.nfts a with
  | none => some w
  | some c => match exec e.accepts caller call c with
    | none => none
    | some c' => some { w with nfts := put w.nfts a (some c') }

/-- x/evm/keeper/erc721.go:115-131: the loop of `Transfers`. -/
def transferLoop (e : Env) (sender receiver : Addr) (classId : Str) (a : Addr) : List Str → NW → Option NW
  | [], w => some w
  | t :: ts, w =>
    match tokenNumber e.sha classId t with
    | none => none
    | some n => match callNft e w sender a (.safeTransferFrom sender receiver n) with
      | none => none
      | some w' => transferLoop e sender receiver classId a ts w'

/-- x/evm/keeper/erc721.go:100-132 (`Transfers`) -/
def transfers (e : Env) (sender receiver : Addr) (classId : Str) (ids : List Str) (w : NW) : Option NW :=
  match classToContract w classId with
  | none => none
  | some a => transferLoop e sender receiver classId a ids w

/-- x/evm/keeper/erc721.go:171-181: the loop of `Burns`, with 132-157 (`Burn`). -/
def burnLoop (e : Env) (owner : Addr) (classId : Str) (a : Addr) : List Str → NW → Option NW
  | [], w => some w
  | t :: ts, w =>
    match tokenNumber e.sha classId t with
    | none => none
    | some n => match callNft e w owner a (.burn n) with
      | none => none
      | some w' => burnLoop e owner classId a ts w'

/-- x/evm/keeper/erc721.go:160-184 (`Burns`) -/
def burns (e : Env) (owner : Addr) (classId : Str) (ids : List Str) (w : NW) : Option NW :=
  match classToContract w classId with
  | none => none
  | some a => burnLoop e owner classId a ids w

/-- x/evm/keeper/erc721.go:226-238: the loop of `Mints`, with 186-211 (`Mint`). A token without a URI is an index out
of range: a panic, which aborts the transaction. -/
def mintLoop (e : Env) (receiver : Addr) (classId : Str) (a : Addr) : List Str → List Str → NW → Option NW
  | [], _, w => some w
  | _ :: _, [], _ => none
  | t :: ts, u :: us, w =>
    match tokenNumber e.sha classId t with
    | none => none
    | some n => match callNft e w e.std a (.mint receiver n u t) with
      | none => none
      | some w' => mintLoop e receiver classId a ts us w'

/-- x/evm/keeper/erc721.go:213-240 (`Mints`) -/
def mints (e : Env) (receiver : Addr) (classId : Str) (ids uris : List Str) (w : NW) : Option NW :=
  match classToContract w classId with
  | none => none
  | some a => mintLoop e receiver classId a ids uris w

/-- x/evm/keeper/erc721.go:323-359 (`OwnerOf`): no code or no owner is an error. -/
def ownerOf (e : Env) (w : NW) (classId tokenId : Str) : Option Addr :=
  match classToContract w classId with
  | none => none
  | some a => match tokenNumber e.sha classId tokenId with
    | none => none
    | some n => match w.nfts a with
      | none => none
      | some c => if c.owners n = Addr.zero then none else some (c.owners n)

/-- x/evm/keeper/erc721.go:285-321 (`BalanceOf`; ERC721.sol:67-72) -/
def balanceOf (w : NW) (a : Addr) (classId : Str) : Option Nat :=
  match classToContract w classId with
  | none => none
  | some k => match w.nfts k with
    | none => none
    | some c => if a = Addr.zero then none else some (c.balances a)

/-- x/evm/keeper/erc721.go:264-283 (`GetTokenInfos`, the URIs) with 396-418 (`tokenURI`) -/
def tokenInfos (e : Env) (w : NW) (classId : Str) (ids : List Str) : Option (List Str) :=
  match classToContract w classId with
  | none => none
  | some a => ids.mapM fun t =>
    match tokenNumber e.sha classId t with
    | none => none
    | some n => (w.nfts a).map fun c => c.tokenUris n

/-- x/evm/keeper/genesis.go:222-240: the class traces of `ExportGenesis` for the given class ids; a class without a URI
panics. -/
def exportClasses (w : NW) (classIds : List Str) : Option (List (Str × Addr × Str)) :=
  classIds.mapM fun c =>
    match w.maps.toAddr c with
    | none => none
    | some a => (w.uris a).map fun u => (c, a, u)

end Verif.Nft
