import Verif.Model.TxUtils
/-
Model of the module parameters, their update and their use: x/evm/types/params.go, x/evm/keeper/msg_server.go
(UpdateParams, Create, Create2), and block hash tracking (x/evm/abci.go, x/evm/keeper/keeper.go).
-/
namespace Verif.Params
open Verif Verif.Text Verif.TxUtils

/-- x/evm/types (proto params): the fields the code below reads; `rest` stands for the others. -/
structure Params where
  allowedPublishers : List Str
  allowCustomERC20 : Bool
  allowedCustomERC20s : List Str
  feeDenom : Str
  /-- `LegacyDec`, 18 decimals -/
  gasRefundRatio : Int
  numRetain : Nat
  extraEIPs : List Int
deriving DecidableEq

/-- x/evm/types/params.go:28-52 (`Validate`) -/
def validate {K : Type} (e : Env K) (p : Params) : Bool :=
  p.allowedPublishers.all (fun s => (e.unbech s).isSome) &&
  p.allowedCustomERC20s.all (fun s => (contractAddressFromString e s).isSome) &&
  !(p.gasRefundRatio < 0 || p.gasRefundRatio > 10 ^ 18) &&
  !(p.numRetain ≠ 0 && p.numRetain < 256)

/-- x/evm/keeper/msg_server.go:200-226 (`UpdateParams`). `feeTest` is the dry run of 226-256 in a discarded branch
of the store. `none`: rejected. -/
def updateParams {K : Type} (e : Env K) (authority : Str) (feeTest : Params → Bool) (sender : Str) (new : Params) :
    Option Params :=
  if authority ≠ sender then none
  else if !feeTest new then none
  else if !validate e new then none
  else some new

/-- The check of x/evm/keeper/msg_server.go:55-68 and 111-124. -/
def publisherAllowed (p : Params) (sender : Str) : Bool :=
  p.allowedPublishers.length == 0 || p.allowedPublishers.any (fun s => sender == s)

/-- x/evm/keeper/msg_server.go:28-81 (`Create`) and 84-137 (`Create2`): `convert` is `convertToEVMAddress(_, true)`
(C30), `evm` runs the creation with the caller, code and value; both act on a state `S`. The message is executed in a
branch of the state that is dropped on error, so `none` means: no effect. -/
def createMsg {K S R : Type} (e : Env K) (convert : S → Bytes → Option (Addr × S))
    (evm : S → Addr → Bytes → Nat → Option (R × S)) (p : Params) (sender code : Str) (value : Int) (s : S) :
    Option (R × S) :=
  match e.unbech sender with
  | none => none
  | some raw => match convert s raw with
    | none => none
    | some (caller, s1) =>
      if code.length = 0 then none
      else match decode0x code with
        | none => none
        | some bz =>
          -- `uint256.FromBig`: the magnitude must fit, a negative value wraps around
          if value.natAbs ≥ 2 ^ 256 then none
          else if !publisherAllowed p sender then none
          else evm s1 caller bz (value % 2 ^ 256).toNat

/-! ### Block hashes -/

/-- The collection `EVMBlockHashes`. -/
abbrev Hashes := Nat → Option Hash

/-- x/evm/keeper/keeper.go:274-289 (`TrackBlockHash`) -/
def track (num : Nat) (m : Hashes) (h : Nat) (v : Hash) : Hashes :=
  let m1 : Hashes := if num ≠ 0 ∧ h > num then fun x => if x = h - num then none else m x else m
  fun x => if x = h then some v else m1 x

/-- x/evm/abci.go:14-23 (`PreBlock`) at height `h` with the context's header hash. -/
def preBlock (num : Nat) (m : Hashes) (h : Nat) (headerHash : Hash) : Hashes :=
  if h ≤ 1 then m else track num m (h - 1) headerHash

/-- x/evm/keeper/context.go:118-125 (`GetHash`) -/
def getHash (m : Hashes) (n : Nat) : Hash := (m n).getD Hash.zero

/-- go-ethereum `opBlockhash` (outside /repo, by contract) in block `h`. -/
def blockhashOp (m : Hashes) (h n : Nat) : Hash :=
  let lower := if h < 257 then 0 else h - 256
  if lower ≤ n ∧ n < h then getHash m n else Hash.zero

end Verif.Params
