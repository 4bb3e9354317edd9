import Verif.Model.Value
import Verif.Model.Params
/-
Model of the test a new fee denom has to pass: x/evm/keeper/msg_server.go:229-257 (`testFeeDenom`), with
x/evm/keeper/context_utils.go:18-40 (`LoadFee`).
-/
namespace Verif.FeeDenom
open Verif Verif.Denom Verif.Tokens Verif.Value

/-- x/evm/keeper/context_utils.go:24-37 (`LoadFee`, called by `CreateEVM`): the decimals of the fee contract are asked
unless it is the zero address; without code there the answer cannot be read, which is an error. -/
def loadFee (c : Chain) (w : World) (fee : Addr) : Bool :=
  if fee = c.zero then true else (w.tokens fee).isSome

/-- x/evm/keeper/msg_server.go:230-254: the denom must name a contract, and one unit must be minted to and burned from 0x1
without a panic, in a branch of the store that is thrown away. -/
def feeTest (c : Chain) (w : World) (denom : Str) : Bool :=
  match denomToContract w.maps denom with
  | none => false
  | some fee =>
    loadFee c w fee &&
      ((addBalance c fee w c.chainAddr 1).bind fun w1 => subBalance c fee w1 c.chainAddr 1).isSome

/-- x/evm/keeper/msg_server.go:200-226 (`UpdateParams`) on a chain whose tokens are `w`. -/
def update {K : Type} (c : Chain) (w : World) (e : TxUtils.Env K) (authority sender : Str) (new : Params.Params) :
    Option Params.Params :=
  Params.updateParams e authority (fun p => feeTest c w p.feeDenom) sender new

/-- A history of messages with fee contract `fee`, after the update; an aborted message changes nothing. -/
def history (c : Chain) (fee : Addr) : List (Prog × List Addr) → World → World
  | [], w => w
  | (p, ds) :: rest, w => history c fee rest ((message c fee p ds w).getD w)

end Verif.FeeDenom
