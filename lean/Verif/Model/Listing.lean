import Verif.Model.Exec
/-
Model of a balance listing on a gas meter, with tokens of arbitrary code in it: x/evm/keeper/erc20.go:243-267
(`IterateAccountBalances`), 175-200 (`GetPaginatedBalances`, one page), 404-426 (`balanceOf`) with
x/evm/keeper/context.go:207-233 (`EVMStaticCallWithTracer`). Queries run on a gas meter of the configured query gas limit
(cmd/minitiad/config.go:46; cosmos-sdk, by contract).
-/
namespace Verif.Listing
open Verif Verif.Exec

/-- The code of a token, as `balanceOf` of the account sees it: from the gas given to the gas left and the answer; `none`:
an error, or an answer that is not an ABI-encoded number (erc20.go:415-423). -/
abbrev Code := Nat → Nat × Option Nat

/-- Gas costs of store accesses for one entry of the listing: before the call (iterator, parameters, fee) and after it
(`ContractAddrToDenom`). The latter always costs something. -/
structure Costs where
  before : Nat
  after : Nat
  after_pos : 0 < after

/-- x/evm/keeper/erc20.go:404-426 (`balanceOf`) on the gas meter: the balance, zero on an error (250-253). `none`: the gas
meter panicked. -/
def askBalance (code : Code) (m : Meter) : Option (Meter × Nat) :=
  let g := computeGasLimit none m
  (m.consume (calGasUsed g (code g).1 0)).map fun m' => (m', (code g).2.getD 0)

/-- One entry (erc20.go:249-266). -/
def entry (k : Costs) (code : Code) (m : Meter) : Option (Meter × Nat) :=
  (m.consume k.before).bind fun m1 => (askBalance code m1).bind fun r => (r.1.consume k.after).map fun m3 => (m3, r.2)

/-- The entries of an account, in order, with their balances. `none`: the query fails (out of gas). -/
def entries (k : Costs) : List (Addr × Code) → Meter → Option (List (Addr × Nat))
  | [], _ => some []
  | (a, code) :: rest, m => (entry k code m).bind fun r => (entries k rest r.1).map fun l => (a, r.2) :: l

/-- x/evm/keeper/erc20.go:243-267 (`IterateAccountBalances`): zero balances are skipped (262-264). -/
def listing (k : Costs) (toks : List (Addr × Code)) (m : Meter) : Option (List (Addr × Nat)) :=
  (entries k toks m).map fun l => l.filter fun x => x.2 ≠ 0

end Verif.Listing
