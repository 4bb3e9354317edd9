import Verif.Spec.Books
import Verif.Spec.Ledger
/-
Specification vocabulary for C98: whose money an act may touch.
-/
namespace Verif.Spec.Safe
open Verif Verif.Text Verif.Denom Verif.Tokens Verif.Identity Verif.Bank Verif.Books Verif.Spec.Value

/-- `A` is the Cosmos address of the holder at EVM address `x`: either the 20 bytes themselves, with an account that is
in use (a public key, a sequence, a module or a contract), or the longer address whose shorthand account lies there. -/
def Holder (A : Bytes) (x : Addr) (m : Accts) : Prop :=
  ∃ acc, m x = some acc ∧ ((∃ n, A.length ≠ 20 ∧ acc = .shorthand A n) ∨
    (A = x.bytes ∧ isEmpty acc = false ∧ ∀ o n, acc ≠ .shorthand o n))

/-- The address of the holder, in either form. -/
def mine (A : Bytes) (x : Addr) (f : Bytes) : Bool := decide (f = A ∨ f = x.bytes)

/-- The address of a module. -/
def moduleIs (g : Cfg) (A : Bytes) (x : Addr) (m : Str) : Bool :=
  match g.modules m with
  | some mo => mine A x mo.addr
  | none => false

/-- The coins an act says it takes from the holder. -/
def takes (g : Cfg) (A : Bytes) (x : Addr) : Act → Bank.Coins
  | .send m => if (g.parseAddr m.from_).any (mine A x) then natCoins m.amount else []
  | .fromModule m _ coins => if moduleIs g A x m then coins else []
  | .betweenModules m _ coins => if moduleIs g A x m then coins else []
  | .toModule f _ coins => if mine A x f then coins else []
  | .delegate f _ coins => if mine A x f then coins else []
  | .pay f _ coins => if mine A x f then coins else []
  | .undelegate m _ coins => if moduleIs g A x m then coins else []
  | _ => []

/-- The act is possible, no contract code runs in the holder's name (nor destroys a contract at his address), and he is
not a module that burns. -/
def Foreign (g : Cfg) (A : Bytes) (x : Addr) : Act → Prop
  | .evm _ p destroyed => CallersIn (fun a => a ≠ x ∧ a ≠ g.chain.chainAddr) p ∧ x ∉ destroyed
  | .burn m _ => moduleIs g A x m = false
  | a => Spec.Books.Possible g a

/-- `x` has approved nobody else, in any token. (Approvals for the chain's own address `ch` do not matter.) -/
def ApprovedNobody (ch x : Addr) (w : World) : Prop := NoAllowance x (fun a => a ≠ x ∧ a ≠ ch) w

end Verif.Spec.Safe
