import Verif.Model.Memo
/-
What a memo says, on the tree of its JSON text (app/ibc-hooks/README.md, "EVM Contract Execution Format", "Async
Callback"). Used by Props/Memo.lean.
-/
namespace Verif.Memo.Spec
open Verif Verif.Text Verif.WrapMsg Verif.Memo

/-- Two member names are the same for encoding/json: letter case does not matter (long s and the Kelvin sign included). -/
def sameName (k name : Str) : Bool :=
  k.map (fun c => if c.toNat = 0x17F then 's' else if c.toNat = 0x212A then 'k' else c.toLower) == name

/-- Exactly one member of an object has this name (letter case aside), with this value. -/
def Only (ms : List (Str × Json)) (name : String) (v : Json) : Prop :=
  ∃ pre k post, ms = pre ++ (k, v) :: post ∧ sameName k name.toList = true ∧ ∀ m ∈ pre ++ post, sameName m.1 name.toList = false

/-- No member has this name. -/
def Absent (ms : List (Str × Json)) (name : String) : Prop := ∀ m ∈ ms, sameName m.1 name.toList = false

/-- The memo is a JSON object directed to the hook: it has a member `evm`, the last one being this value. No number in it
exceeds the float64 range. -/
def Directed (F : Floats) (memo : Str) (v : Json) : Prop :=
  ∃ top t, whole memo = some (.obj top) ∧ iface F (.obj top) = some t ∧ WrapMsg.field top "evm".toList = some v

/-- The message, if there is one, is well formed. -/
def MessageFine (F : Floats) (ms : List (Str × Json)) : Prop :=
  Absent ms "message" ∨ ∃ v v', Only ms "message" v ∧ iface F v = some v' ∧ (decMsg F none v').2 = true

/-- The memo asks for a callback with this id (written in decimal) to this contract. -/
def AsksFor (F : Floats) (memo : Str) (id : Nat) (contract : Str) : Prop :=
  ∃ ms cs, Directed F memo (.obj ms) ∧ Only ms "async_callback" (.obj cs) ∧ Only cs "id" (.lit (natStr id)) ∧
    Only cs "contract_address" (.str contract) ∧ MessageFine F ms

/-- The same with the name of the README. -/
def AsksDocumented (F : Floats) (memo : Str) (id : Nat) (contract : Str) : Prop :=
  ∃ ms cs, Directed F memo (.obj ms) ∧ Only ms "async_callback" (.obj cs) ∧ Only cs "id" (.lit (natStr id)) ∧
    Only cs "contract_addr" (.str contract) ∧ Absent cs "contract_address" ∧ MessageFine F ms

end Verif.Memo.Spec
