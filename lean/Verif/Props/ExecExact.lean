import Verif.Props.Exec
/-
C47: exactly when an access list has its effect.
-/
namespace Verif.Props.Exec
open Verif Verif.World Verif.Exec

/-- **C47 (exactly when).** Every address and slot of the access list is warm when the execution starts exactly if the message creates a
contract, or the list names nothing but addresses that are warm in any case. -/
theorem C47_iff (w : World) (e : Nat) (kind : EvmMsgKind) (sender target : Addr) (pre : List Addr) (list : List AccessTuple)
    (hclean : ∀ k, w.access e k = false) :
    (∀ t ∈ list, (prepareMsg w e kind sender target pre list).addressInAccessList e t.addr = true ∧
      ∀ s ∈ t.keys, ((prepareMsg w e kind sender target pre list).slotInAccessList e t.addr s).2 = true) ↔
    kind ≠ .call ∨ ∀ t ∈ list, t.keys = [] ∧ (t.addr = sender ∨ t.addr = target ∨ t.addr ∈ pre ∨ t.addr = Addr.zero) := by
  by_cases hk : kind = .call
  · subst hk
    simp only [ne_eq, not_true_eq_false, false_or]
    constructor
    · intro h t ht
      refine ⟨?_, (C47_violated w e sender target pre list hclean t.addr Hash.zero).1.1 (h t ht).1⟩
      cases hks : t.keys with
      | nil => rfl
      | cons s ss =>
        have := (h t ht).2 s (by rw [hks]; simp)
        rw [(C47_violated w e sender target pre list hclean t.addr s).2] at this
        cases this
    · intro h t ht
      refine ⟨(C47_violated w e sender target pre list hclean t.addr Hash.zero).1.2 (h t ht).2, fun s hs => ?_⟩
      rw [(h t ht).1] at hs
      cases hs
  · refine ⟨fun _ => .inl hk, fun _ t ht => C47_create_partial w e kind hk sender target pre list hclean t ht⟩

/-- A list that names only the called contract itself does no harm; one with a slot does. -/
example : (⟨Addr.ofNat 6, []⟩ : AccessTuple).keys = [] ∧ (⟨Addr.ofNat 7, [Hash.ofNat 3]⟩ : AccessTuple).keys ≠ [] := ⟨rfl, by simp⟩

end Verif.Props.Exec
