import Verif.Model.World
/- Helper lemmas about the typed state database. -/
namespace Verif.World
open Verif

/-! #### Keys -/

theorem append_inj_addr {a b : Addr} {x y : Bytes} (h : a.bytes ++ x = b.bytes ++ y) : a = b ∧ x = y := by
  have := List.append_inj h (by rw [a.len, b.len])
  exact ⟨Addr.ext this.1, this.2⟩

theorem stateKey_inj {a b : Addr} {s t : Hash} (h : stateKey a s = stateKey b t) : a = b ∧ s = t := by
  have h1 := append_inj_addr h
  exact ⟨h1.1, Hash.ext (List.append_cancel_left h1.2)⟩

theorem codeKey_inj {a b : Addr} {g h : Bytes} (e : codeKey a g = codeKey b h) : a = b ∧ g = h := by
  have h1 := append_inj_addr e
  exact ⟨h1.1, List.append_cancel_left h1.2⟩

theorem codeSizeKey_inj {a b : Addr} {g h : Bytes} (e : codeSizeKey a g = codeSizeKey b h) : a = b ∧ g = h := by
  have h1 := append_inj_addr e
  exact ⟨h1.1, List.append_cancel_left h1.2⟩

/-- Code hashes stored in accounts are empty or 32 bytes. -/
def HashLen (h : Bytes) : Prop := h.length = 0 ∨ h.length = 32

theorem codeKey_length (a : Addr) (h : Bytes) : (codeKey a h).length = 24 + h.length := by
  simp [codeKey, a.len, codePrefix]; omega
theorem codeSizeKey_length (a : Addr) (h : Bytes) : (codeSizeKey a h).length = 28 + h.length := by
  simp [codeSizeKey, a.len, codeSizePrefix]; omega
theorem stateKey_length (a : Addr) (s : Hash) : (stateKey a s).length = 57 := by
  simp [stateKey, a.len, statePrefix, s.len]

theorem codeKey_ne_codeSizeKey (a b : Addr) {g h : Bytes} (hg : HashLen g) (hh : HashLen h) :
    codeKey a g ≠ codeSizeKey b h := by
  intro e
  have := congrArg List.length e
  rw [codeKey_length, codeSizeKey_length] at this
  rcases hg with hg | hg <;> rcases hh with hh | hh <;> omega

theorem codeKey_ne_stateKey (a b : Addr) {g : Bytes} (s : Hash) (hg : HashLen g) :
    codeKey a g ≠ stateKey b s := by
  intro e
  have := congrArg List.length e
  rw [codeKey_length, stateKey_length] at this
  rcases hg with hg | hg <;> omega

theorem codeSizeKey_ne_stateKey (a b : Addr) {g : Bytes} (s : Hash) (hg : HashLen g) :
    codeSizeKey a g ≠ stateKey b s := by
  intro e
  have := congrArg List.length e
  rw [codeSizeKey_length, stateKey_length] at this
  rcases hg with hg | hg <;> omega

theorem addr_ne_slot (a b : Addr) (s : Hash) : a.bytes ≠ b.bytes ++ s.bytes := by
  intro e
  have := congrArg List.length e
  simp [a.len, b.len, s.len] at this

theorem keyAddr_append (a : Addr) (x : Bytes) : keyAddr (a.bytes ++ x) = some a := by
  have : 20 ≤ (a.bytes ++ x).length := by simp [a.len]
  simp only [keyAddr, dif_pos this, Option.some.injEq]
  apply Addr.ext
  simp only
  rw [List.take_left' a.len]

theorem keyAddr_some {k : Bytes} {a : Addr} (h : keyAddr k = some a) : ∃ x, k = a.bytes ++ x := by
  unfold keyAddr at h
  split at h
  · simp only [Option.some.injEq] at h
    subst h
    exact ⟨k.drop 20, (List.take_append_drop 20 k).symm⟩
  · simp at h

/-! #### One-step effects -/

section
variable (keccak : Bytes → Hash)

theorem subBalance_eq {w w' : World} {a : Addr} {n : Nat} (h : w.subBalance a n = some w') :
    ∃ b, w' = { w with bal := b } := by
  unfold World.subBalance at h
  split at h
  · simp at h; subst h; exact ⟨w.bal, rfl⟩
  · split at h
    · simp at h; subst h; exact ⟨_, rfl⟩
    · simp at h

theorem selfDestruct_eq {w w' : World} {e : Nat} {a : Addr} (h : w.selfDestruct e a = some w') :
    ∃ b d, w' = { w with bal := b, destructed := d } ∧
      (∀ e' a', d e' a' = true → w.destructed e' a' = true ∨ (e' = e ∧ a' = a ∧ (w.acct a).isSome)) ∧
      (∀ e' a', w.destructed e' a' = true → d e' a' = true) := by
  unfold World.selfDestruct at h
  split at h
  · simp at h; subst h; exact ⟨w.bal, w.destructed, rfl, fun _ _ h => Or.inl h, fun _ _ h => h⟩
  · rename_i acc hacc
    obtain ⟨b, hb⟩ := subBalance_eq h
    subst hb
    refine ⟨b, _, rfl, ?_, ?_⟩
    · intro e' a' hd
      simp only [upd2] at hd
      split at hd
      · rename_i hc; exact Or.inr ⟨hc.1, hc.2, by simp [hacc]⟩
      · exact Or.inl hd
    · intro e' a' hd
      simp only [upd2]; split <;> simp [hd]

theorem selfDestruct6780_eq {w w' : World} {e : Nat} {a : Addr} (h : w.selfDestruct6780 e a = some w') :
    ∃ b d, w' = { w with bal := b, destructed := d } ∧
      (∀ e' a', d e' a' = true → w.destructed e' a' = true ∨
        (e' = e ∧ a' = a ∧ (w.acct a).isSome ∧ w.created e a = true)) ∧
      (∀ e' a', w.destructed e' a' = true → d e' a' = true) := by
  unfold World.selfDestruct6780 at h
  split at h
  · simp at h; subst h; exact ⟨w.bal, w.destructed, rfl, fun _ _ h => Or.inl h, fun _ _ h => h⟩
  · split at h
    · rename_i hc
      obtain ⟨b, d, rfl, h1, h2⟩ := selfDestruct_eq h
      refine ⟨b, d, rfl, ?_, h2⟩
      intro e' a' hd
      rcases h1 e' a' hd with h | ⟨h3, h4, h5⟩
      · exact Or.inl h
      · exact Or.inr ⟨h3, h4, h5, hc⟩
    · simp at h; subst h; exact ⟨w.bal, w.destructed, rfl, fun _ _ h => Or.inl h, fun _ _ h => h⟩

/-- Which parts of the world an operation of execution `e` can change. -/
structure Frame (e : Nat) (op : StateOp) (w w' : World) : Prop where
  tstate : ∀ e' k, (∀ a v, op ≠ .setTransientState a k v) ∨ e' ≠ e → w'.tstate e' k = w.tstate e' k
  created : ∀ e' a, op ≠ .createContract a ∨ e' ≠ e → w'.created e' a = w.created e' a
  destructed : ∀ e' a, (op ≠ .selfDestruct a ∧ op ≠ .selfDestruct6780 a) ∨ e' ≠ e →
    w'.destructed e' a = w.destructed e' a
  logSize : ∀ e', (∀ l, op ≠ .addLog l) ∨ e' ≠ e → w'.logSize e' = w.logSize e'
  logs : ∀ e' i, (∀ l, op ≠ .addLog l) ∨ e' ≠ e → w'.logs e' i = w.logs e' i
  access : ∀ e' k, e' ≠ e → w'.access e' k = w.access e' k
  refund : ∀ e', (∀ g, op ≠ .addRefund g ∧ op ≠ .subRefund g) ∨ e' ≠ e → w'.refund e' = w.refund e'
  acct : ∀ a, op ≠ .createAccount a → op ≠ .createContract a → (∀ c, op ≠ .setCode a c) →
    (∀ n, op ≠ .setNonce a n) → w'.acct a = w.acct a

theorem getOrNew_frame (w : World) (a : Addr) :
    (w.getOrNew a).1 = { w with nextNum := (w.getOrNew a).1.nextNum } := by
  unfold World.getOrNew
  split
  · rfl
  · rfl

theorem step_frame {e : Nat} {op : StateOp} {w w' : World} (h : w.step keccak e op = some w') :
    Frame e op w w' := by
  cases op with
  | addBalance a n =>
    simp only [World.step, World.addBalance] at h
    split at h
    · simp at h; subst h; constructor <;> intros <;> rfl
    · split at h
      · simp at h; subst h; constructor <;> intros <;> rfl
      · simp at h
  | subBalance a n =>
    simp only [World.step] at h
    obtain ⟨b, rfl⟩ := subBalance_eq h
    constructor <;> intros <;> rfl
  | addRefund g =>
    simp only [World.step, World.addRefund] at h
    split at h
    · simp at h
    · simp at h; subst h
      constructor <;> intros <;> try rfl
      rename_i e' hh
      simp only [upd]; split
      · rename_i he; rcases hh with hh | hh
        · exact absurd rfl (hh g).1
        · exact absurd he hh
      · rfl
  | subRefund g =>
    simp only [World.step, World.subRefund] at h
    split at h
    · simp at h
    · split at h
      · simp at h
      · simp at h; subst h
        constructor <;> intros <;> try rfl
        rename_i e' hh
        simp only [upd]; split
        · rename_i he; rcases hh with hh | hh
          · exact absurd rfl (hh g).2
          · exact absurd he hh
        · rfl
  | addAddress a =>
    simp only [World.step, World.addAddress, Option.some.injEq] at h; subst h
    constructor <;> intros <;> try rfl
    rename_i e' k hh
    simp [upd2, hh]
  | addSlot a s =>
    simp only [World.step, World.addSlot, Option.some.injEq] at h; subst h
    constructor <;> intros <;> (try split) <;> try rfl
    all_goals rename_i e' k hh _; simp [upd2, World.addAddress, hh]
  | createAccount a =>
    simp only [World.step, World.createAccount, World.newAccount, Option.some.injEq] at h; subst h
    constructor <;> intros <;> try rfl
    rename_i b h1 h2 h3 h4
    simp only [upd]; split
    · rename_i he; exact absurd (by rw [he]) h1
    · rfl
  | createContract a =>
    simp only [World.step, World.createContract] at h
    split at h
    · split at h
      · simp only [Option.some.injEq] at h; subst h
        constructor <;> intros <;> try rfl
        · rename_i e' b hh
          simp only [upd2]; split
          · rename_i he; rcases hh with hh | hh
            · exact absurd (by rw [he.2]) hh
            · exact absurd he.1 hh
          · rfl
        · rename_i b h1 h2 h3 h4
          simp only [upd]; split
          · rename_i he; exact absurd (by rw [he]) h2
          · rfl
      · simp at h
    · simp only [Option.some.injEq] at h; subst h
      constructor <;> intros <;> try rfl
      · rename_i e' b hh
        simp only [upd2]; split
        · rename_i he; rcases hh with hh | hh
          · exact absurd (by rw [he.2]) hh
          · exact absurd he.1 hh
        · rfl
      · rename_i b h1 h2 h3 h4
        simp only [upd]; split
        · rename_i he; exact absurd (by rw [he]) h2
        · rfl
  | setCode a c =>
    simp only [World.step, World.setCode] at h
    rw [getOrNew_frame] at h
    split at h
    · simp only [Option.some.injEq] at h; subst h
      constructor <;> intros <;> try rfl
      rename_i b h1 h2 h3 h4
      simp only [upd]; split
      · rename_i he; exact absurd (by rw [he]) (h3 c)
      · rfl
    · simp at h
  | setNonce a n =>
    simp only [World.step, World.setNonce, Option.some.injEq] at h
    rw [getOrNew_frame] at h
    subst h
    constructor <;> intros <;> try rfl
    rename_i b h1 h2 h3 h4
    simp only [upd]; split
    · rename_i he; exact absurd (by rw [he]) (h4 n)
    · rfl
  | setState a s v =>
    simp only [World.step, World.setState, Option.some.injEq] at h; subst h
    constructor <;> intros <;> rfl
  | setTransientState a k v =>
    simp only [World.step, World.setTransientState, Option.some.injEq] at h
    split at h
    · subst h; constructor <;> intros <;> rfl
    · subst h
      constructor <;> intros <;> try rfl
      rename_i e' k' hh
      simp only [upd2]; split
      · rename_i he; rcases hh with hh | hh
        · exact absurd (by rw [he.2]) (hh a v)
        · exact absurd he.1 hh
      · rfl
  | selfDestruct a =>
    simp only [World.step] at h
    obtain ⟨b, d, rfl, h1, h2⟩ := selfDestruct_eq h
    constructor <;> intros <;> try rfl
    rename_i e' a' hh
    simp only
    cases hd : d e' a' with
    | true =>
      rcases h1 e' a' hd with h3 | ⟨h3, h4, _⟩
      · exact h3.symm
      · rcases hh with hh | hh
        · exact absurd (by rw [h4]) hh.1
        · exact absurd h3 hh
    | false =>
      cases hw : w.destructed e' a' with
      | true => rw [h2 e' a' hw] at hd; simp at hd
      | false => rfl
  | selfDestruct6780 a =>
    simp only [World.step] at h
    obtain ⟨b, d, rfl, h1, h2⟩ := selfDestruct6780_eq h
    constructor <;> intros <;> try rfl
    rename_i e' a' hh
    simp only
    cases hd : d e' a' with
    | true =>
      rcases h1 e' a' hd with h3 | ⟨h3, h4, _⟩
      · exact h3.symm
      · rcases hh with hh | hh
        · exact absurd (by rw [h4]) hh.2
        · exact absurd h3 hh
    | false =>
      cases hw : w.destructed e' a' with
      | true => rw [h2 e' a' hw] at hd; simp at hd
      | false => rfl
  | addLog l =>
    simp only [World.step, World.addLog] at h
    split at h
    · simp at h
    · simp only [Option.some.injEq] at h; subst h
      constructor <;> intros <;> try rfl
      · rename_i e' hh
        simp only [upd]; split
        · rename_i he; rcases hh with hh | hh
          · exact absurd rfl (hh l)
          · exact absurd he hh
        · rfl
      · rename_i e' i hh
        simp only [upd2]; split
        · rename_i he; rcases hh with hh | hh
          · exact absurd rfl (hh l)
          · exact absurd he.1 hh
        · rfl

/-- Contract accounts hold an empty or a 32-byte code hash. -/
def WF (w : World) : Prop := ∀ a acc h, w.acct a = some acc → acc.kind = .contract h → HashLen h

theorem step_WF {e : Nat} {op : StateOp} {w w' : World} (hw : WF w) (h : w.step keccak e op = some w') :
    WF w' := by
  have hf := step_frame keccak h
  intro b acc g hacc hk
  cases op with
  | createAccount a =>
    simp only [World.step, World.createAccount, World.newAccount, Option.some.injEq] at h; subst h
    simp only [upd] at hacc
    split at hacc
    · simp at hacc; subst hacc; simp at hk
    · exact hw b acc g hacc hk
  | createContract a =>
    simp only [World.step, World.createContract] at h
    split at h
    · split at h
      · simp only [Option.some.injEq] at h; subst h
        simp only [upd] at hacc
        split at hacc
        · simp [newContractAccount] at hacc; subst hacc; simp at hk; subst hk; exact Or.inl rfl
        · exact hw b acc g hacc hk
      · simp at h
    · simp only [Option.some.injEq] at h; subst h
      simp only [upd] at hacc
      split at hacc
      · simp [newContractAccount] at hacc; subst hacc; simp at hk; subst hk; exact Or.inl rfl
      · exact hw b acc g hacc hk
  | setCode a c =>
    simp only [World.step, World.setCode] at h
    rw [getOrNew_frame] at h
    split at h
    · simp only [Option.some.injEq] at h; subst h
      simp only [upd] at hacc
      split at hacc
      · simp only [Option.some.injEq] at hacc; subst hacc; simp only [Kind.contract.injEq] at hk
        subst hk; exact Or.inr (keccak c).len
      · exact hw b acc g hacc hk
    · simp at h
  | setNonce a n =>
    simp only [World.step, World.setNonce, Option.some.injEq] at h
    subst h
    simp only [World.getOrNew] at hacc
    split at hacc
    · rename_i acc0 h0
      simp only [upd] at hacc
      split at hacc
      · simp only [Option.some.injEq] at hacc; subst hacc; exact hw a acc0 g h0 hk
      · exact hw b acc g hacc hk
    · simp only [upd, World.newAccount] at hacc
      split at hacc
      · simp only [Option.some.injEq] at hacc; subst hacc; simp at hk
      · exact hw b acc g hacc hk
  | _ =>
    rw [hf.acct b (by simp) (by simp) (by simp) (by simp)] at hacc
    exact hw b acc g hacc hk

theorem run_WF {ops : List (Nat × StateOp)} {w w' : World} (hw : WF w) (h : w.run keccak ops = some w') :
    WF w' := by
  induction ops generalizing w with
  | nil => simp only [World.run, Option.some.injEq] at h; subst h; exact hw
  | cons x ops ih =>
    obtain ⟨e, op⟩ := x
    simp only [World.run] at h
    split at h
    · simp at h
    · rename_i w1 h1; exact ih (step_WF keccak hw h1) h

/-- Only `SetState` and `SetCode` write `vmStore`. -/
theorem step_vm {e : Nat} {op : StateOp} {w w' : World} (h : w.step keccak e op = some w') :
    (∃ a s v, op = .setState a s v ∧ w'.vm = upd w.vm (stateKey a s) (some v.bytes)) ∨
    (∃ a c, op = .setCode a c ∧ w'.vm = upd (upd w.vm (codeKey a (keccak c).bytes) (some c))
        (codeSizeKey a (keccak c).bytes) (some (uint64ToBytes c.length))) ∨
    w'.vm = w.vm := by
  cases op with
  | addBalance a n =>
    simp only [World.step, World.addBalance] at h
    split at h
    · simp at h; subst h; exact Or.inr (Or.inr rfl)
    · split at h
      · simp at h; subst h; exact Or.inr (Or.inr rfl)
      · simp at h
  | subBalance a n =>
    simp only [World.step] at h
    obtain ⟨b, rfl⟩ := subBalance_eq h; exact Or.inr (Or.inr rfl)
  | addRefund g =>
    simp only [World.step, World.addRefund] at h
    split at h
    · simp at h
    · simp at h; subst h; exact Or.inr (Or.inr rfl)
  | subRefund g =>
    simp only [World.step, World.subRefund] at h
    split at h
    · simp at h
    · split at h
      · simp at h
      · simp at h; subst h; exact Or.inr (Or.inr rfl)
  | addAddress a => simp only [World.step, Option.some.injEq] at h; subst h; exact Or.inr (Or.inr rfl)
  | addSlot a s =>
    simp only [World.step, World.addSlot, Option.some.injEq] at h; subst h
    refine Or.inr (Or.inr ?_); simp only; split <;> rfl
  | createAccount a => simp only [World.step, Option.some.injEq] at h; subst h; exact Or.inr (Or.inr rfl)
  | createContract a =>
    simp only [World.step, World.createContract] at h
    split at h
    · split at h
      · simp only [Option.some.injEq] at h; subst h; exact Or.inr (Or.inr rfl)
      · simp at h
    · simp only [Option.some.injEq] at h; subst h; exact Or.inr (Or.inr rfl)
  | setCode a c =>
    simp only [World.step, World.setCode] at h
    rw [getOrNew_frame] at h
    split at h
    · simp only [Option.some.injEq] at h; subst h; exact Or.inr (Or.inl ⟨a, c, rfl, rfl⟩)
    · simp at h
  | setNonce a n =>
    simp only [World.step, World.setNonce, Option.some.injEq] at h
    rw [getOrNew_frame] at h; subst h; exact Or.inr (Or.inr rfl)
  | setState a s v =>
    simp only [World.step, World.setState, Option.some.injEq] at h; subst h
    exact Or.inl ⟨a, s, v, rfl, rfl⟩
  | setTransientState a k v =>
    simp only [World.step, World.setTransientState, Option.some.injEq] at h
    split at h <;> subst h <;> exact Or.inr (Or.inr rfl)
  | selfDestruct a =>
    simp only [World.step] at h
    obtain ⟨b, d, rfl, _⟩ := selfDestruct_eq h; exact Or.inr (Or.inr rfl)
  | selfDestruct6780 a =>
    simp only [World.step] at h
    obtain ⟨b, d, rfl, _⟩ := selfDestruct6780_eq h; exact Or.inr (Or.inr rfl)
  | addLog l =>
    simp only [World.step, World.addLog] at h
    split at h
    · simp at h
    · simp only [Option.some.injEq] at h; subst h; exact Or.inr (Or.inr rfl)

/-- Existing accounts never disappear before the commit. -/
theorem step_acct_isSome {e : Nat} {op : StateOp} {w w' : World} (h : w.step keccak e op = some w')
    {b : Addr} (hb : (w.acct b).isSome) : (w'.acct b).isSome := by
  have hf := step_frame keccak h
  cases op with
  | createAccount a =>
    simp only [World.step, World.createAccount, World.newAccount, Option.some.injEq] at h; subst h
    simp only [upd]; split <;> simp [hb]
  | createContract a =>
    simp only [World.step, World.createContract] at h
    split at h
    · split at h
      · simp only [Option.some.injEq] at h; subst h; simp only [upd]; split <;> simp [hb]
      · simp at h
    · simp only [Option.some.injEq] at h; subst h; simp only [upd]; split <;> simp [hb]
  | setCode a c =>
    simp only [World.step, World.setCode] at h
    rw [getOrNew_frame] at h
    split at h
    · simp only [Option.some.injEq] at h; subst h; simp only [upd]; split <;> simp [hb]
    · simp at h
  | setNonce a n =>
    simp only [World.step, World.setNonce, Option.some.injEq] at h
    rw [getOrNew_frame] at h; subst h; simp only [upd]; split <;> simp [hb]
  | _ => rw [hf.acct b (by simp) (by simp) (by simp) (by simp)]; exact hb

end
end Verif.World
