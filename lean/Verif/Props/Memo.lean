import Verif.Spec.Memo
import Verif.Props.Hooks
import Verif.Props.WrapMsg
/-
C86: a memo is obeyed as documented.
-/
namespace Verif.Memo
open Verif Verif.Text Verif.WrapMsg Verif.Props.WrapMsg Verif.Hooks Verif.Hooks.Spec Verif.Memo.Spec

/-- The specification's `Only` and `Absent` with the model's comparison of names. -/
def OnlyK (ms : List (Str × Json)) (name : String) (v : Json) : Prop :=
  ∃ pre k post, ms = pre ++ (k, v) :: post ∧ isKey k name.toList = true ∧ ∀ m ∈ pre ++ post, isKey m.1 name.toList = false
def AbsentK (ms : List (Str × Json)) (name : String) : Prop := ∀ m ∈ ms, isKey m.1 name.toList = false

/-! ### Numbers -/

theorem toF64_small (n : Nat) (h : n < 2 ^ 53) : toF64 n = n := by
  have hs : n.log2 - 52 = 0 := by
    by_cases h0 : n = 0
    · subst h0; decide
    · have := (Nat.log2_lt h0).2 h; omega
  simp only [toF64, hs, Nat.pow_zero, Nat.div_one, Nat.mod_one, Nat.mul_one]
  simp

theorem toF64_large (n : Nat) (h : 2 ^ 53 ≤ n) : 2 ^ 53 ≤ toF64 n ∧ toF64 n % 2 = 0 := by
  have h0 : n ≠ 0 := by omega
  have hl : 53 ≤ n.log2 := by
    rcases Nat.lt_or_ge n.log2 53 with h1 | h1
    · have := (Nat.log2_lt h0).1 h1; omega
    · exact h1
  have hn : 2 ^ n.log2 ≤ n := Nat.log2_self_le h0
  obtain ⟨t, ht⟩ : ∃ t, n.log2 - 52 = t + 1 := ⟨n.log2 - 53, by omega⟩
  have hq : 2 ^ 52 ≤ n / 2 ^ (t + 1) := by
    rw [Nat.le_div_iff_mul_le (Nat.pow_pos (by decide)), ← Nat.pow_add]
    have : 52 + (t + 1) = n.log2 := by omega
    rw [this]; exact hn
  simp only [toF64, ht]
  generalize hQ : (if 2 ^ (t + 1) < 2 * (n % 2 ^ (t + 1)) ∨ 2 * (n % 2 ^ (t + 1)) = 2 ^ (t + 1) ∧ n / 2 ^ (t + 1) % 2 = 1
    then n / 2 ^ (t + 1) + 1 else n / 2 ^ (t + 1)) = Q
  have hQ2 : 2 ^ 52 ≤ Q := by
    rw [← hQ]; split <;> omega
  constructor
  · have : 1 ≤ 2 ^ t := Nat.one_le_two_pow
    calc 2 ^ 53 = 2 ^ 52 * 2 := by decide
      _ ≤ Q * (2 ^ t * 2) := Nat.mul_le_mul hQ2 (by omega)
      _ = Q * 2 ^ (t + 1) := by rw [Nat.pow_succ]
  · rw [Nat.pow_succ, ← Nat.mul_assoc, Nat.mul_mod_left]

theorem toF64_exact (n : Nat) (h : n ≤ 2 ^ 53) : toF64 n = n := by
  rcases Nat.lt_or_ge n (2 ^ 53) with h1 | h1
  · exact toF64_small n h1
  · have : n = 2 ^ 53 := by omega
    subst this; decide +kernel

/-- What is written for a float64 is read back as it, and is the float64 or a multiple of ten. -/
theorem shortAt_spec (f j m : Nat) (h : shortAt f (j + 1) = some m) : toF64 m = f ∧ m % 10 = 0 := by
  have e : ∀ a : Nat, a * 10 ^ (j + 1) % 10 = 0 := fun a => by rw [Nat.pow_succ, ← Nat.mul_assoc, Nat.mul_mod_left]
  have e2 : ∀ a : Nat, (a * 10 ^ (j + 1) + 10 ^ (j + 1)) % 10 = 0 := fun a => by
    rw [← Nat.succ_mul]; exact e _
  unfold shortAt at h
  simp only at h
  generalize hc : (if f - f / 10 ^ (j + 1) * 10 ^ (j + 1) ≤ f / 10 ^ (j + 1) * 10 ^ (j + 1) + 10 ^ (j + 1) - f then
    (f / 10 ^ (j + 1) * 10 ^ (j + 1), f / 10 ^ (j + 1) * 10 ^ (j + 1) + 10 ^ (j + 1))
    else (f / 10 ^ (j + 1) * 10 ^ (j + 1) + 10 ^ (j + 1), f / 10 ^ (j + 1) * 10 ^ (j + 1))) = c at h
  have hc2 : c.1 % 10 = 0 ∧ c.2 % 10 = 0 := by
    rw [← hc]
    split
    · exact ⟨e _, e2 _⟩
    · exact ⟨e2 _, e _⟩
  by_cases h1 : toF64 c.1 = f
  · rw [if_pos h1] at h
    simp only [Option.some.injEq] at h
    subst h
    exact ⟨h1, hc2.1⟩
  · rw [if_neg h1] at h
    by_cases h2 : toF64 c.2 = f
    · rw [if_pos h2] at h
      simp only [Option.some.injEq] at h
      subst h
      exact ⟨h2, hc2.2⟩
    · rw [if_neg h2] at h; cases h

theorem shortFrom_spec (f j : Nat) : shortFrom f j = f ∨ (toF64 (shortFrom f j) = f ∧ shortFrom f j % 10 = 0) := by
  induction j with
  | zero => exact .inl rfl
  | succ j ih =>
    have e : shortFrom f (j + 1) = (shortAt f (j + 1)).getD (shortFrom f j) := rfl
    rw [e]
    cases h : shortAt f (j + 1) with
    | none => exact ih
    | some m => exact .inr (shortAt_spec f j m h)

theorem shortest_small (n : Nat) (h : n ≤ 2 ^ 53) : shortest (toF64 n) = n := by
  rw [toF64_exact n h]
  rcases Nat.lt_or_ge n (2 ^ 53) with h1 | h1
  · rcases shortFrom_spec n 20 with h2 | ⟨h2, _⟩
    · exact h2
    · change shortFrom n 20 = n
      rcases Nat.lt_or_ge (shortFrom n 20) (2 ^ 53) with h3 | h3
      · rw [toF64_small _ h3] at h2; exact h2
      · have := (toF64_large _ h3).1; omega
  · have : n = 2 ^ 53 := by omega
    subst this; decide +kernel

theorem shortest_even (n : Nat) (h : 2 ^ 53 ≤ n) : shortest (toF64 n) % 2 = 0 := by
  rcases shortFrom_spec (toF64 n) 20 with h2 | ⟨_, h2⟩
  · change shortFrom (toF64 n) 20 % 2 = 0
    rw [h2]; exact (toF64_large n h).2
  · change shortFrom (toF64 n) 20 % 2 = 0
    omega

theorem toF64_top (n : Nat) (h1 : 2 ^ 64 - 1024 ≤ n) (h2 : n < 2 ^ 64) : toF64 n = 2 ^ 64 := by
  have h0 : n ≠ 0 := by omega
  have hl : n.log2 = 63 := by
    have a := (Nat.log2_lt (k := 64) h0).2 h2
    rcases Nat.lt_or_ge n.log2 63 with b | b
    · have := (Nat.log2_lt h0).1 b; omega
    · omega
  simp only [toF64, hl]
  have e1 : n / 2 ^ (63 - 52) = 2 ^ 53 - 1 := by
    have : (2 : Nat) ^ (63 - 52) = 2048 := by decide
    omega
  rw [e1]
  have e2 : (2 : Nat) ^ (63 - 52) = 2048 := by decide
  rw [if_pos]
  rw [e2]
  have : 1024 ≤ n % 2048 := by omega
  rcases Nat.lt_or_eq_of_le this with h | h
  · exact .inl (by omega)
  · exact .inr ⟨by omega, by decide⟩

/-! ### Objects -/

theorem put_find (k : Str) (v : Json) (key : Str) : ∀ ms,
    (((put k v ms).find? fun m => m.1 = key).map fun m => m.2) =
      if k = key then some v else (ms.find? fun m => m.1 = key).map fun m => m.2
  | [] => by
    by_cases h : k = key <;> simp [put, h]
  | m :: ms => by
    unfold put
    by_cases h1 : k = m.1
    · rw [if_pos h1]
      by_cases h2 : k = key
      · simp [h2]
      · have h3 : ¬ m.1 = key := fun h => h2 (h1.trans h)
        simp [h2, h3]
    · rw [if_neg h1]
      split
      · by_cases h2 : k = key <;> simp [h2]
      · have ih := put_find k v key ms
        by_cases h3 : m.1 = key
        · have h2 : ¬ k = key := fun h => h1 (h.trans h3.symm)
          simp [h2, h3]
        · rw [List.find?_cons_of_neg (by simp [h3]), ih, List.find?_cons_of_neg (by simp [h3])]

theorem members_find (F : Floats) (key : Str) : ∀ (ms acc ms' : List (Str × Json)), ifaceMembers F ms acc = some ms' →
    (((ms'.find? fun m => m.1 = key).map fun m => m.2) =
      match WrapMsg.field ms key with
      | some v => iface F v
      | none => (acc.find? fun m => m.1 = key).map fun m => m.2) ∧
    (∀ v, WrapMsg.field ms key = some v → ∃ v', iface F v = some v')
  | [], acc, ms', h => by
    simp only [ifaceMembers, Option.some.injEq] at h
    subst h
    simp [WrapMsg.field]
  | (k, v) :: ms, acc, ms', h => by
    rw [ifaceMembers] at h
    obtain ⟨v', hv, h⟩ := Option.bind_eq_some_iff.1 h
    obtain ⟨ih, ih2⟩ := members_find F key ms _ ms' h
    have hf : WrapMsg.field ((k, v) :: ms) key =
        match WrapMsg.field ms key with
        | some w => some w
        | none => if k = key then some v else none := by
      unfold WrapMsg.field
      by_cases hk : k = key
      · rw [List.filter_cons_of_pos (by simp [hk])]
        cases hl : (ms.filter fun m => m.1 = key) with
        | nil => simp [hk]
        | cons a as => rw [List.getLast?_cons_cons]
                       cases hx : (a :: as).getLast? with
                       | none => simp at hx
                       | some y => simp
      · rw [List.filter_cons_of_neg (by simp [hk])]
        cases hx : (ms.filter fun m => m.1 = key).getLast? <;> simp [hk]
    rw [hf, ih]
    cases hw : WrapMsg.field ms key with
    | some w => exact ⟨rfl, fun x hx => by simp only [Option.some.injEq] at hx; subst hx; exact ih2 _ hw⟩
    | none =>
      by_cases hk : k = key
      · simp only [hk, if_true, put_find]
        exact ⟨hv.symm, fun x hx => by simp only [Option.some.injEq] at hx; subst hx; exact ⟨v', hv⟩⟩
      · simp only [hk, if_false, put_find]
        exact ⟨trivial, fun x hx => by cases hx⟩

theorem absent_put {ms : List (Str × Json)} {name : String} (k : Str) (v : Json) (hk : isKey k name.toList = false)
    (h : AbsentK ms name) : AbsentK (put k v ms) name := by
  induction ms with
  | nil => intro m hm; simp only [put, List.mem_singleton] at hm; subst hm; exact hk
  | cons a as ih =>
    have h2 : AbsentK as name := fun m hm => h m (List.mem_cons_of_mem _ hm)
    intro m hm
    unfold put at hm
    split at hm
    · rcases List.mem_cons.1 hm with e | e
      · subst e; exact hk
      · exact h2 m e
    · split at hm
      · rcases List.mem_cons.1 hm with e | e
        · subst e; exact hk
        · exact h m e
      · rcases List.mem_cons.1 hm with e | e
        · subst e; exact h _ (by simp)
        · exact ih h2 m e

theorem only_cons {ms : List (Str × Json)} {name : String} {v : Json} (m : Str × Json) (hm : isKey m.1 name.toList = false)
    (h : OnlyK ms name v) : OnlyK (m :: ms) name v := by
  obtain ⟨pre, k, post, h1, h2, h3⟩ := h
  refine ⟨m :: pre, k, post, by rw [h1]; rfl, h2, ?_⟩
  intro x hx
  rcases List.mem_cons.1 hx with e | e
  · subst e; exact hm
  · exact h3 x e

theorem only_head {ms : List (Str × Json)} {name : String} {v : Json} {k : Str} (hk : isKey k name.toList = true)
    (h : AbsentK ms name) : OnlyK ((k, v) :: ms) name v := ⟨[], k, ms, rfl, hk, h⟩

theorem only_cases {m : Str × Json} {ms : List (Str × Json)} {name : String} {v : Json} (h : OnlyK (m :: ms) name v) :
    (isKey m.1 name.toList = true ∧ m.2 = v ∧ AbsentK ms name) ∨ (isKey m.1 name.toList = false ∧ OnlyK ms name v) := by
  obtain ⟨pre, k, post, h1, h2, h3⟩ := h
  cases pre with
  | nil =>
    simp only [List.nil_append, List.cons.injEq] at h1
    obtain ⟨e1, e2⟩ := h1
    subst e1; subst e2
    exact .inl ⟨h2, rfl, h3⟩
  | cons a as =>
    simp only [List.cons_append, List.cons.injEq] at h1
    obtain ⟨e1, e2⟩ := h1
    subst e1; subst e2
    exact .inr ⟨h3 _ (by simp), ⟨as, k, post, rfl, h2, fun x hx => h3 x (List.mem_cons_of_mem _ hx)⟩⟩

theorem put_only {ms : List (Str × Json)} {name : String} {k : Str} {v : Json} (hk : isKey k name.toList = true)
    (h : AbsentK ms name) : OnlyK (put k v ms) name v := by
  induction ms with
  | nil => exact only_head hk (by intro m hm; cases hm)
  | cons a as ih =>
    have h2 : AbsentK as name := fun m hm => h m (List.mem_cons_of_mem _ hm)
    have ha := h a (by simp)
    have hne : k ≠ a.1 := fun e => by rw [e, ha] at hk; cases hk
    unfold put
    rw [if_neg hne]
    split
    · exact only_head hk h
    · exact only_cons a ha (ih h2)

theorem only_put {ms : List (Str × Json)} {name : String} {k : Str} {v w : Json} (hk : isKey k name.toList = false)
    (h : OnlyK ms name w) : OnlyK (put k v ms) name w := by
  induction ms with
  | nil => obtain ⟨pre, k', post, h1, _⟩ := h; simp at h1
  | cons a as ih =>
    rcases only_cases h with ⟨h1, h2, h3⟩ | ⟨h1, h2⟩
    · have hne : k ≠ a.1 := fun e => by rw [e, h1] at hk; cases hk
      unfold put
      rw [if_neg hne]
      split
      · exact only_cons (k, v) hk h
      · obtain ⟨ak, av⟩ := a
        simp only at h2; subst h2
        exact only_head h1 (absent_put k v hk h3)
    · unfold put
      split
      · exact only_cons (k, v) hk h2
      · split
        · exact only_cons (k, v) hk h
        · exact only_cons a h1 (ih h2)

theorem members_absent (F : Floats) {name : String} : ∀ (ms acc ms' : List (Str × Json)), ifaceMembers F ms acc = some ms' →
    AbsentK ms name → AbsentK acc name → AbsentK ms' name
  | [], acc, ms', h, _, ha => by
    simp only [ifaceMembers, Option.some.injEq] at h
    subst h; exact ha
  | (k, v) :: ms, acc, ms', h, hm, ha => by
    rw [ifaceMembers] at h
    obtain ⟨v', hv, h⟩ := Option.bind_eq_some_iff.1 h
    exact members_absent F ms _ ms' h (fun m hx => hm m (List.mem_cons_of_mem _ hx))
      (absent_put k v' (hm (k, v) (by simp)) ha)

theorem members_keep (F : Floats) {name : String} {w : Json} : ∀ (ms acc ms' : List (Str × Json)),
    ifaceMembers F ms acc = some ms' → AbsentK ms name → OnlyK acc name w → OnlyK ms' name w
  | [], acc, ms', h, _, ha => by
    simp only [ifaceMembers, Option.some.injEq] at h
    subst h; exact ha
  | (k, v) :: ms, acc, ms', h, hm, ha => by
    rw [ifaceMembers] at h
    obtain ⟨v', hv, h⟩ := Option.bind_eq_some_iff.1 h
    exact members_keep F ms _ ms' h (fun m hx => hm m (List.mem_cons_of_mem _ hx))
      (only_put (hm (k, v) (by simp)) ha)

theorem members_only (F : Floats) {name : String} {w : Json} : ∀ (ms acc ms' : List (Str × Json)),
    ifaceMembers F ms acc = some ms' → OnlyK ms name w → AbsentK acc name → ∃ w', iface F w = some w' ∧ OnlyK ms' name w'
  | [], acc, ms', _, ho, _ => by obtain ⟨pre, k', post, h1, _⟩ := ho; simp at h1
  | (k, v) :: ms, acc, ms', h, ho, ha => by
    rw [ifaceMembers] at h
    obtain ⟨v', hv, h⟩ := Option.bind_eq_some_iff.1 h
    rcases only_cases ho with ⟨h1, h2, h3⟩ | ⟨h1, h2⟩
    · simp only at h1 h2; subst h2
      exact ⟨v', hv, members_keep F ms _ ms' h h3 (put_only h1 ha)⟩
    · exact members_only F ms _ ms' h h2 (absent_put k v' h1 ha)

/-- The members of an object before and after the conversion. -/
theorem iface_obj (F : Floats) {ms : List (Str × Json)} {j : Json} (h : iface F (.obj ms) = some j) :
    ∃ ms', j = .obj ms' ∧ ifaceMembers F ms [] = some ms' := by
  rw [iface] at h
  obtain ⟨ms', h1, h2⟩ := Option.map_eq_some_iff.1 h
  exact ⟨ms', h2.symm, h1⟩

/-! ### Folds over members -/

theorem fold_skip {S A : Type} {f : S → Str × Json → S} {π : S → A} {hit : Str × Json → Bool}
    (hs : ∀ s m, hit m = false → π (f s m) = π s) : ∀ (l : List (Str × Json)) (s : S), (∀ m ∈ l, hit m = false) →
    π (l.foldl f s) = π s
  | [], _, _ => rfl
  | m :: l, s, h => by
    rw [List.foldl_cons, fold_skip hs l _ fun x hx => h x (List.mem_cons_of_mem _ hx), hs s m (h m (by simp))]

theorem fold_only {S A : Type} {f : S → Str × Json → S} {π : S → A} {name : String} {v : Json} {a : A}
    {l : List (Str × Json)} (ho : OnlyK l name v) (s : S)
    (hs : ∀ s m, isKey m.1 name.toList = false → π (f s m) = π s)
    (hh : ∀ s k, isKey k name.toList = true → π (f s (k, v)) = a) : π (l.foldl f s) = a := by
  obtain ⟨pre, k, post, h1, h2, h3⟩ := ho
  rw [h1, List.foldl_append, List.foldl_cons,
    fold_skip (hit := fun m => isKey m.1 name.toList) hs post _ fun m hm => h3 m (List.mem_append_right _ hm), hh _ k h2]

theorem fold_inv {S : Type} {f : S → Str × Json → S} {P : S → Prop} : ∀ (l : List (Str × Json)) (s : S), P s →
    (∀ s m, m ∈ l → P s → P (f s m)) → P (l.foldl f s)
  | [], _, h, _ => h
  | m :: l, s, h, hs => by
    rw [List.foldl_cons]
    exact fold_inv l _ (hs s m (by simp) h) fun s m hm => hs s m (List.mem_cons_of_mem _ hm)

/-- Of the members with the name there is only one. -/
theorem only_value {l : List (Str × Json)} {name : String} {v : Json} (h : OnlyK l name v) {m : Str × Json} (hm : m ∈ l)
    (hk : isKey m.1 name.toList = true) : m.2 = v := by
  obtain ⟨pre, k, post, h1, h2, h3⟩ := h
  rw [h1] at hm
  rcases List.mem_append.1 hm with e | e
  · rw [h3 m (List.mem_append_left _ e)] at hk; cases hk
  · rcases List.mem_cons.1 e with e | e
    · rw [e]
    · rw [h3 m (List.mem_append_right _ e)] at hk; cases hk

/-- Two names never match the same member. -/
theorem isKey_ne {k a b : Str} (h : isKey k a = true) (hab : a ≠ b) : isKey k b = false := by
  unfold isKey at h ⊢
  simp only [beq_iff_eq] at h
  rw [h]
  simpa using hab

/-! ### The callback -/

theorem decU64_num (w : Str) (n : Nat) (hp : parseNat w = some n) (hn : n < 18446744073709551616) (old : Nat) :
    decU64 old (.lit w) = (n, true) := by
  have hne : w ≠ "null".toList := by
    intro e; subst e
    have : parseNat "null".toList = none := by decide +kernel
    rw [this] at hp; cases hp
  simp only [decU64, if_neg hne, hp, if_pos hn]

theorem decU64_big (w : Str) (n : Nat) (hp : parseNat w = some n) (hn : ¬ n < 18446744073709551616) (old : Nat) :
    decU64 old (.lit w) = (old, false) := by
  have hne : w ≠ "null".toList := by
    intro e; subst e
    have : parseNat "null".toList = none := by decide +kernel
    rw [this] at hp; cases hp
  simp only [decU64, if_neg hne, hp, if_neg hn]

theorem id_ne_contract : "id".toList ≠ "contract_address".toList := by decide
theorem message_ne_callback : "message".toList ≠ "async_callback".toList := by decide

/-- The id field of a decoded callback. -/
theorem cb_id {cs : List (Str × Json)} {w : Str} {n : Nat} (h1 : OnlyK cs "id" (.lit w)) (hp : parseNat w = some n)
    (hn : n < 18446744073709551616) (s : AsyncCallback × Bool) : (cs.foldl cbMember s).1.id = n := by
  refine fold_only (π := fun s : AsyncCallback × Bool => s.1.id) h1 s ?_ ?_
  · intro s m hm
    unfold cbMember
    rw [if_neg (Bool.eq_false_iff.1 hm)]
    split <;> rfl
  · intro s k hk
    simp only [cbMember, hk, if_true, decU64_num w n hp hn]

/-- The contract field of a decoded callback. -/
theorem cb_contract {cs : List (Str × Json)} {c : Str} (h2 : OnlyK cs "contract_address" (.str c)) (s : AsyncCallback × Bool) :
    (cs.foldl cbMember s).1.contractAddress = c := by
  refine fold_only (π := fun s : AsyncCallback × Bool => s.1.contractAddress) h2 s ?_ ?_
  · intro s m hm
    unfold cbMember
    split
    · rfl
    · rw [if_neg (Bool.eq_false_iff.1 hm)]
  · intro s k hk
    have : isKey k "id".toList = false := isKey_ne hk id_ne_contract.symm
    simp only [cbMember, this, hk, if_true, decStr, Bool.false_eq_true, if_false]

/-- The callback decodes without error. -/
theorem cb_ok {cs : List (Str × Json)} {w : Str} {n : Nat} (h1 : OnlyK cs "id" (.lit w)) (hp : parseNat w = some n)
    (hn : n < 18446744073709551616) (h2 : (∃ c, OnlyK cs "contract_address" (.str c)) ∨ AbsentK cs "contract_address")
    (s : AsyncCallback × Bool) (hs : s.2 = true) : (cs.foldl cbMember s).2 = true := by
  refine fold_inv (P := fun s : AsyncCallback × Bool => s.2 = true) cs s hs ?_
  intro s m hm hs
  unfold cbMember
  split
  · next hk =>
    have e := only_value h1 hm hk
    simp only [e, decU64_num w n hp hn, hs, Bool.and_self]
  · split
    · next hk =>
      rcases h2 with ⟨c, h2⟩ | h2
      · have e := only_value h2 hm hk
        simp only [e, decStr, hs, Bool.and_self]
      · rw [h2 m hm] at hk; cases hk
    · exact hs

/-- An id above the range of `uint64` is an error. -/
theorem cb_bad {cs : List (Str × Json)} {w : Str} {n : Nat} (h1 : OnlyK cs "id" (.lit w)) (hp : parseNat w = some n)
    (hn : ¬ n < 18446744073709551616) (s : AsyncCallback × Bool) : (cs.foldl cbMember s).2 = false := by
  obtain ⟨pre, k, post, e1, e2, e3⟩ := h1
  rw [e1, List.foldl_append, List.foldl_cons]
  refine fold_inv (P := fun s : AsyncCallback × Bool => s.2 = false) post _ ?_ ?_
  · simp only [cbMember, e2, if_true, decU64_big w n hp hn, Bool.and_false]
  · intro s m _ hs
    unfold cbMember
    split
    · simp [hs]
    · split <;> simp [hs]

/-- Whether a message decodes does not depend on what was there before. -/
theorem decMsg_ok (F : Floats) (a b : Option MsgCall) (v : Json) : (decMsg F a v).2 = (decMsg F b v).2 := by
  have key : ∀ (ms : List (Str × Json)) (x y : MsgCall × Bool), x.2 = y.2 →
      (ms.foldl (msgMember F) x).2 = (ms.foldl (msgMember F) y).2 := by
    intro ms
    induction ms with
    | nil => intro x y h; exact h
    | cons m ms ih =>
      intro x y h
      rw [List.foldl_cons, List.foldl_cons]
      apply ih
      have hd : ∀ (o o' : Str) (j : Json), (decStr o j).2 = (decStr o' j).2 := by intro o o' j; cases j <;> rfl
      have hi : ∀ (o o' : Int) (j : Json), (decInt F o j).2 = (decInt F o' j).2 := by
        intro o o' j
        cases j with
        | str s => simp only [decInt]; cases F.int s <;> rfl
        | _ => rfl
      unfold msgMember
      split
      · simp only [h]; rw [hd]
      · split
        · simp only [h]; rw [hd]
        · split
          · simp only [h]; rw [hd]
          · split
            · simp only [h]; rw [hi]
            · split
              · simp only [h]
              · exact h
  cases v with
  | str s => rfl
  | arr vs => rfl
  | lit w => simp only [decMsg]; split <;> rfl
  | obj ms => exact key ms _ _ rfl

/-- The callback of the decoded hook data. -/
theorem hook_callback (F : Floats) {ms cs : List (Str × Json)} (h : OnlyK ms "async_callback" (.obj cs)) (s : HookData × Bool)
    (hs : s.1.asyncCallback = none) :
    (ms.foldl (hookMember F) s).1.asyncCallback = some (cs.foldl cbMember (⟨0, []⟩, true)).1 := by
  obtain ⟨pre, k, post, e1, e2, e3⟩ := h
  have skip : ∀ (s : HookData × Bool) (m : Str × Json), isKey m.1 "async_callback".toList = false →
      (hookMember F s m).1.asyncCallback = s.1.asyncCallback := by
    intro s m hm
    unfold hookMember
    split
    · rfl
    · rw [if_neg (Bool.eq_false_iff.1 hm)]
  rw [e1, List.foldl_append, List.foldl_cons,
    fold_skip (π := fun s : HookData × Bool => s.1.asyncCallback) (hit := fun m => isKey m.1 "async_callback".toList) skip
      post _ fun m hm => e3 m (List.mem_append_right _ hm)]
  have h0 : (pre.foldl (hookMember F) s).1.asyncCallback = none := by
    rw [fold_skip (π := fun s : HookData × Bool => s.1.asyncCallback) (hit := fun m => isKey m.1 "async_callback".toList) skip
      pre _ fun m hm => e3 m (List.mem_append_left _ hm)]
    exact hs
  have hk : isKey k "message".toList = false := isKey_ne e2 message_ne_callback.symm
  simp only [hookMember, hk, e2, if_true, Bool.false_eq_true, if_false, h0, decCb, Option.getD_none]

/-- Whether the decoded hook data is free of errors. -/
theorem hook_ok (F : Floats) {ms cs : List (Str × Json)} (h : OnlyK ms "async_callback" (.obj cs))
    (hm : AbsentK ms "message" ∨ ∃ v, OnlyK ms "message" v ∧ (decMsg F none v).2 = true)
    (hc : (cs.foldl cbMember (⟨0, []⟩, true)).2 = true) :
    (ms.foldl (hookMember F) (⟨none, none⟩, true)).2 = true := by
  obtain ⟨pre, k, post, e1, e2, e3⟩ := h
  have hk : isKey k "message".toList = false := isKey_ne e2 message_ne_callback.symm
  have skip : ∀ (l : List (Str × Json)), (∀ m ∈ l, m ∈ ms) → (∀ m ∈ l, isKey m.1 "async_callback".toList = false) →
      ∀ s : HookData × Bool, s.2 = true → (l.foldl (hookMember F) s).2 = true := by
    intro l hl hn s hs
    refine fold_inv (P := fun s : HookData × Bool => s.2 = true) l s hs ?_
    intro s m hml hs
    unfold hookMember
    split
    · next hkm =>
      rcases hm with hm | ⟨v, hm, hv⟩
      · rw [hm m (hl m hml)] at hkm; cases hkm
      · rw [only_value hm (hl m hml) hkm]
        simp only [hs, Bool.true_and]
        rw [decMsg_ok F _ none]; exact hv
    · rw [if_neg (by rw [hn m hml]; decide)]; exact hs
  have skipc : ∀ (l : List (Str × Json)), (∀ m ∈ l, isKey m.1 "async_callback".toList = false) →
      ∀ s : HookData × Bool, (l.foldl (hookMember F) s).1.asyncCallback = s.1.asyncCallback := by
    intro l hl s
    refine fold_skip (π := fun s : HookData × Bool => s.1.asyncCallback) (hit := fun m => isKey m.1 "async_callback".toList) ?_ l s hl
    intro s m hm
    unfold hookMember
    split
    · rfl
    · rw [if_neg (Bool.eq_false_iff.1 hm)]
  have hpre : ∀ m ∈ pre, m ∈ ms := fun m h => by rw [e1]; exact List.mem_append_left _ h
  have hpost : ∀ m ∈ post, m ∈ ms := fun m h => by rw [e1]; exact List.mem_append_right _ (List.mem_cons_of_mem _ h)
  have s1 := skip pre hpre (fun m h => e3 m (List.mem_append_left _ h)) (⟨none, none⟩, true) rfl
  have s2 := skipc pre (fun m h => e3 m (List.mem_append_left _ h)) (⟨none, none⟩, true)
  rw [e1, List.foldl_append, List.foldl_cons]
  apply skip post hpost (fun m h => e3 m (List.mem_append_right _ h))
  simp only [hookMember, hk, e2, if_true, Bool.false_eq_true, if_false, s1, s2, decCb, Option.getD_none, hc, Bool.and_self]

/-! ### From the text of the memo to the callback -/

variable {σ K : Type}

theorem directed_field (F : Floats) {memo : Str} {v : Json} (h : Directed F memo v) :
    memo ≠ [] ∧ ∃ v', iface F v = some v' ∧ memoField F memo "evm".toList = some (some v') := by
  obtain ⟨top, t, h1, h2, h3⟩ := h
  refine ⟨fun e => (by subst e; rw [show whole [] = none from rfl] at h1; cases h1), ?_⟩
  obtain ⟨ms', e1, e2⟩ := iface_obj F h2
  obtain ⟨f1, f2⟩ := members_find F "evm".toList top [] ms' e2
  obtain ⟨v', hv⟩ := f2 v h3
  refine ⟨v', hv, ?_⟩
  unfold memoField
  rw [h1]
  simp only [h2, e1]
  rw [f1, h3]
  simp only [hv]

/-- What the hook reads from a memo that asks for a callback. -/
theorem reads_callback (F : Floats) {e : Env σ Json K} (hr : Reads F e) {memo : Str} {ms cs : List (Str × Json)}
    (hd : Directed F memo (.obj ms)) (ha : OnlyK ms "async_callback" (.obj cs)) (hf : MessageFine F ms) :
    memo ≠ [] ∧ ∃ ms' cs' : List (Str × Json), e.jsonField memo "evm".toList = some (some (.obj ms')) ∧
      ifaceMembers F cs [] = some cs' ∧
      (e.decodeHook (.obj ms')).1.asyncCallback = some (cs'.foldl cbMember (⟨0, []⟩, true)).1 ∧
      ((cs'.foldl cbMember (⟨0, []⟩, true)).2 = true → (e.decodeHook (.obj ms')).2 = true) ∧
      ((cs'.foldl cbMember (⟨0, []⟩, true)).2 = false → (e.decodeHook (.obj ms')).2 = false) := by
  obtain ⟨hne, v', hv, hm⟩ := directed_field F hd
  obtain ⟨ms', e1, e2⟩ := iface_obj F hv
  obtain ⟨w', hw, ho⟩ := members_only F ms [] ms' e2 ha (by intro m hm; cases hm)
  obtain ⟨cs', e3, e4⟩ := iface_obj F hw
  subst e1; subst e3
  have hmsg : AbsentK ms' "message" ∨ ∃ v, OnlyK ms' "message" v ∧ (decMsg F none v).2 = true := by
    rcases hf with h | ⟨v, v', h, hv, hok⟩
    · exact .inl (members_absent F ms [] ms' e2 h (by intro m hm; cases hm))
    · obtain ⟨w, h1, h2⟩ := members_only F ms [] ms' e2 h (by intro m hm; cases hm)
      rw [hv] at h1
      simp only [Option.some.injEq] at h1
      subst h1
      exact .inr ⟨_, h2, hok⟩
  refine ⟨hne, ms', cs', by rw [hr.field]; exact hm, e4, ?_, ?_, ?_⟩
  · rw [hr.hook]; exact hook_callback F ho _ rfl
  · intro hc; rw [hr.hook]; exact hook_ok F ho hmsg hc
  · intro hc
    rw [hr.hook]
    obtain ⟨pre, k, post, p1, p2, p3⟩ := ho
    have hk : isKey k "message".toList = false := isKey_ne p2 message_ne_callback.symm
    have skipc : (pre.foldl (hookMember F) (⟨none, none⟩, true)).1.asyncCallback = none := by
      refine fold_skip (π := fun s : HookData × Bool => s.1.asyncCallback) (hit := fun m => isKey m.1 "async_callback".toList)
        ?_ pre _ (fun m h => p3 m (List.mem_append_left _ h))
      intro s m hm
      unfold hookMember
      split
      · rfl
      · rw [if_neg (Bool.eq_false_iff.1 hm)]
    change (ms'.foldl (hookMember F) (⟨none, none⟩, true)).2 = false
    rw [p1, List.foldl_append, List.foldl_cons]
    refine fold_inv (P := fun s : HookData × Bool => s.2 = false) post _ ?_ ?_
    · simp only [hookMember, hk, p2, if_true, Bool.false_eq_true, if_false, skipc, decCb, Option.getD_none, hc, Bool.and_false]
    · intro s m _ hs
      unfold hookMember
      split
      · simp [hs]
      · split <;> simp [hs]

theorem numText_dec (F : Floats) (n : Nat) (hn : n < 2 ^ 64) :
    numText F (natStr n) = some (natStr (shortest (toF64 n))) := by
  have hle : toF64 n ≤ 2 ^ 64 := by
    rcases Nat.lt_or_ge n (2 ^ 53) with h | h
    · rw [toF64_small n h]; omega
    · have h0 : n ≠ 0 := by omega
      have hl : n.log2 ≤ 63 := by have := (Nat.log2_lt h0).2 hn; omega
      have hl2 : 53 ≤ n.log2 := by
        rcases Nat.lt_or_ge n.log2 53 with h1 | h1
        · have := (Nat.log2_lt h0).1 h1; omega
        · exact h1
      have hlt : n < 2 ^ (n.log2 + 1) := (Nat.log2_lt h0).1 (Nat.lt_succ_self _)
      have hpos : 0 < 2 ^ (n.log2 - 52) := Nat.pow_pos (by decide)
      have hq : n / 2 ^ (n.log2 - 52) < 2 ^ 53 := by
        rw [Nat.div_lt_iff_lt_mul hpos, ← Nat.pow_add]
        have : 53 + (n.log2 - 52) = n.log2 + 1 := by omega
        rw [this]; exact hlt
      have hs : 2 ^ (n.log2 - 52) ≤ 2 ^ 11 := Nat.pow_le_pow_right (by decide) (by omega)
      simp only [toF64]
      generalize hQ : (if 2 ^ (n.log2 - 52) < 2 * (n % 2 ^ (n.log2 - 52)) ∨
        2 * (n % 2 ^ (n.log2 - 52)) = 2 ^ (n.log2 - 52) ∧ n / 2 ^ (n.log2 - 52) % 2 = 1
        then n / 2 ^ (n.log2 - 52) + 1 else n / 2 ^ (n.log2 - 52)) = Q
      have hQ2 : Q ≤ 2 ^ 53 := by rw [← hQ]; split <;> omega
      exact Nat.le_trans (Nat.mul_le_mul hQ2 hs) (by decide)
  unfold numText
  rw [parseNat_natStr]
  simp only
  rw [if_neg (by have : (2 : Nat) ^ 64 < 2 ^ 1024 := by decide +kernel
                 omega), if_neg (by omega)]


theorem natStr_not_name (n : Nat) : isName (natStr n) = false := by
  have key : ∀ w : Str, natStr n = w → parseNat w = none → False := by
    intro w h1 h2; rw [← h1, parseNat_natStr] at h2; cases h2
  unfold isName
  simp only [Bool.or_eq_false_iff, beq_eq_false_iff_ne, ne_eq]
  exact ⟨⟨fun h => key _ h (by decide +kernel), fun h => key _ h (by decide +kernel)⟩, fun h => key _ h (by decide +kernel)⟩

theorem iface_dec (F : Floats) (n : Nat) (hn : n < 2 ^ 64) :
    iface F (.lit (natStr n)) = some (.lit (natStr (shortest (toF64 n)))) := by
  rw [iface, natStr_not_name, numText_dec F n hn]
  rfl

/-- The callback the hook reads from a memo that asks for callback `n` to `c`. -/
theorem asked (F : Floats) {e : Env σ Json K} (hr : Reads F e) {memo c : Str} {n : Nat} (h : AsksFor F memo n c) (hn : n < 2 ^ 64) :
    (shortest (toF64 n) < 2 ^ 64 → AsksCallback e memo ⟨shortest (toF64 n), c⟩) ∧
    (¬ shortest (toF64 n) < 2 ^ 64 → ∀ cb, ¬ AsksCallback e memo cb) := by
  obtain ⟨ms, cs, hd, h1, h2, h3, h4⟩ := h
  obtain ⟨hne, ms', cs', r1, r2, r3, r4, r5⟩ := reads_callback F hr hd h1 h4
  obtain ⟨w, hw, i1⟩ := members_only F cs [] cs' r2 h2 (by intro m hm; cases hm)
  obtain ⟨x, hx, i2⟩ := members_only F cs [] cs' r2 h3 (by intro m hm; cases hm)
  rw [iface_dec F n hn] at hw
  simp only [Option.some.injEq] at hw
  subst hw
  rw [iface] at hx
  simp only [Option.some.injEq] at hx
  subst hx
  constructor
  · intro hlt
    have ok := cb_ok i1 (parseNat_natStr _) hlt (.inl ⟨c, i2⟩) (⟨0, []⟩, true) rfl
    refine ⟨hne, .obj ms', (e.decodeHook (.obj ms')).1, r1, Prod.ext rfl (r4 ok), ?_⟩
    rw [r3]
    have a := cb_id i1 (parseNat_natStr _) hlt (⟨0, []⟩, true)
    have b := cb_contract i2 (⟨0, []⟩, true)
    cases hx : (cs'.foldl cbMember (⟨0, []⟩, true)).1 with
    | mk i d => rw [hx] at a b; simp only at a b; rw [a, b]
  · intro hge cb hcb
    have bad := cb_bad i1 (parseNat_natStr _) hge (⟨0, []⟩, true)
    obtain ⟨_, j, hdk, j1, j2, _⟩ := hcb
    rw [r1] at j1
    simp only [Option.some.injEq] at j1
    subst j1
    have := r5 bad
    rw [j2] at this
    cases this

/-- A memo asks for at most one callback. -/
theorem callback_unique {e : Env σ Json K} {memo : Str} {a b : AsyncCallback} (h1 : AsksCallback e memo a)
    (h2 : AsksCallback e memo b) : a = b := by
  obtain ⟨_, j, hd, a1, a2, a3⟩ := h1
  obtain ⟨_, j', hd', b1, b2, b3⟩ := h2
  rw [a1] at b1
  simp only [Option.some.injEq] at b1
  subst b1
  rw [a2] at b2
  simp only [Prod.mk.injEq, and_true] at b2
  subst b2
  rw [a3] at b3
  simpa using b3

/-- The operations of a callback: none, or the one call. -/
theorem callback_ops {e : Env σ Json K} {s : σ} {memo sender : Str} {f : Nat → AbiCall} :
    (callback e ⟨s, []⟩ memo sender f).ops = [] ∨
    ∃ cb, AsksCallback e memo cb ∧
      (callback e ⟨s, []⟩ memo sender f).ops = [.call ⟨sender, cb.contractAddress, encode0x (e.pack (f cb.id)), 0⟩] := by
  unfold callback
  split
  · exact .inl rfl
  · exact .inl rfl
  · exact .inl rfl
  · next m cb hpm =>
    split
    · exact .inl rfl
    · right
      refine ⟨cb, ?_, ?_⟩
      · unfold parseMemo at hpm
        split at hpm
        · cases hpm
        · next hne =>
          split at hpm
          · next j hj => exact ⟨hne, j, ⟨m, some cb⟩, hj, (Prod.ext_iff.1 hpm).2, rfl⟩
          · cases hpm
      · dsimp only
        split <;> simp [Run.call]

theorem callback_made {e : Env σ Json K} {s : σ} {memo sender : Str} {f : Nat → AbiCall} {cb : AsyncCallback}
    (h : AsksCallback e memo cb) (hl : Allowed e s cb.contractAddress) :
    (callback e ⟨s, []⟩ memo sender f).ops = [.call ⟨sender, cb.contractAddress, encode0x (e.pack (f cb.id)), 0⟩] := by
  obtain ⟨hne, j, ⟨m, c⟩, hj, hd, hcb⟩ := h
  simp only at hcb; subst hcb
  have hj' : e.jsonField memo memoKey = some (some j) := hj
  have : parseMemo e memo = (true, ⟨m, some cb⟩, true) := by simp only [parseMemo, hne, if_false, hj', hd]
  simp only [callback, this, (checkACL_iff e s _).2 hl, ne_eq, not_true_eq_false, if_false]
  split <;> simp [Run.call]

theorem onAck_ops (e : Env σ Json K) (s : σ) (p : Packet) (ack : Bytes) {sender memo : Str} (hp : Sent e p sender memo) :
    (onAck e s p ack).2.ops = if (e.appAck p ack s).1 = true then
      (callback e ⟨(e.appAck p ack s).2, []⟩ memo sender (fun id => .ibcAck id (!isAckError e ack))).ops else [] := by
  simp only [onAck, (hookFields_sent e p sender memo).2 hp]
  cases (e.appAck p ack s).1 <;> simp

/-- **C86** (callbacks; partial: ids up to 2^53). When a transfer whose memo asks for a callback is acknowledged and the
contract is allowed, the hook makes exactly one call: to the contract the memo names, by the packet's sender, with the id
the memo gives and the outcome. The full statement drops the bound on the id. -/
theorem C86_callback_partial (F : Floats) (e : Env σ Json K) (hr : Reads F e) (s : σ) (p : Packet) (ack : Bytes) (ok : Bool)
    {sender memo c : Str} {n : Nat} (hp : Sent e p sender memo) (hm : AsksFor F memo n c) (hn : n ≤ 2 ^ 53)
    (happ : (e.appAck p ack s).1 = true) (hl : Allowed e (e.appAck p ack s).2 c) (hok : e.ackDecode ack = some ok) :
    (onAck e s p ack).2.ops = [.call ⟨sender, c, encode0x (e.pack (.ibcAck n ok)), 0⟩] := by
  have h := (asked F hr hm (by omega)).1 (by rw [shortest_small n hn]; omega)
  rw [shortest_small n hn] at h
  rw [onAck_ops e s p ack hp, if_pos happ, callback_made h hl]
  simp only [isAckError, hok, Bool.not_not]

/-- **C86** (callbacks, timeout; partial in the same way). -/
theorem C86_timeout_partial (F : Floats) (e : Env σ Json K) (hr : Reads F e) (s : σ) (p : Packet)
    {sender memo c : Str} {n : Nat} (hp : Sent e p sender memo) (hm : AsksFor F memo n c) (hn : n ≤ 2 ^ 53)
    (happ : (e.appTimeout p s).1 = true) (hl : Allowed e (e.appTimeout p s).2 c) :
    (onTimeout e s p).2.ops = [.call ⟨sender, c, encode0x (e.pack (.ibcTimeout n)), 0⟩] := by
  have h := (asked F hr hm (by omega)).1 (by rw [shortest_small n hn]; omega)
  rw [shortest_small n hn] at h
  simp only [onTimeout, (hookFields_sent e p sender memo).2 hp, happ, Bool.not_true, Bool.false_eq_true, if_false]
  exact callback_made h hl

/-- **C86 does not hold** for odd ids above 2^53: the memo is decoded into an `interface{}`, where numbers are float64, so
whatever callback is made carries another (even) id. -/
theorem C86_odd_id_violated (F : Floats) (e : Env σ Json K) (hr : Reads F e) (s : σ) (p : Packet) (ack : Bytes)
    {sender memo c : Str} {n : Nat} (hp : Sent e p sender memo) (hm : AsksFor F memo n c) (h1 : 2 ^ 53 < n) (h2 : n < 2 ^ 64)
    (hodd : n % 2 = 1) :
    (onAck e s p ack).2.ops = [] ∨
    ∃ m, m ≠ n ∧ (onAck e s p ack).2.ops = [.call ⟨sender, c, encode0x (e.pack (.ibcAck m (!isAckError e ack))), 0⟩] := by
  rw [onAck_ops e s p ack hp]
  split
  · rcases callback_ops (e := e) (s := (e.appAck p ack s).2) (memo := memo) (sender := sender)
      (f := fun id => .ibcAck id (!isAckError e ack)) with h | ⟨cb, h, ho⟩
    · exact .inl h
    · right
      obtain ⟨a1, a2⟩ := asked F hr hm h2
      by_cases hlt : shortest (toF64 n) < 2 ^ 64
      · have := callback_unique h (a1 hlt)
        subst this
        refine ⟨_, ?_, ho⟩
        have he := shortest_even n (by omega)
        intro e; simp only at e; omega
      · exact absurd h (a2 hlt cb)
  · exact .inl rfl

/-- **C86 does not hold** for the largest 1024 ids: no callback is made. -/
theorem C86_large_id_violated (F : Floats) (e : Env σ Json K) (hr : Reads F e) (s : σ) (p : Packet) (ack : Bytes)
    {sender memo c : Str} {n : Nat} (hp : Sent e p sender memo) (hm : AsksFor F memo n c) (h1 : 2 ^ 64 - 1024 ≤ n)
    (h2 : n < 2 ^ 64) : (onAck e s p ack).2.ops = [] := by
  rw [onAck_ops e s p ack hp]
  split
  · rcases callback_ops (e := e) (s := (e.appAck p ack s).2) (memo := memo) (sender := sender)
      (f := fun id => .ibcAck id (!isAckError e ack)) with h | ⟨cb, h, ho⟩
    · exact h
    · exact absurd h ((asked F hr hm h2).2 (by rw [toF64_top n h1 h2]; decide +kernel) cb)
  · rfl

/-- **C86 does not hold** for the format of the README (`contract_addr` in place of `contract_address`): no callback is
made. The empty text is no Bech32 address. -/
theorem C86_documented_violated (F : Floats) (e : Env σ Json K) (hr : Reads F e) (he : e.tx.unbech [] = none) (s : σ)
    (p : Packet) (ack : Bytes) {sender memo c : Str} {n : Nat} (hp : Sent e p sender memo) (hm : AsksDocumented F memo n c) :
    (onAck e s p ack).2.ops = [] := by
  rw [onAck_ops e s p ack hp]
  split
  · obtain ⟨ms, cs, hd, h1, h2, _, h3, h4⟩ := hm
    obtain ⟨hne, ms', cs', r1, r2, r3, r4, r5⟩ := reads_callback F hr hd h1 h4
    have h3' := members_absent F cs [] cs' r2 h3 (by intro m hm; cases hm)
    have hc : (cs'.foldl cbMember (⟨0, []⟩, true)).1.contractAddress = [] := by
      refine fold_skip (π := fun s : AsyncCallback × Bool => s.1.contractAddress)
        (hit := fun m => isKey m.1 "contract_address".toList) ?_ cs' (⟨0, []⟩, true) h3'
      intro s m hm
      unfold cbMember
      split
      · rfl
      · rw [if_neg (Bool.eq_false_iff.1 hm)]
    have hj' : e.jsonField memo memoKey = some (some (.obj ms')) := r1
    rcases hdk : e.decodeHook (.obj ms') with ⟨⟨m, cb⟩, b⟩
    rw [hdk] at r3
    simp only at r3
    subst r3
    have hpm : parseMemo e memo = (true, ⟨m, some (cs'.foldl cbMember (⟨0, []⟩, true)).1⟩, b) := by
      simp only [parseMemo, hne, if_false, hj', hdk]
    have hno : TxUtils.contractAddressFromString e.tx [] = none := by
      unfold TxUtils.contractAddressFromString
      rw [if_neg (by decide +kernel), he]; rfl
    cases b with
    | false => simp only [callback, hpm]
    | true =>
      simp only [callback, hpm]
      rw [if_pos]
      unfold checkACL
      rw [hc, hno]
      exact fun h => by cases h
  · rfl

/-! ### Received packets -/

/-- **C86** (a contract call is never turned into a plain transfer). If the memo has a message for the hook (anything but
`null`), the packet is refused with nothing done, or the first thing done is the transfer to the derived sender — the
transfer module never sees the packet itself. -/
theorem C86_never_plain (F : Floats) (e : Env σ Json K) (hr : Reads F e) (s : σ) (p : Packet) {sender receiver memo : Str}
    {redirect : Str → Packet} (hp : Carries e p sender receiver memo redirect) {ms : List (Str × Json)} {v : Json}
    (hd : Directed F memo (.obj ms)) (hm : Only ms "message" v) (hv : v ≠ .lit "null".toList) :
    ((onRecv e ⟨s, []⟩ p).1.success = false ∧ (onRecv e ⟨s, []⟩ p).2.ops = []) ∨
    ∃ rest, (onRecv e ⟨s, []⟩ p).2.ops = .app (redirect (intermediate e p.dstChan sender)) :: rest := by
  obtain ⟨hne, v', hv', hmf⟩ := directed_field F hd
  obtain ⟨ms', e1, e2⟩ := iface_obj F hv'
  subst e1
  obtain ⟨w', hw, ho⟩ := members_only F ms [] ms' e2 hm (by intro m hm; cases hm)
  have hw' : w' ≠ .lit "null".toList := by
    intro e; subst e
    cases v with
    | str s => rw [iface] at hw; cases hw
    | obj ms => obtain ⟨_, h, _⟩ := iface_obj F hw; cases h
    | arr vs => rw [iface] at hw; obtain ⟨_, _, h⟩ := Option.map_eq_some_iff.1 hw; cases h
    | lit w =>
      rw [iface] at hw
      split at hw
      · simp only [Option.some.injEq] at hw; exact hv hw
      · next hnn =>
        obtain ⟨x, hx, h⟩ := Option.map_eq_some_iff.1 hw
        simp only [Json.lit.injEq] at h
        subst h
        have hnull : isName "null".toList = true := by decide +kernel
        unfold numText at hx
        cases hpn : parseNat w with
        | none => rw [hpn] at hx; rw [F.other_num _ _ hx] at hnull; cases hnull
        | some n =>
          rw [hpn] at hx
          simp only at hx
          split at hx
          · cases hx
          · split at hx
            · simp only [Option.some.injEq] at hx; exact absurd hx (by decide)
            · simp only [Option.some.injEq] at hx
              rw [← hx, natStr_not_name] at hnull; cases hnull
  have hsome : (e.decodeHook (.obj ms')).1.message ≠ none := by
    rw [hr.hook]
    have := fold_only (f := hookMember F) (π := fun s : HookData × Bool => s.1.message.isSome) (a := true) ho (⟨none, none⟩, true)
      (by intro s m hm
          unfold hookMember
          rw [if_neg (Bool.eq_false_iff.1 hm)]
          split <;> rfl)
      (by intro s k hk
          simp only [hookMember, hk, if_true]
          cases w' with
          | str s => rfl
          | arr s => rfl
          | obj s => rfl
          | lit w =>
            have : w ≠ "null".toList := fun e => hw' (by rw [e])
            simp only [decMsg, if_neg this]; rfl)
    intro hnone
    change (List.foldl (hookMember F) (⟨none, none⟩, true) ms').1.message.isSome = true at this
    change (List.foldl (hookMember F) (⟨none, none⟩, true) ms').1.message = none at hnone
    rw [hnone] at this; cases this
  have hj : e.jsonField memo "evm".toList = some (some (.obj ms')) := by rw [hr.field]; exact hmf
  obtain ⟨ap, _, hsh⟩ := onRecv_shape e ⟨s, []⟩ p hp
  rcases hdk : e.decodeHook (.obj ms') with ⟨⟨m, cb⟩, b⟩
  cases b with
  | false => exact .inl (C35_malformed e s p hp hne _ hj hsome (by rw [hdk]))
  | true =>
    rw [hdk] at hsome
    cases m with
    | none => exact absurd rfl hsome
    | some m =>
      have hj' : e.jsonField memo memoKey = some (some (.obj ms')) := hj
      have hpm : parseMemo e memo = (true, ⟨some m, cb⟩, true) := by simp only [parseMemo, hne, if_false, hj', hdk]
      obtain ⟨ap, hap, hsh⟩ := onRecv_shape e ⟨s, []⟩ p hp
      rw [hsh]
      simp only [recvG, hpm]
      split
      · exact .inl ⟨rfl, rfl⟩
      · split
        · exact .inl ⟨rfl, rfl⟩
        · right
          split
          · exact ⟨[], by simp [Run.app]⟩
          · obtain ⟨l, hl, _⟩ := hap (intermediate e p.dstChan sender) m.contractAddr
              (Run.app e ⟨s, []⟩ (redirect (intermediate e p.dstChan sender))).2
            have ha : (Run.app e ⟨s, []⟩ (redirect (intermediate e p.dstChan sender))).2.ops =
              [.app (redirect (intermediate e p.dstChan sender))] := rfl
            rw [ha] at hl
            split
            · exact ⟨_, hl⟩
            · split
              · refine ⟨l.map Op.call ++ [.call { m with sender := intermediate e p.dstChan sender }], ?_⟩
                simp only [Run.call, hl]; rfl
              · refine ⟨l.map Op.call ++ [.call { m with sender := intermediate e p.dstChan sender }], ?_⟩
                simp only [Run.call, hl]; rfl

/-- **C86 does not hold** for a memo that is directed to the hook but has no message in it (the value under `evm` is not an
object, or an object without `message`): the README says such a packet is refused, but it is handled as a plain
transfer. -/
theorem C86_directed_violated (F : Floats) (e : Env σ Json K) (hr : Reads F e) (s : σ) (p : Packet)
    {sender receiver memo : Str} {redirect : Str → Packet} (hp : Carries e p sender receiver memo redirect) {v : Json}
    (hd : Directed F memo v) (hv : ∀ ms, v = .obj ms → Absent ms "message") :
    onRecv e ⟨s, []⟩ p = ((e.appRecv p s).1, ⟨(e.appRecv p s).2, [.app p]⟩) := by
  obtain ⟨hne, v', hv', hmf⟩ := directed_field F hd
  apply C35_plain e s p hp
  refine .inr (.inr ⟨v', by rw [hr.field]; exact hmf, ?_⟩)
  rw [hr.hook]
  cases v' with
  | str s => rfl
  | arr s => rfl
  | lit s => rfl
  | obj ms' =>
    have ha : AbsentK ms' "message" := by
      cases v with
      | str s => rw [iface] at hv'; cases hv'
      | arr vs => rw [iface] at hv'; obtain ⟨_, _, h⟩ := Option.map_eq_some_iff.1 hv'; cases h
      | lit w =>
        rw [iface] at hv'
        split at hv'
        · cases hv'
        · obtain ⟨_, _, h⟩ := Option.map_eq_some_iff.1 hv'; cases h
      | obj ms =>
        obtain ⟨ms2, e1, e2⟩ := iface_obj F hv'
        simp only [Json.obj.injEq] at e1
        subst e1
        exact members_absent F ms [] _ e2 (hv ms rfl) (by intro m hm; cases hm)
    refine fold_skip (π := fun s : HookData × Bool => s.1.message) (hit := fun m => isKey m.1 "message".toList) ?_ ms'
      (⟨none, none⟩, true) ha
    intro s m hm
    unfold hookMember
    rw [if_neg (Bool.eq_false_iff.1 hm)]
    split <;> rfl

/-- **C86 does not hold** for the README's form of the access list (an object): every such packet is refused, whatever else
it says. -/
theorem C86_access_list_violated (F : Floats) (e : Env σ Json K) (hr : Reads F e) (s : σ) (p : Packet)
    {sender receiver memo : Str} {redirect : Str → Packet} (hp : Carries e p sender receiver memo redirect)
    {ms cs al : List (Str × Json)} (hd : Directed F memo (.obj ms)) (hm : Only ms "message" (.obj cs))
    (ha : Only cs "access_list" (.obj al)) :
    (onRecv e ⟨s, []⟩ p).1.success = false ∧ (onRecv e ⟨s, []⟩ p).2.ops = [] := by
  obtain ⟨hne, v', hv', hmf⟩ := directed_field F hd
  obtain ⟨ms', e1, e2⟩ := iface_obj F hv'
  subst e1
  obtain ⟨w', hw, ho⟩ := members_only F ms [] ms' e2 hm (by intro m hm; cases hm)
  obtain ⟨cs', e3, e4⟩ := iface_obj F hw
  subst e3
  obtain ⟨x, hx, hal⟩ := members_only F cs [] cs' e4 ha (by intro m hm; cases hm)
  obtain ⟨al', e5, _⟩ := iface_obj F hx
  subst e5
  have hbad : ∀ s : MsgCall × Bool, (cs'.foldl (msgMember F) s).2 = false := by
    intro s
    obtain ⟨pre, k, post, p1, p2, p3⟩ := hal
    rw [p1, List.foldl_append, List.foldl_cons]
    refine fold_inv (P := fun s : MsgCall × Bool => s.2 = false) post _ ?_ ?_
    · have n1 : isKey k "sender".toList = false := isKey_ne p2 (by decide)
      have n2 : isKey k "contract_addr".toList = false := isKey_ne p2 (by decide)
      have n3 : isKey k "input".toList = false := isKey_ne p2 (by decide)
      have n4 : isKey k "value".toList = false := isKey_ne p2 (by decide)
      simp only [msgMember, n1, n2, n3, n4, p2, if_true, Bool.false_eq_true, if_false, accessOk, Bool.and_false]
    · intro s m _ hs
      unfold msgMember
      split
      · simp [hs]
      · split
        · simp [hs]
        · split
          · simp [hs]
          · split
            · simp [hs]
            · split <;> simp [hs]
  have hj : e.jsonField memo "evm".toList = some (some (.obj ms')) := by rw [hr.field]; exact hmf
  refine C35_malformed e s p hp hne _ hj ?_ ?_
  · rw [hr.hook]
    have := fold_only (f := hookMember F) (π := fun s : HookData × Bool => s.1.message.isSome) (a := true) ho (⟨none, none⟩, true)
      (by intro s m hm
          unfold hookMember
          rw [if_neg (Bool.eq_false_iff.1 hm)]
          split <;> rfl)
      (by intro s k hk; simp only [hookMember, hk, if_true, decMsg]; rfl)
    intro hnone
    change (List.foldl (hookMember F) (⟨none, none⟩, true) ms').1.message.isSome = true at this
    change (List.foldl (hookMember F) (⟨none, none⟩, true) ms').1.message = none at hnone
    rw [hnone] at this; cases this
  · rw [hr.hook]
    change (List.foldl (hookMember F) (⟨none, none⟩, true) ms').2 = false
    obtain ⟨pre, k, post, p1, p2, p3⟩ := ho
    rw [p1, List.foldl_append, List.foldl_cons]
    refine fold_inv (P := fun s : HookData × Bool => s.2 = false) post _ ?_ ?_
    · simp only [hookMember, p2, if_true, decMsg, hbad, Bool.and_false]
    · intro s m _ hs
      unfold hookMember
      split
      · simp [hs]
      · split <;> simp [hs]


/-- Whether a callback decodes does not depend on what was there before. -/
theorem decCb_ok (a b : Option AsyncCallback) (v : Json) : (decCb a v).2 = (decCb b v).2 := by
  have key : ∀ (ms : List (Str × Json)) (x y : AsyncCallback × Bool), x.2 = y.2 →
      (ms.foldl cbMember x).2 = (ms.foldl cbMember y).2 := by
    intro ms
    induction ms with
    | nil => intro x y h; exact h
    | cons m ms ih =>
      intro x y h
      rw [List.foldl_cons, List.foldl_cons]
      apply ih
      have hd : ∀ (o o' : Str) (j : Json), (decStr o j).2 = (decStr o' j).2 := by intro o o' j; cases j <;> rfl
      have hi : ∀ (o o' : Nat) (j : Json), (decU64 o j).2 = (decU64 o' j).2 := by
        intro o o' j
        cases j with
        | lit w =>
          simp only [decU64]
          split
          · rfl
          · cases parseNat w with
            | none => rfl
            | some n => simp only; split <;> rfl
        | _ => rfl
      unfold cbMember
      split
      · simp only [h]; rw [hi]
      · split
        · simp only [h]; rw [hd]
        · exact h
  cases v with
  | str s => rfl
  | arr vs => rfl
  | lit w => simp only [decCb]; split <;> rfl
  | obj ms => exact key ms _ _ rfl

theorem msg_contract (F : Floats) {cs : List (Str × Json)} {c : Str} (h : OnlyK cs "contract_addr" (.str c)) (s : MsgCall × Bool) :
    (cs.foldl (msgMember F) s).1.contractAddr = c := by
  refine fold_only (π := fun s : MsgCall × Bool => s.1.contractAddr) h s ?_ ?_
  · intro s m hm
    unfold msgMember
    split
    · rfl
    · rw [if_neg (Bool.eq_false_iff.1 hm)]
      split
      · rfl
      · split
        · rfl
        · split <;> rfl
  · intro s k hk
    have n1 : isKey k "sender".toList = false := isKey_ne hk (by decide)
    simp only [msgMember, n1, hk, if_true, Bool.false_eq_true, if_false, decStr]

theorem msg_input (F : Floats) {cs : List (Str × Json)} {i : Str} (h : OnlyK cs "input" (.str i)) (s : MsgCall × Bool) :
    (cs.foldl (msgMember F) s).1.input = i := by
  refine fold_only (π := fun s : MsgCall × Bool => s.1.input) h s ?_ ?_
  · intro s m hm
    unfold msgMember
    split
    · rfl
    · split
      · rfl
      · rw [if_neg (Bool.eq_false_iff.1 hm)]
        split
        · rfl
        · split <;> rfl
  · intro s k hk
    have n1 : isKey k "sender".toList = false := isKey_ne hk (by decide)
    have n2 : isKey k "contract_addr".toList = false := isKey_ne hk (by decide)
    simp only [msgMember, n1, n2, hk, if_true, Bool.false_eq_true, if_false, decStr]

theorem msg_value (F : Floats) {cs : List (Str × Json)} {t : Str} {n : Int} (h : OnlyK cs "value" (.str t)) (hn : F.int t = some n)
    (s : MsgCall × Bool) : (cs.foldl (msgMember F) s).1.value = n := by
  refine fold_only (π := fun s : MsgCall × Bool => s.1.value) h s ?_ ?_
  · intro s m hm
    unfold msgMember
    split
    · rfl
    · split
      · rfl
      · split
        · rfl
        · rw [if_neg (Bool.eq_false_iff.1 hm)]
          split <;> rfl
  · intro s k hk
    have n1 : isKey k "sender".toList = false := isKey_ne hk (by decide)
    have n2 : isKey k "contract_addr".toList = false := isKey_ne hk (by decide)
    have n3 : isKey k "input".toList = false := isKey_ne hk (by decide)
    simp only [msgMember, n1, n2, n3, hk, if_true, Bool.false_eq_true, if_false, decInt, hn]

theorem msg_ok (F : Floats) {cs : List (Str × Json)} {c i t : Str} {n : Int} (h1 : OnlyK cs "contract_addr" (.str c))
    (h2 : OnlyK cs "input" (.str i)) (h3 : OnlyK cs "value" (.str t)) (hn : F.int t = some n)
    (h4 : AbsentK cs "sender") (h5 : AbsentK cs "access_list" ∨ OnlyK cs "access_list" (.arr [])) (s : MsgCall × Bool) (hs : s.2 = true) :
    (cs.foldl (msgMember F) s).2 = true := by
  refine fold_inv (P := fun s : MsgCall × Bool => s.2 = true) cs s hs ?_
  intro s m hm hs
  unfold msgMember
  split
  · next hk => rw [h4 m hm] at hk; cases hk
  · split
    · next hk => rw [only_value h1 hm hk]; simp [decStr, hs]
    · split
      · next hk => rw [only_value h2 hm hk]; simp [decStr, hs]
      · split
        · next hk => rw [only_value h3 hm hk]; simp [decInt, hn, hs]
        · split
          · next hk =>
            rcases h5 with h5 | h5
            · rw [h5 m hm] at hk; cases hk
            · rw [only_value h5 hm hk]; simp [accessOk, hs]
          · exact hs

/-- The callback, if there is one, is well formed. -/
def CallbackFine (F : Floats) (ms : List (Str × Json)) : Prop :=
  Absent ms "async_callback" ∨ ∃ v v', Only ms "async_callback" v ∧ iface F v = some v' ∧ (decCb none v').2 = true

/-- **C86** (the message is obeyed). A received packet whose memo has a message with contract, input and value, whose
receiver is that contract, and which is acknowledged with success has called that contract with that input and value, as
the derived sender. -/
theorem C86_message (F : Floats) (e : Env σ Json K) (hr : Reads F e) (s : σ) (p : Packet) {sender receiver memo c i t : Str}
    {n : Int} {redirect : Str → Packet} (hp : Carries e p sender receiver memo redirect) {ms cs : List (Str × Json)}
    (hd : Directed F memo (.obj ms)) (hm : Only ms "message" (.obj cs)) (hc : CallbackFine F ms)
    (h1 : Only cs "contract_addr" (.str c)) (h2 : Only cs "input" (.str i)) (h3 : Only cs "value" (.str t))
    (hn : F.int t = some n) (h4 : Absent cs "sender") (h5 : Absent cs "access_list" ∨ Only cs "access_list" (.arr []))
    (hs : (onRecv e ⟨s, []⟩ p).1.success = true) :
    Allowed e s c ∧ receiver = c ∧
      ∃ before, (onRecv e ⟨s, []⟩ p).2.ops = before ++ [.call ⟨intermediate e p.dstChan sender, c, i, n⟩] := by
  obtain ⟨hne, v', hv', hmf⟩ := directed_field F hd
  obtain ⟨ms', e1, e2⟩ := iface_obj F hv'
  subst e1
  obtain ⟨w', hw, ho⟩ := members_only F ms [] ms' e2 hm (by intro m hm; cases hm)
  obtain ⟨cs', e3, e4⟩ := iface_obj F hw
  subst e3
  have str : ∀ (name : String) (x : Str), OnlyK cs name (.str x) → OnlyK cs' name (.str x) := by
    intro name x h
    obtain ⟨y, hy, h'⟩ := members_only F cs [] cs' e4 h (by intro m hm; cases hm)
    rw [iface] at hy
    simp only [Option.some.injEq] at hy
    rw [hy]; exact h'
  have a1 := str _ _ h1
  have a2 := str _ _ h2
  have a3 := str _ _ h3
  have a4 := members_absent F cs [] cs' e4 h4 (by intro m hm; cases hm)
  have a5 : AbsentK cs' "access_list" ∨ OnlyK cs' "access_list" (.arr []) := by
    rcases h5 with h5 | h5
    · exact .inl (members_absent F cs [] cs' e4 h5 (by intro m hm; cases hm))
    · obtain ⟨y, hy, h'⟩ := members_only F cs [] cs' e4 h5 (by intro m hm; cases hm)
      simp only [iface, ifaceList, Option.map_some, Option.some.injEq] at hy
      rw [← hy] at h'
      exact .inr h'
  have mok := msg_ok F a1 a2 a3 hn a4 a5 (zeroMsg, true) rfl
  have hcb : AbsentK ms' "async_callback" ∨ ∃ v, OnlyK ms' "async_callback" v ∧ (decCb none v).2 = true := by
    rcases hc with h | ⟨v, v', h, hv, hok⟩
    · exact .inl (members_absent F ms [] ms' e2 h (by intro m hm; cases hm))
    · obtain ⟨w, x1, x2⟩ := members_only F ms [] ms' e2 h (by intro m hm; cases hm)
      rw [hv] at x1
      simp only [Option.some.injEq] at x1
      subst x1
      exact .inr ⟨_, x2, hok⟩
  obtain ⟨pre, k, post, p1, p2, p3⟩ := ho
  have skip : ∀ (l : List (Str × Json)), (∀ m ∈ l, isKey m.1 "message".toList = false) → ∀ s : HookData × Bool,
      (l.foldl (hookMember F) s).1.message = s.1.message := by
    intro l hl s
    refine fold_skip (π := fun s : HookData × Bool => s.1.message) (hit := fun m => isKey m.1 "message".toList) ?_ l s hl
    intro s m hm
    unfold hookMember
    rw [if_neg (Bool.eq_false_iff.1 hm)]
    split <;> rfl
  have skipok : ∀ (l : List (Str × Json)), (∀ m ∈ l, m ∈ ms') → (∀ m ∈ l, isKey m.1 "message".toList = false) →
      ∀ s : HookData × Bool, s.2 = true → (l.foldl (hookMember F) s).2 = true := by
    intro l hl hno s hs
    refine fold_inv (P := fun s : HookData × Bool => s.2 = true) l s hs ?_
    intro s m hml hs
    unfold hookMember
    rw [if_neg (by rw [hno m hml]; decide)]
    split
    · next hk =>
      rcases hcb with h | ⟨v, h, hv⟩
      · rw [h m (hl m hml)] at hk; cases hk
      · rw [only_value h (hl m hml) hk]
        simp only [hs, Bool.true_and]
        rw [decCb_ok _ none]; exact hv
    · exact hs
  have q1 : (pre.foldl (hookMember F) (⟨none, none⟩, true)).1.message = none :=
    skip pre (fun m h => p3 m (List.mem_append_left _ h)) _
  have q2 : (pre.foldl (hookMember F) (⟨none, none⟩, true)).2 = true :=
    skipok pre (fun m h => by rw [p1]; exact List.mem_append_left _ h) (fun m h => p3 m (List.mem_append_left _ h)) _ rfl
  have q3 : (ms'.foldl (hookMember F) (⟨none, none⟩, true)).1.message = some (cs'.foldl (msgMember F) (zeroMsg, true)).1 := by
    rw [p1, List.foldl_append, List.foldl_cons, skip post (fun m h => p3 m (List.mem_append_right _ h))]
    simp only [hookMember, p2, if_true, decMsg, q1, Option.getD_none]
  have q4 : (ms'.foldl (hookMember F) (⟨none, none⟩, true)).2 = true := by
    rw [p1, List.foldl_append, List.foldl_cons]
    apply skipok post (fun m h => by rw [p1]; exact List.mem_append_right _ (List.mem_cons_of_mem _ h))
      (fun m h => p3 m (List.mem_append_right _ h))
    simp only [hookMember, p2, if_true, decMsg, q1, q2, Option.getD_none, mok, Bool.and_self]
  have asks : Asks e memo (cs'.foldl (msgMember F) (zeroMsg, true)).1 :=
    ⟨hne, .obj ms', (e.decodeHook (.obj ms')).1, by rw [hr.field]; exact hmf, Prod.ext rfl (by rw [hr.hook]; exact q4),
      by rw [hr.hook]; exact q3⟩
  have r1 := msg_contract F a1 (zeroMsg, true)
  have r2 := msg_input F a2 (zeroMsg, true)
  have r3 := msg_value F a3 hn (zeroMsg, true)
  obtain ⟨x1, x2, _, _, before, _, x3⟩ := C35_success e s p hp asks hs
  rw [r1] at x1 x2
  refine ⟨x1, x2, before, ?_⟩
  rw [x3]
  cases hx : (cs'.foldl (msgMember F) (zeroMsg, true)).1 with
  | mk a b d f => rw [hx] at r1 r2 r3; simp only at r1 r2 r3; rw [r1, r2, r3]


/-! ### Texts: the hypotheses are met -/

theorem wholeFrom_eat : ∀ (s : Str) (m m' : Mode) (p p' : List Frame × Expect) (r : Str),
    eat m p s = some (m', p') → wholeFrom m p (s ++ r) = wholeFrom m' p' r
  | [], m, m', p, p', r, h => by
    simp only [eat, Option.some.injEq, Prod.mk.injEq] at h
    rw [h.1, h.2, List.nil_append]
  | c :: cs, m, m', p, p', r, h => by
    rw [eat] at h
    have e : wholeFrom m p (c :: cs ++ r) =
        (scan m c).bind fun x => (steps p x.2).bind fun q => wholeFrom x.1 q (cs ++ r) := by
      rw [List.cons_append]; cases m <;> rfl
    rw [e]
    cases hs : scan m c with
    | none => rw [hs] at h; simp at h
    | some x =>
      obtain ⟨m1, ts⟩ := x
      rw [hs] at h
      simp only [Option.bind_some] at h ⊢
      cases ht : steps p ts with
      | none => rw [ht] at h; simp at h
      | some q =>
        rw [ht] at h
        obtain ⟨st, ex⟩ := q
        simp only [Option.bind_some]
        cases ex <;> first | exact wholeFrom_eat cs m1 m' _ p' r h | simp at h

theorem eat_word (st : List Frame) : ∀ (s w : Str), (∀ c ∈ s, wordChar c = true) →
    eat (.word w) (st, .value) s = some (.word (w ++ s), st, .value)
  | [], w, _ => by simp [eat]
  | c :: cs, w, h => by
    have hs : scan (.word w) c = some (.word (w ++ [c]), []) := by simp [scan, h c (by simp)]
    rw [eat, hs]
    simp only [steps]
    rw [eat_word st cs (w ++ [c]) fun d hd => h d (by simp [hd])]
    simp

theorem digit_word : ∀ d, d < 10 → wordChar (decDigit d) = true ∧ scanOut (decDigit d) = some (.word [decDigit d], []) := by
  decide

theorem eat_num (st : List Frame) (n : Nat) : eat .out (st, .value) (natStr n) = some (.word (natStr n), st, .value) := by
  have hd := natStr_head n
  cases hn : natStr n with
  | nil => exact absurd hn (natStr_ne n)
  | cons c cs =>
    rw [hn] at hd
    obtain ⟨d, hlt, e⟩ := hd c (by simp)
    have hs : scan .out c = some (.word [c], []) := by rw [e]; exact (digit_word d hlt).2
    rw [eat, hs]
    simp only [steps]
    rw [eat_word st cs [c]]
    · rfl
    · intro x hx
      obtain ⟨d, hlt, e⟩ := hd x (by simp [hx])
      rw [e]; exact (digit_word d hlt).1

theorem numStep_digit : ∀ d, d < 10 → numStep 3 (decDigit d) = 3 := by decide
theorem numStep_first : ∀ d, d < 10 → numStep 0 (decDigit d) = if d = 0 then 2 else 3 := by decide

theorem num_pos (n : Nat) (h : n ≠ 0) : (natStr n).foldl numStep 0 = 3 := by
  induction n using Nat.strongRecOn with
  | _ n ih =>
    unfold natStr
    split
    · next hlt => simp only [List.foldl_cons, List.foldl_nil, numStep_first n hlt, if_neg h]
    · next hge =>
      rw [List.foldl_append, ih (n / 10) (by omega) (by omega)]
      exact numStep_digit _ (Nat.mod_lt _ (by decide))

theorem isLit_dec (n : Nat) : isLit (natStr n) = true := by
  by_cases h : n = 0
  · subst h; decide +kernel
  · unfold isLit; rw [num_pos n h]; simp

/-- The text `{"evm":{"async_callback":{"id":n,"contract_address":"c"}}}`. -/
def callbackText (n : Nat) (field c : Str) : Str :=
  "{\"evm\":{\"async_callback\":{\"id\":".toList ++ (natStr n ++ (",\"".toList ++ (field ++ ("\":\"".toList ++
    (c ++ "\"}}}".toList)))))

theorem whole_callback (n : Nat) (field c : Str) (hf : Plain field) (hc : Plain c) : whole (callbackText n field c) =
    some (.obj [("evm".toList, .obj [("async_callback".toList, .obj [("id".toList, .lit (natStr n)), (field, .str c)])])]) := by
  unfold whole callbackText
  have h1 : eat .out ([], .value) "{\"evm\":{\"async_callback\":{\"id\":".toList =
      some (.out, [.obj [] "id".toList, .obj [] "async_callback".toList, .obj [] "evm".toList], .value) := rfl
  rw [wholeFrom_eat _ _ _ _ _ _ h1, wholeFrom_eat _ _ _ _ _ _ (eat_num _ n)]
  have h2 : eat (.word (natStr n)) ([.obj [] "id".toList, .obj [] "async_callback".toList, .obj [] "evm".toList], .value)
      ",\"".toList = some (.str [], [.obj [("id".toList, .lit (natStr n))] [], .obj [] "async_callback".toList,
        .obj [] "evm".toList], .key) := by
    have e : (",\"".toList : Str) = [',', '"'] := rfl
    rw [e]
    have hs : scan (.word (natStr n)) ',' = some (.out, [.word (natStr n), .comma]) := rfl
    rw [eat, hs]
    simp only [steps, step, startValue, isLit_dec, if_true, give, Option.bind_some, next, List.nil_append]
    rfl
  rw [wholeFrom_eat _ _ _ _ _ _ h2, wholeFrom_eat _ _ _ _ _ _ (eat_plain _ .key (by simp) field [] hf)]
  have h3 : eat (.str ([] ++ field)) ([.obj [("id".toList, .lit (natStr n))] [], .obj [] "async_callback".toList,
      .obj [] "evm".toList], .key) "\":\"".toList = some (.str [], [.obj [("id".toList, .lit (natStr n))] field,
        .obj [] "async_callback".toList, .obj [] "evm".toList], .value) := rfl
  rw [wholeFrom_eat _ _ _ _ _ _ h3, wholeFrom_eat _ _ _ _ _ _ (eat_plain _ .value (by simp) c [] hc)]
  rfl

/-- The floats of the examples: no other numbers, values in decimal. -/
def toyFloats : Floats where
  other := fun _ => none
  other_num := by intro w t h; cases h
  int := parseInt

theorem plain_contract : Plain "contract_address".toList ∧ Plain "contract_addr".toList := by
  unfold Plain; decide +kernel

/-- Non-vacuity: for every id and every plain contract text there is a memo that asks for the callback. -/
theorem text_asks (n : Nat) (hn : n < 2 ^ 64) (c : Str) (hc : Plain c) :
    AsksFor toyFloats (callbackText n "contract_address".toList c) n c := by
  have hi := iface_dec toyFloats n hn
  refine ⟨[("async_callback".toList, .obj [("id".toList, .lit (natStr n)), ("contract_address".toList, .str c)])],
    [("id".toList, .lit (natStr n)), ("contract_address".toList, .str c)], ⟨_, ?_, whole_callback n _ c plain_contract.1 hc, ?_, rfl⟩,
    ⟨[], _, [], rfl, rfl, by simp⟩, ⟨[], _, [("contract_address".toList, .str c)], rfl, rfl, by simp; rfl⟩,
    ⟨[("id".toList, .lit (natStr n))], _, [], rfl, rfl, by simp; rfl⟩, .inl (by intro m hm; simp at hm; subst hm; rfl)⟩
  · exact .obj [("evm".toList, .obj [("async_callback".toList, .obj [("contract_address".toList, .str c),
      ("id".toList, .lit (natStr (shortest (toF64 n))))])])]
  · simp only [iface, ifaceMembers] at hi ⊢
    rw [hi]
    rfl

/-- Non-vacuity of C86_documented_violated: the README's text. -/
theorem text_documented (n : Nat) (hn : n < 2 ^ 64) (c : Str) (hc : Plain c) :
    AsksDocumented toyFloats (callbackText n "contract_addr".toList c) n c := by
  have hi := iface_dec toyFloats n hn
  refine ⟨[("async_callback".toList, .obj [("id".toList, .lit (natStr n)), ("contract_addr".toList, .str c)])],
    [("id".toList, .lit (natStr n)), ("contract_addr".toList, .str c)], ⟨_, ?_, whole_callback n _ c plain_contract.2 hc, ?_, rfl⟩,
    ⟨[], _, [], rfl, rfl, by simp⟩, ⟨[], _, [("contract_addr".toList, .str c)], rfl, rfl, by simp; rfl⟩,
    ⟨[("id".toList, .lit (natStr n))], _, [], rfl, rfl, by simp; rfl⟩,
    (by intro m hm; simp only [List.mem_cons, List.not_mem_nil, or_false] at hm; rcases hm with h | h <;> subst h <;> rfl),
    .inl (by intro m hm; simp at hm; subst hm; rfl)⟩
  · exact .obj [("evm".toList, .obj [("async_callback".toList, .obj [("contract_addr".toList, .str c),
      ("id".toList, .lit (natStr (shortest (toF64 n))))])])]
  · simp only [iface, ifaceMembers] at hi ⊢
    rw [hi]
    rfl

/-- The toy hook chain with the real memo reader; its packets carry this memo. -/
def toyMemo (memo : Str) : Env (Nat × List (Str × Str)) Json Unit where
  tx := Props.TxUtils.toyEnv 6
  jsonField := memoField toyFloats
  decodeHook := decodeHook toyFloats
  decode20 := fun b => if b = [] then some ⟨backDenom, ['5'], ['s'], fiveHex, memo⟩ else none
  encode20 := fun _ => [1]
  decode721 := fun _ _ => none
  encode721 := fun _ _ => [2]
  sha := (toyHooks [] []).sha
  utf8 := (toyHooks [] []).utf8
  pack := fun c => match c with
    | .ibcAck n b => toBE n 8 ++ [if b then 1 else 0]
    | .ibcTimeout n => toBE n 8
    | c => (toyHooks [] []).pack c
  ackDecode := (toyHooks [] []).ackDecode
  appRecv := (toyHooks [] []).appRecv
  appAck := (toyHooks [] []).appAck
  appTimeout := (toyHooks [] []).appTimeout
  call := (toyHooks [] []).call
  allowed := (toyHooks [] []).allowed
  denomContract := (toyHooks [] []).denomContract
  classContract := (toyHooks [] []).classContract

theorem toyMemo_reads (memo : Str) : Reads toyFloats (toyMemo memo) := ⟨rfl, rfl⟩
theorem toyMemo_sent (memo : Str) : Sent (toyMemo memo) toyPacket ['s'] memo :=
  .ft (e := toyMemo memo) (p := toyPacket) ⟨backDenom, ['5'], ['s'], fiveHex, memo⟩ rfl
theorem toyMemo_carries (memo : Str) : Carries (toyMemo memo) toyPacket ['s'] fiveHex memo
    (fun _ => ⟨['t'], ['c'], ['t'], ['d'], [1]⟩) :=
  .ft (e := toyMemo memo) (p := toyPacket) ⟨backDenom, ['5'], ['s'], fiveHex, memo⟩ rfl
theorem five_plain : Plain fiveHex := by unfold Plain; decide +kernel
theorem five_allowed (memo : Str) (s : Nat × List (Str × Str)) : Allowed (toyMemo memo) s fiveHex :=
  ⟨Addr.ofNat 5, (by decide +kernel : TxUtils.contractAddressFromString (Props.TxUtils.toyEnv 6) fiveHex = some (Addr.ofNat 5)),
    by simp [toyMemo, toyHooks]⟩

/-- **C86** on a chain: with id 7 the contract is told 7; with id 9007199254740993 (odd, above 2^53) it is told
9007199254740992, the id of another transfer. -/
theorem C86_wrong_id_violated :
    (onAck (toyMemo (callbackText 7 "contract_address".toList fiveHex)) (0, []) toyPacket [0]).2.ops =
      [.call ⟨['s'], fiveHex, encode0x (toBE 7 8 ++ [0]), 0⟩] ∧
    (onAck (toyMemo (callbackText 9007199254740993 "contract_address".toList fiveHex)) (0, []) toyPacket [0]).2.ops =
      [.call ⟨['s'], fiveHex, encode0x (toBE 9007199254740992 8 ++ [0]), 0⟩] := by
  constructor
  · exact C86_callback_partial toyFloats _ (toyMemo_reads _) _ toyPacket [0] false (toyMemo_sent _)
      (text_asks 7 (by decide) fiveHex five_plain) (by decide) rfl (five_allowed _ _) rfl
  · have h := (asked toyFloats (toyMemo_reads (callbackText 9007199254740993 "contract_address".toList fiveHex))
      (text_asks 9007199254740993 (by decide) fiveHex five_plain) (by decide)).1 (by decide +kernel)
    rw [show shortest (toF64 9007199254740993) = 9007199254740992 by decide +kernel] at h
    rw [onAck_ops _ _ toyPacket [0] (toyMemo_sent _),
      if_pos (show ((toyMemo (callbackText 9007199254740993 "contract_address".toList fiveHex)).appAck toyPacket [0] (0, [])).1 = true from rfl),
      callback_made h (five_allowed _ _)]
    rfl

/-- A memo with a message. -/
def messageText : Str := "{\"evm\":{\"message\":{\"contract_addr\":\"".toList ++ fiveHex ++
  "\",\"input\":\"0x\",\"value\":\"3\"}}}".toList

theorem whole_message : whole messageText = some (.obj [("evm".toList, .obj [("message".toList, .obj
    [("contract_addr".toList, .str fiveHex), ("input".toList, .str "0x".toList), ("value".toList, .str "3".toList)])])]) := by
  rw [show messageText = "{\"evm\":{\"message\":{\"contract_addr\":\"".toList ++ (fiveHex ++
    "\",\"input\":\"0x\",\"value\":\"3\"}}}".toList) from List.append_assoc _ _ _]
  unfold whole
  have h1 : eat .out ([], .value) "{\"evm\":{\"message\":{\"contract_addr\":\"".toList =
    some (.str [], [.obj [] "contract_addr".toList, .obj [] "message".toList, .obj [] "evm".toList], .value) := rfl
  rw [wholeFrom_eat _ _ _ _ _ _ h1, wholeFrom_eat _ _ _ _ _ _ (eat_plain _ .value (by simp) fiveHex [] five_plain)]
  rfl

/-- Non-vacuity of C86_message and C86_never_plain: the toy packet with this memo is accepted and calls the contract. -/
theorem C86_message_case : (onRecv (toyMemo messageText) ⟨(0, []), []⟩ toyPacket).1.success = true ∧
    (∃ ms cs, Directed toyFloats messageText (.obj ms) ∧ Only ms "message" (.obj cs) ∧ CallbackFine toyFloats ms ∧
      Only cs "contract_addr" (.str fiveHex) ∧ Only cs "input" (.str "0x".toList) ∧ Only cs "value" (.str "3".toList) ∧
      toyFloats.int "3".toList = some 3 ∧ Absent cs "sender" ∧ Absent cs "access_list") := by
  refine ⟨by decide +kernel, [("message".toList, .obj [("contract_addr".toList, .str fiveHex),
    ("input".toList, .str "0x".toList), ("value".toList, .str "3".toList)])],
    [("contract_addr".toList, .str fiveHex), ("input".toList, .str "0x".toList), ("value".toList, .str "3".toList)],
    ⟨_, _, whole_message, rfl, rfl⟩, ⟨[], _, [], rfl, rfl, by simp⟩, .inl (by intro m hm; simp at hm; subst hm; rfl),
    ⟨[], _, [("input".toList, .str "0x".toList), ("value".toList, .str "3".toList)], rfl, rfl, ?_⟩,
    ⟨[("contract_addr".toList, .str fiveHex)], _, [("value".toList, .str "3".toList)], rfl, rfl, ?_⟩,
    ⟨[("contract_addr".toList, .str fiveHex), ("input".toList, .str "0x".toList)], _, [], rfl, rfl, ?_⟩, by decide +kernel, ?_, ?_⟩
  all_goals
    intro m hm
    simp only [List.nil_append, List.cons_append, List.append_nil, List.mem_cons, List.not_mem_nil, or_false] at hm
    first
    | (rcases hm with h | h | h <;> subst h <;> rfl)
    | (rcases hm with h | h <;> subst h <;> rfl)

theorem whole_true : whole "{\"evm\":true}".toList = some (.obj [("evm".toList, .lit "true".toList)]) := rfl
theorem whole_msg : whole "{\"evm\":{\"msg\":{}}}".toList = some (.obj [("evm".toList, .obj [("msg".toList, .obj [])])]) := rfl
theorem whole_list : whole "{\"evm\":{\"message\":{\"access_list\":{}}}}".toList =
    some (.obj [("evm".toList, .obj [("message".toList, .obj [("access_list".toList, .obj [])])])]) := rfl

/-- Non-vacuity of C86_directed_violated: `{"evm":{"msg":{}}}` and `{"evm":true}`; and of C86_access_list_violated. -/
example : (∃ v, Directed toyFloats "{\"evm\":true}".toList v ∧ ∀ ms, v = .obj ms → Absent ms "message") ∧
    (∃ v, Directed toyFloats "{\"evm\":{\"msg\":{}}}".toList v ∧ ∀ ms, v = .obj ms → Absent ms "message") ∧
    (∃ ms cs al, Directed toyFloats "{\"evm\":{\"message\":{\"access_list\":{}}}}".toList (.obj ms) ∧ Only ms "message" (.obj cs) ∧
      Only cs "access_list" (.obj al)) := by
  refine ⟨⟨.lit "true".toList, ⟨_, _, whole_true, rfl, rfl⟩, by intro ms h; cases h⟩,
    ⟨.obj [("msg".toList, .obj [])], ⟨_, _, whole_msg, rfl, rfl⟩, ?_⟩,
    ⟨[("message".toList, .obj [("access_list".toList, .obj [])])], [("access_list".toList, .obj [])], [], ⟨_, _, whole_list, rfl, rfl⟩,
      ⟨[], _, [], rfl, rfl, by simp⟩, ⟨[], _, [], rfl, rfl, by simp⟩⟩⟩
  intro ms h
  simp only [Json.obj.injEq] at h
  subst h
  intro m hm
  simp only [List.mem_cons, List.not_mem_nil, or_false] at hm
  subst hm; rfl

/-- Non-vacuity of C86_documented_violated: the toy Bech32 decoder refuses the empty text. -/
example : (Props.TxUtils.toyEnv 6).unbech [] = none := by decide +kernel

end Verif.Memo
