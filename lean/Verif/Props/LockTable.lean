import Verif.Model.LockTable
/-
C60: submissions of one sender are serialised.
-/
namespace Verif.LockTable
open Verif

/-- The object a goroutine refers to. -/
def refOf (s : State) (t : Nat) : Option Nat :=
  match (s.threads t).pc with
  | .wantAcc p => some p
  | .inside => s.map (s.threads t).sender
  | .unlocking p => some p
  | .wantDrop p => some p
  | .inDrop p => some p
  | _ => none

/-- A goroutine has an object. -/
def hasRef (pc : Pc) : Bool :=
  match pc with
  | .wantAcc _ | .inside | .unlocking _ | .wantDrop _ | .inDrop _ => true
  | _ => false

/-- explicit object in the program counter -/
def ptr : Pc → Option Nat
  | .wantAcc p | .unlocking p | .wantDrop p | .inDrop p => some p
  | _ => none

/-- Invariant. -/
structure Inv (s : State) : Prop where
  /-- the holder of the table lock is in one of the two table sections -/
  table : ∀ t, s.table = some t ↔ ((s.threads t).pc = .inTable ∨ ∃ p, (s.threads t).pc = .inDrop p)
  /-- every goroutine with an object finds that object in the map under its sender -/
  mapped : ∀ t, hasRef (s.threads t).pc = true → ∃ p, s.map (s.threads t).sender = some p ∧ (∀ q, ptr (s.threads t).pc = some q → q = p)
  /-- the holder of an object's lock is inside or about to unlock -/
  holder : ∀ t p, s.lock p = some t ↔ (s.map (s.threads t).sender = some p ∧ ((s.threads t).pc = .inside ∨ (s.threads t).pc = .unlocking p))
  /-- objects belong to one sender and are old -/
  inj : ∀ a b p, s.map a = some p → s.map b = some p → a = b
  old : ∀ a p, s.map a = some p → p < s.fresh
  fresh : ∀ p, s.fresh ≤ p → s.lock p = none
  /-- the reference count is the number of goroutines with the object, and an object in the map has one -/
  count : ∀ a p, s.map a = some p → ∃ l : List Nat, l.Nodup ∧ l ≠ [] ∧ s.rc p = l.length ∧
    ∀ t, t ∈ l ↔ ((s.threads t).sender = a ∧ hasRef (s.threads t).pc = true)

theorem inv_init : Inv State.init := by
  constructor <;> simp [State.init, hasRef]

theorem put_same {β : Type} (f : Nat → β) (k : Nat) (v : β) : put f k v k = v := by simp [put]
theorem put_other {β : Type} (f : Nat → β) (k x : Nat) (v : β) (h : x ≠ k) : put f k v x = f x := by simp [put, h]


/-- Moves that touch neither map, counts nor sender locks. -/
theorem inv_move (s s' : State) (t σ : Nat) (pc : Pc) (h : Inv s) (hth : s'.threads = put s.threads t ⟨σ, pc⟩) (hm : s'.map = s.map)
    (hl : s'.lock = s.lock) (hr : s'.rc = s.rc) (hf : s'.fresh = s.fresh)
    (htab : ∀ u, s'.table = some u ↔ ((s'.threads u).pc = .inTable ∨ ∃ p, (s'.threads u).pc = .inDrop p))
    (href : hasRef pc = hasRef (s.threads t).pc) (hsnd : hasRef pc = true → σ = (s.threads t).sender)
    (hptr : ∀ q, ptr pc = some q → s.map σ = some q)
    (hhold : ∀ p, (s.map σ = some p ∧ (pc = .inside ∨ pc = .unlocking p)) ↔
      (s.map (s.threads t).sender = some p ∧ ((s.threads t).pc = .inside ∨ (s.threads t).pc = .unlocking p))) : Inv s' := by
  have hne : ∀ u, u ≠ t → s'.threads u = s.threads u := fun u hu => by rw [hth, put_other _ _ _ _ hu]
  have heq : s'.threads t = ⟨σ, pc⟩ := by rw [hth, put_same]
  refine ⟨htab, fun u hu => ?_, fun u p => ?_, by rw [hm]; exact h.inj, by rw [hm, hf]; exact h.old, by rw [hl, hf]; exact h.fresh, fun a p hp => ?_⟩
  · by_cases hut : u = t
    · subst hut
      rw [heq] at hu ⊢
      rw [hm]
      obtain ⟨p, h1, _⟩ := h.mapped u (by rw [← href]; exact hu)
      rw [← hsnd hu] at h1
      exact ⟨p, h1, fun q hq => by have := hptr q hq; rw [h1] at this; exact (Option.some.inj this).symm⟩
    · rw [hne u hut] at hu ⊢; rw [hm]; exact h.mapped u hu
  · by_cases hut : u = t
    · subst hut; rw [heq, hm, hl, h.holder, hhold]
    · rw [hne u hut, hm, hl]; exact h.holder u p
  · rw [hm] at hp
    obtain ⟨l, h1, h2, h3, h4⟩ := h.count a p hp
    refine ⟨l, h1, h2, by rw [hr]; exact h3, fun u => ?_⟩
    rw [h4]
    by_cases hut : u = t
    · subst hut
      rw [heq]
      constructor
      · rintro ⟨g1, g2⟩
        have g3 : hasRef pc = true := by rw [href]; exact g2
        exact ⟨by rw [hsnd g3]; exact g1, g3⟩
      · rintro ⟨g1, g2⟩
        exact ⟨by rw [← hsnd g2]; exact g1, by rw [← href]; exact g2⟩
    · rw [hne u hut]

/-- Every step preserves the invariant and does not panic. -/
theorem inv_step (s : State) (t sender : Nat) (h : Inv s) (r : Option State) (hs : s.step t sender = some r) : ∃ s', r = some s' ∧ Inv s' := by
  have hft : ∀ u, u ≠ t → s.table = some u → s.table ≠ none := fun u _ hu hn => by rw [hn] at hu; cases hu
  unfold State.step at hs
  cases hpc : (s.threads t).pc with
  | idle =>
    simp only [hpc] at hs
    cases hs
    refine ⟨_, rfl, inv_move s _ t sender .wantTable h rfl rfl rfl rfl rfl (fun u => ?_) (by rw [hpc]; rfl) (by simp [hasRef]) (by simp [ptr]) (by simp [hpc])⟩
    by_cases hut : u = t
    · subst hut; simp only [put_same]; rw [h.table, hpc]; simp
    · simp only [put_other _ _ _ _ hut]; exact h.table u
  | wantTable =>
    simp only [hpc] at hs
    cases htb : s.table with
    | some u => simp only [htb] at hs; cases hs
    | none =>
      simp only [htb] at hs
      cases hs
      refine ⟨_, rfl, inv_move s _ t (s.threads t).sender .inTable h rfl rfl rfl rfl rfl (fun u => ?_) (by rw [hpc]; rfl) (by simp) (by simp [ptr]) (by simp [hpc])⟩
      by_cases hut : u = t
      · subst hut; simp [State.go, put_same]
      · have := h.table u
        rw [htb] at this
        simp only [State.go, put_other _ _ _ _ hut, ← this]
        simp [Ne.symm hut]
  | inTable =>
    simp only [hpc] at hs
    have htab : s.table = some t := (h.table t).2 (Or.inl hpc)
    have htab' : ∀ u, u ≠ t → ¬ ((s.threads u).pc = .inTable ∨ ∃ p, (s.threads u).pc = .inDrop p) := by
      intro u hu hc
      have := (h.table u).2 hc
      rw [htab] at this
      exact hu (Option.some.inj this).symm
    cases hmp : s.map (s.threads t).sender with
    | some p =>
      simp only [hmp] at hs
      cases hs
      refine ⟨_, rfl, ⟨fun u => ?_, fun u hu => ?_, fun u q => ?_, h.inj, h.old, h.fresh, fun a q hq => ?_⟩⟩
      · by_cases hut : u = t
        · subst hut; simp [State.go, put_same]
        · simp only [State.go, put_other _ _ _ _ hut]
          simpa using htab' u hut
      · by_cases hut : u = t
        · subst hut
          simp only [State.go, put_same]
          exact ⟨p, hmp, fun q hq => by simpa [ptr] using hq.symm⟩
        · simp only [State.go, put_other _ _ _ _ hut] at hu ⊢; exact h.mapped u hu
      · by_cases hut : u = t
        · subst hut
          simp only [State.go, put_same]
          rw [h.holder, hpc]; simp
        · simp only [State.go, put_other _ _ _ _ hut]; exact h.holder u q
      · simp only [State.go] at hq ⊢
        obtain ⟨l, h1, h2, h3, h4⟩ := h.count a q hq
        by_cases hqp : q = p
        · subst hqp
          have ha : a = (s.threads t).sender := h.inj _ _ q hq hmp
          refine ⟨t :: l, ?_, by simp, ?_, fun u => ?_⟩
          · rw [List.nodup_cons]
            refine ⟨fun hm => ?_, h1⟩
            have := ((h4 t).1 hm).2
            rw [hpc] at this; simp [hasRef] at this
          · rw [put_same, h3]; simp
          · rw [List.mem_cons, h4]
            by_cases hut : u = t
            · subst hut; simp [put_same, ha, hasRef]
            · simp [put_other _ _ _ _ hut, hut]
        · refine ⟨l, h1, h2, by rw [put_other _ _ _ _ hqp]; exact h3, fun u => ?_⟩
          rw [h4]
          by_cases hut : u = t
          · subst hut
            have : (s.threads u).sender ≠ a := by
              intro ha; rw [ha, hq] at hmp; exact hqp (Option.some.inj hmp)
            simp [put_same, this]
          · simp [put_other _ _ _ _ hut]
    | none =>
      simp only [hmp] at hs
      cases hs
      have hno : ∀ u, hasRef (s.threads u).pc = true → (s.threads u).sender ≠ (s.threads t).sender := by
        intro u hu heq
        obtain ⟨p, hp, _⟩ := h.mapped u hu
        rw [heq, hmp] at hp; cases hp
      refine ⟨_, rfl, ⟨fun u => ?_, fun u hu => ?_, fun u q => ?_, fun a b q ha hb => ?_, fun a q ha => ?_, fun q hq => ?_, fun a q hq => ?_⟩⟩
      · by_cases hut : u = t
        · subst hut; simp [State.go, put_same]
        · simp only [State.go, put_other _ _ _ _ hut]
          simpa using htab' u hut
      · by_cases hut : u = t
        · subst hut
          simp only [State.go, put_same]
          exact ⟨s.fresh, rfl, fun q hq => by simpa [ptr] using hq.symm⟩
        · simp only [State.go, put_other _ _ _ _ hut] at hu ⊢
          rw [put_other _ _ _ _ (hno u hu)]
          exact h.mapped u hu
      · simp only [State.go]
        by_cases hqf : q = s.fresh
        · subst hqf
          rw [put_same]
          constructor
          · intro hc; cases hc
          · rintro ⟨g1, g2⟩
            by_cases hut : u = t
            · subst hut; simp [put_same] at g2
            · rw [put_other _ _ _ _ hut] at g1 g2
              have hr : hasRef (s.threads u).pc = true := by rcases g2 with g2 | g2 <;> rw [g2] <;> rfl
              rw [put_other _ _ _ _ (hno u hr)] at g1
              exact absurd (h.old _ _ g1) (by omega)
        · rw [put_other _ _ _ _ hqf, h.holder]
          by_cases hut : u = t
          · subst hut; simp [put_same, hpc]
          · rw [put_other _ _ _ _ hut]
            constructor
            · rintro ⟨g1, g2⟩
              have hr : hasRef (s.threads u).pc = true := by rcases g2 with g2 | g2 <;> rw [g2] <;> rfl
              rw [put_other _ _ _ _ (hno u hr)]
              exact ⟨g1, g2⟩
            · rintro ⟨g1, g2⟩
              have hr : hasRef (s.threads u).pc = true := by rcases g2 with g2 | g2 <;> rw [g2] <;> rfl
              rw [put_other _ _ _ _ (hno u hr)] at g1
              exact ⟨g1, g2⟩
      · simp only [State.go] at ha hb
        by_cases haS : a = (s.threads t).sender <;> by_cases hbS : b = (s.threads t).sender
        · rw [haS, hbS]
        · rw [haS, put_same] at ha
          rw [put_other _ _ _ _ hbS] at hb
          cases ha
          exact absurd (h.old _ _ hb) (by omega)
        · rw [hbS, put_same] at hb
          rw [put_other _ _ _ _ haS] at ha
          cases hb
          exact absurd (h.old _ _ ha) (by omega)
        · rw [put_other _ _ _ _ haS] at ha
          rw [put_other _ _ _ _ hbS] at hb
          exact h.inj _ _ _ ha hb
      · simp only [State.go] at ha ⊢
        by_cases haS : a = (s.threads t).sender
        · rw [haS, put_same] at ha; cases ha; omega
        · rw [put_other _ _ _ _ haS] at ha
          have := h.old _ _ ha; omega
      · simp only [State.go] at hq ⊢
        rw [put_other _ _ _ _ (by omega)]
        exact h.fresh q (by omega)
      · simp only [State.go] at hq ⊢
        by_cases haS : a = (s.threads t).sender
        · rw [haS, put_same] at hq
          cases hq
          refine ⟨[t], by simp, by simp, by simp [put_same], fun u => ?_⟩
          by_cases hut : u = t
          · subst hut; simp [put_same, haS, hasRef]
          · simp only [List.mem_singleton, hut, false_iff, put_other _ _ _ _ hut, haS]
            rintro ⟨g1, g2⟩
            exact hno u g2 g1
        · rw [put_other _ _ _ _ haS] at hq
          obtain ⟨l, h1, h2, h3, h4⟩ := h.count a q hq
          have hqf : q ≠ s.fresh := by have := h.old _ _ hq; omega
          refine ⟨l, h1, h2, by rw [put_other _ _ _ _ hqf]; exact h3, fun u => ?_⟩
          rw [h4]
          by_cases hut : u = t
          · subst hut; simp [put_same, Ne.symm haS]
          · simp [put_other _ _ _ _ hut]
  | wantAcc p =>
    simp only [hpc] at hs
    cases hlk : s.lock p with
    | some u => simp only [hlk] at hs; cases hs
    | none =>
      simp only [hlk] at hs
      cases hs
      obtain ⟨p', hp1, hp2⟩ := h.mapped t (by rw [hpc]; rfl)
      have : p = p' := hp2 p (by rw [hpc]; rfl)
      subst this
      refine ⟨_, rfl, ⟨fun u => ?_, fun u hu => ?_, fun u q => ?_, h.inj, h.old, fun q hq => ?_, fun a q hq => ?_⟩⟩
      · by_cases hut : u = t
        · subst hut; simp only [State.go, put_same]; rw [h.table, hpc]; simp
        · simp only [State.go, put_other _ _ _ _ hut]; exact h.table u
      · by_cases hut : u = t
        · subst hut
          simp only [State.go, put_same]
          exact ⟨p, hp1, fun q hq => by simp [ptr] at hq⟩
        · simp only [State.go, put_other _ _ _ _ hut] at hu ⊢; exact h.mapped u hu
      · simp only [State.go]
        by_cases hqp : q = p
        · subst hqp
          rw [put_same]
          by_cases hut : u = t
          · subst hut; simp [put_same, hp1]
          · rw [put_other _ _ _ _ hut]
            have := h.holder u q
            rw [hlk] at this
            rw [← this]
            simp [Ne.symm hut]
        · rw [put_other _ _ _ _ hqp, h.holder]
          by_cases hut : u = t
          · subst hut
            rw [put_same, hpc]
            simp only [reduceCtorEq, or_self, and_false, true_or, and_true, false_iff]
            rw [hp1]; intro hc; exact hqp (Option.some.inj hc).symm
          · rw [put_other _ _ _ _ hut]
      · simp only [State.go] at hq ⊢
        rw [put_other _ _ _ _ (by have := h.old _ _ hp1; omega)]
        exact h.fresh q hq
      · obtain ⟨l, h1, h2, h3, h4⟩ := h.count a q hq
        refine ⟨l, h1, h2, h3, fun u => ?_⟩
        rw [h4]
        simp only [State.go]
        by_cases hut : u = t
        · subst hut; simp [put_same, hpc, hasRef]
        · simp [put_other _ _ _ _ hut]
  | inside =>
    simp only [hpc] at hs
    obtain ⟨p, hp1, _⟩ := h.mapped t (by rw [hpc]; rfl)
    simp only [hp1] at hs
    cases hs
    refine ⟨_, rfl, inv_move s _ t (s.threads t).sender (.unlocking p) h rfl rfl rfl rfl rfl (fun u => ?_) (by rw [hpc]; rfl) (by simp)
      (fun q hq => by simp only [ptr, Option.some.injEq] at hq; rw [← hq]; exact hp1) (fun q => ?_)⟩
    · by_cases hut : u = t
      · subst hut; simp only [State.go, put_same]; rw [h.table, hpc]; simp
      · simp only [State.go, put_other _ _ _ _ hut]; exact h.table u
    · rw [hpc]
      constructor
      · rintro ⟨g1, g2⟩; exact ⟨g1, Or.inl rfl⟩
      · rintro ⟨g1, g2⟩
        refine ⟨g1, Or.inr ?_⟩
        rw [hp1] at g1
        rw [Option.some.inj g1]
  | unlocking p =>
    simp only [hpc] at hs
    obtain ⟨p', hp1, hp2⟩ := h.mapped t (by rw [hpc]; rfl)
    have : p = p' := hp2 p (by rw [hpc]; rfl)
    subst this
    have hlk : s.lock p = some t := (h.holder t p).2 ⟨hp1, Or.inr hpc⟩
    simp only [hlk] at hs
    cases hs
    refine ⟨_, rfl, ⟨fun u => ?_, fun u hu => ?_, fun u q => ?_, h.inj, h.old, fun q hq => ?_, fun a q hq => ?_⟩⟩
    · by_cases hut : u = t
      · subst hut; simp only [State.go, put_same]; rw [h.table, hpc]; simp
      · simp only [State.go, put_other _ _ _ _ hut]; exact h.table u
    · by_cases hut : u = t
      · subst hut
        simp only [State.go, put_same]
        exact ⟨p, hp1, fun q hq => by simpa [ptr] using hq.symm⟩
      · simp only [State.go, put_other _ _ _ _ hut] at hu ⊢; exact h.mapped u hu
    · simp only [State.go]
      by_cases hqp : q = p
      · subst hqp
        rw [put_same]
        by_cases hut : u = t
        · subst hut; simp [put_same]
        · rw [put_other _ _ _ _ hut]
          have := h.holder u q
          rw [hlk] at this
          rw [← this]
          simp [Ne.symm hut]
      · rw [put_other _ _ _ _ hqp, h.holder]
        by_cases hut : u = t
        · subst hut
          rw [put_same, hpc]
          simp only [reduceCtorEq, or_self, and_false, iff_false, Pc.unlocking.injEq, false_or]
          rintro ⟨_, h2⟩; exact hqp h2.symm
        · rw [put_other _ _ _ _ hut]
    · simp only [State.go] at hq ⊢
      rw [put_other _ _ _ _ (by have := h.old _ _ hp1; omega)]
      exact h.fresh q hq
    · obtain ⟨l, h1, h2, h3, h4⟩ := h.count a q hq
      refine ⟨l, h1, h2, h3, fun u => ?_⟩
      rw [h4]
      simp only [State.go]
      by_cases hut : u = t
      · subst hut; simp [put_same, hpc, hasRef]
      · simp [put_other _ _ _ _ hut]
  | wantDrop p =>
    simp only [hpc] at hs
    cases htb : s.table with
    | some u => simp only [htb] at hs; cases hs
    | none =>
      simp only [htb] at hs
      cases hs
      obtain ⟨p', hp1, hp2⟩ := h.mapped t (by rw [hpc]; rfl)
      have : p = p' := hp2 p (by rw [hpc]; rfl)
      subst this
      refine ⟨_, rfl, inv_move s _ t (s.threads t).sender (.inDrop p) h rfl rfl rfl rfl rfl (fun u => ?_) (by rw [hpc]; rfl) (by simp)
        (fun q hq => by simp only [ptr, Option.some.injEq] at hq; rw [← hq]; exact hp1) (by simp [hpc])⟩
      by_cases hut : u = t
      · subst hut; simp [State.go, put_same]
      · have := h.table u
        rw [htb] at this
        simp only [State.go, put_other _ _ _ _ hut, ← this]
        simp [Ne.symm hut]
  | inDrop p =>
    simp only [hpc] at hs
    have htab : s.table = some t := (h.table t).2 (Or.inr ⟨p, hpc⟩)
    have htab' : ∀ u, u ≠ t → ¬ ((s.threads u).pc = .inTable ∨ ∃ p, (s.threads u).pc = .inDrop p) := by
      intro u hu hc
      have := (h.table u).2 hc
      rw [htab] at this
      exact hu (Option.some.inj this).symm
    obtain ⟨p', hp1, hp2⟩ := h.mapped t (by rw [hpc]; rfl)
    have : p = p' := hp2 p (by rw [hpc]; rfl)
    subst this
    obtain ⟨l, h1, h2, h3, h4⟩ := h.count _ p hp1
    have htl : t ∈ l := (h4 t).2 ⟨rfl, by rw [hpc]; rfl⟩
    have hlen : (l.erase t).length = l.length - 1 := List.length_erase_of_mem htl
    have hpos : 0 < l.length := List.length_pos_of_mem htl
    split at hs
    · next hz =>
      cases hs
      have hl1 : l.length = 1 := by omega
      have hall : ∀ u, hasRef (s.threads u).pc = true → (s.threads u).sender = (s.threads t).sender → u = t := by
        intro u hu hsd
        have hm := (h4 u).2 ⟨hsd, hu⟩
        match l, hl1 with
        | [x], _ => rw [List.mem_singleton] at hm htl; rw [hm, htl]
      refine ⟨_, rfl, ⟨fun u => ?_, fun u hu => ?_, fun u q => ?_, fun a b q ha hb => ?_, fun a q ha => ?_, h.fresh, fun a q hq => ?_⟩⟩
      · by_cases hut : u = t
        · subst hut; simp [State.go, put_same]
        · simp only [State.go, put_other _ _ _ _ hut]
          simpa using htab' u hut
      · simp only [State.go] at hu ⊢
        by_cases hut : u = t
        · subst hut; simp [put_same, hasRef] at hu
        · rw [put_other _ _ _ _ hut] at hu ⊢
          rw [put_other _ _ _ _ (fun hc => hut (hall u hu hc))]
          exact h.mapped u hu
      · simp only [State.go]
        rw [h.holder]
        by_cases hut : u = t
        · subst hut; simp [put_same, hpc]
        · rw [put_other _ _ _ _ hut]
          constructor
          · rintro ⟨g1, g2⟩
            have hr : hasRef (s.threads u).pc = true := by rcases g2 with g2 | g2 <;> rw [g2] <;> rfl
            rw [put_other _ _ _ _ (fun hc => hut (hall u hr hc))]
            exact ⟨g1, g2⟩
          · rintro ⟨g1, g2⟩
            have hr : hasRef (s.threads u).pc = true := by rcases g2 with g2 | g2 <;> rw [g2] <;> rfl
            rw [put_other _ _ _ _ (fun hc => hut (hall u hr hc))] at g1
            exact ⟨g1, g2⟩
      · simp only [State.go] at ha hb
        have haS : a ≠ (s.threads t).sender := by rintro rfl; rw [put_same] at ha; cases ha
        have hbS : b ≠ (s.threads t).sender := by rintro rfl; rw [put_same] at hb; cases hb
        rw [put_other _ _ _ _ haS] at ha
        rw [put_other _ _ _ _ hbS] at hb
        exact h.inj _ _ _ ha hb
      · simp only [State.go] at ha ⊢
        have haS : a ≠ (s.threads t).sender := by rintro rfl; rw [put_same] at ha; cases ha
        rw [put_other _ _ _ _ haS] at ha
        exact h.old _ _ ha
      · simp only [State.go] at hq ⊢
        have haS : a ≠ (s.threads t).sender := by rintro rfl; rw [put_same] at hq; cases hq
        rw [put_other _ _ _ _ haS] at hq
        have hqp : q ≠ p := by rintro rfl; exact haS (h.inj _ _ _ hq hp1)
        obtain ⟨l', k1, k2, k3, k4⟩ := h.count a q hq
        refine ⟨l', k1, k2, by rw [put_other _ _ _ _ hqp]; exact k3, fun u => ?_⟩
        rw [k4]
        by_cases hut : u = t
        · subst hut; simp [put_same, Ne.symm haS]
        · simp [put_other _ _ _ _ hut]
    · next hz =>
      cases hs
      refine ⟨_, rfl, ⟨fun u => ?_, fun u hu => ?_, fun u q => ?_, h.inj, h.old, h.fresh, fun a q hq => ?_⟩⟩
      · by_cases hut : u = t
        · subst hut; simp [State.go, put_same]
        · simp only [State.go, put_other _ _ _ _ hut]
          simpa using htab' u hut
      · simp only [State.go] at hu ⊢
        by_cases hut : u = t
        · subst hut; simp [put_same, hasRef] at hu
        · rw [put_other _ _ _ _ hut] at hu ⊢; exact h.mapped u hu
      · simp only [State.go]
        rw [h.holder]
        by_cases hut : u = t
        · subst hut; simp [put_same, hpc]
        · rw [put_other _ _ _ _ hut]
      · simp only [State.go] at hq ⊢
        by_cases hqp : q = p
        · subst hqp
          have ha : a = (s.threads t).sender := h.inj _ _ q hq hp1
          refine ⟨l.erase t, h1.erase t, ?_, by rw [put_same, h3, hlen]; omega, fun u => ?_⟩
          · intro hc; rw [hc] at hlen; simp at hlen; omega
          · rw [List.Nodup.mem_erase_iff h1, h4, ha]
            by_cases hut : u = t
            · subst hut; simp [put_same, hasRef]
            · simp [put_other _ _ _ _ hut, hut]
        · obtain ⟨l', k1, k2, k3, k4⟩ := h.count a q hq
          have haS : a ≠ (s.threads t).sender := by rintro rfl; rw [hp1] at hq; exact hqp (Option.some.inj hq).symm
          refine ⟨l', k1, k2, by rw [put_other _ _ _ _ hqp]; exact k3, fun u => ?_⟩
          rw [k4]
          by_cases hut : u = t
          · subst hut; simp [put_same, Ne.symm haS]
          · simp [put_other _ _ _ _ hut]


theorem reach_inv {s : State} (h : Reach s) : Inv s := by
  induction h with
  | init => exact inv_init
  | step s s' t sender _ hs ih =>
    obtain ⟨s'', h1, h2⟩ := inv_step s t sender ih _ hs
    cases h1; exact h2

/-- C60: at most one goroutine of a sender is inside. -/
theorem C60_mutual_exclusion (s : State) (h : Reach s) (t u : Nat) (ht : (s.threads t).pc = .inside) (hu : (s.threads u).pc = .inside)
    (hs : (s.threads t).sender = (s.threads u).sender) : t = u := by
  have hi := reach_inv h
  obtain ⟨p, hp, _⟩ := hi.mapped t (by rw [ht]; rfl)
  have h1 := (hi.holder t p).2 ⟨hp, Or.inl ht⟩
  have h2 := (hi.holder u p).2 ⟨by rw [← hs]; exact hp, Or.inl hu⟩
  rw [h1] at h2; exact Option.some.inj h2

/-- C60: no step panics (nil lock, unlock of an unlocked mutex). -/
theorem C60_no_panic (s : State) (h : Reach s) (t sender : Nat) : s.step t sender ≠ some none := by
  intro hs
  obtain ⟨s', h1, _⟩ := inv_step s t sender (reach_inv h) _ hs
  cases h1

/-- A goroutine waits only for `b.mut`, held by a goroutine that can go on, or for the lock of its own sender, held by a goroutine of the
same sender that can go on: different senders do not block each other, and there is no deadlock. -/
theorem C60_progress (s : State) (h : Reach s) (t sender : Nat) (hb : s.step t sender = none) :
    ∃ u, (∀ sd, ∃ s', s.step u sd = some (some s')) ∧ (s.table = some u ∨
      ((s.threads u).sender = (s.threads t).sender ∧ ((s.threads u).pc = .inside ∨ ∃ p, (s.threads u).pc = .unlocking p))) := by
  have hi := reach_inv h
  have htable : ∀ u, s.table = some u → ∀ sd, ∃ s', s.step u sd = some (some s') := by
    intro u hu sd
    have hnn := C60_no_panic s h u sd
    cases hst : s.step u sd with
    | some r =>
      cases r with
      | some s' => exact ⟨s', rfl⟩
      | none => exact absurd hst hnn
    | none =>
      exfalso
      rcases (hi.table u).1 hu with hpc | ⟨p, hpc⟩
      · simp only [State.step, hpc] at hst
        split at hst <;> cases hst
      · simp only [State.step, hpc] at hst
        split at hst <;> cases hst
  have hin : ∀ u, ((s.threads u).pc = .inside ∨ ∃ p, (s.threads u).pc = .unlocking p) → ∀ sd, ∃ s', s.step u sd = some (some s') := by
    intro u hu sd
    have hnn := C60_no_panic s h u sd
    cases hst : s.step u sd with
    | some r =>
      cases r with
      | some s' => exact ⟨s', rfl⟩
      | none => exact absurd hst hnn
    | none =>
      exfalso
      rcases hu with hpc | ⟨p, hpc⟩
      · simp only [State.step, hpc] at hst
        split at hst <;> cases hst
      · simp only [State.step, hpc] at hst
        split at hst <;> cases hst
  cases hpc : (s.threads t).pc with
  | idle => simp only [State.step, hpc] at hb; cases hb
  | wantTable =>
    simp only [State.step, hpc] at hb
    split at hb
    · cases hb
    · next u hu => exact ⟨u, htable u hu, Or.inl hu⟩
  | inTable => simp only [State.step, hpc] at hb; split at hb <;> cases hb
  | wantAcc p =>
    simp only [State.step, hpc] at hb
    split at hb
    · cases hb
    · next u hu =>
      obtain ⟨g1, g2⟩ := (hi.holder u p).1 hu
      have g2' : (s.threads u).pc = .inside ∨ ∃ p, (s.threads u).pc = .unlocking p := by
        rcases g2 with g2 | g2
        · exact Or.inl g2
        · exact Or.inr ⟨p, g2⟩
      obtain ⟨p', hp1, hp2⟩ := hi.mapped t (by rw [hpc]; rfl)
      have : p = p' := hp2 p (by rw [hpc]; rfl)
      subst this
      exact ⟨u, hin u g2', Or.inr ⟨hi.inj _ _ p g1 hp1, g2'⟩⟩
  | inside => simp only [State.step, hpc] at hb; split at hb <;> cases hb
  | unlocking p => simp only [State.step, hpc] at hb; split at hb <;> cases hb
  | wantDrop p =>
    simp only [State.step, hpc] at hb
    split at hb
    · cases hb
    · next u hu => exact ⟨u, htable u hu, Or.inl hu⟩
  | inDrop p => simp only [State.step, hpc] at hb; split at hb <;> cases hb

/-- C60: when nobody is working for a sender, the table has no entry for it. -/
theorem C60_no_leak (s : State) (h : Reach s) (a : Nat) (hi : ∀ t, (s.threads t).sender = a → (s.threads t).pc = .idle) : s.map a = none := by
  cases hm : s.map a with
  | none => rfl
  | some p =>
    obtain ⟨l, _, h2, _, h4⟩ := (reach_inv h).count a p hm
    cases l with
    | nil => exact absurd rfl h2
    | cons x l =>
      obtain ⟨g1, g2⟩ := (h4 x).1 (by simp)
      rw [hi x g1] at g2; cases g2

/-- Execute a schedule: which goroutine moves, for which sender it starts. -/
def exec (s : State) : List (Nat × Nat) → Option State
  | [] => some s
  | (t, a) :: l => match s.step t a with
    | some (some s') => exec s' l
    | _ => none

theorem exec_reach : ∀ (l : List (Nat × Nat)) (s s' : State), Reach s → exec s l = some s' → Reach s'
  | [], s, s', h, he => by cases he; exact h
  | (t, a) :: l, s, s', h, he => by
    simp only [exec] at he
    split at he
    · next s1 hs => exact exec_reach l s1 s' (.step s s1 t a h hs) he
    · cases he

/-- Two goroutines of sender 7, one of sender 8: the second waits for the first, the third does not. -/
example : ((exec State.init [(0, 7), (0, 7), (0, 7), (0, 7), (1, 7), (1, 7), (1, 7), (2, 8), (2, 8), (2, 8), (2, 8)]).map
    (fun s => ((s.threads 0).pc, (s.threads 1).pc, (s.threads 2).pc, s.rc 0, (s.step 1 7).isNone))) = some (.inside, .wantAcc 0, .inside, 2, true) := by rfl

/-- C60 does not hold as far as data races are concerned: `releaseAccMut` reads the map without holding `b.mut`, while a goroutine
of another sender, which holds it, inserts. -/
theorem C60_race_violated : ∃ s, Reach s ∧ Race s := by
  refine ⟨_, exec_reach [(0, 7), (0, 7), (0, 7), (0, 7), (1, 8), (1, 8)] State.init _ .init rfl, 1, 0, by decide, ?_, Or.inl (Or.inr ?_)⟩
  · rfl
  · rfl

/-- Apart from that read there is no race: every other access to the table is made holding `b.mut`. -/
theorem C60_race_partial (s : State) (h : Reach s) (t u : Nat) (hne : t ≠ u) (hw : WritesMap s t) : ¬ WritesMap s u ∧ (s.threads u).pc ≠ .inTable := by
  have hi := reach_inv h
  have ht : s.table = some t := by
    rw [hi.table]
    unfold WritesMap at hw
    split at hw
    · exact Or.inl ‹_›
    · next p hp => exact Or.inr ⟨p, hp⟩
    · cases hw
  constructor
  · intro hwu
    have hu : s.table = some u := by
      rw [hi.table]
      unfold WritesMap at hwu
      split at hwu
      · exact Or.inl ‹_›
      · next p hp => exact Or.inr ⟨p, hp⟩
      · cases hwu
    rw [ht] at hu; exact hne (Option.some.inj hu)
  · intro hpc
    have hu : s.table = some u := (hi.table u).2 (Or.inl hpc)
    rw [ht] at hu; exact hne (Option.some.inj hu)

/-- The races of reachable states are exactly these: one goroutine writes the table while another, which has submitted its
transaction, reads it without `b.mut` in `releaseAccMut`. -/
theorem C60_race_only_partial (s : State) (h : Reach s) :
    Race s ↔ ∃ t u, t ≠ u ∧ WritesMap s t ∧ (s.threads u).pc = .inside := by
  constructor
  · rintro ⟨t, u, hne, hw, hr⟩
    obtain ⟨h1, h2⟩ := C60_race_partial s h t u hne hw
    rcases hr with (hr | hr) | hr
    · exact absurd hr h2
    · exact ⟨t, u, hne, hw, hr⟩
    · exact absurd hr h1
  · rintro ⟨t, u, hne, hw, hr⟩
    exact ⟨t, u, hne, hw, Or.inl (Or.inr hr)⟩

end Verif.LockTable
