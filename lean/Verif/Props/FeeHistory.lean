import Verif.Model.FeeHistory
/-
C43: fee history.
-/
namespace Verif.FeeHistory

/-! ### Workers: every block exactly once -/

def busyOf : Worker → Option Nat
  | .busy n => some n
  | _ => none

def State.nums (s : State) : List Nat := s.got.map Prod.fst ++ (s.chan.map Prod.fst ++ s.workers.filterMap busyOf)

theorem set_perm {α : Type} (l : List α) (i : Nat) (a b : α) (h : l[i]? = some a) : ∃ r, l.Perm (a :: r) ∧ (l.set i b).Perm (b :: r) := by
  induction l generalizing i with
  | nil => simp at h
  | cons x xs ih =>
    cases i with
    | zero => simp at h; subst h; exact ⟨xs, .refl _, .refl _⟩
    | succ i =>
      simp at h
      obtain ⟨r, h1, h2⟩ := ih i h
      exact ⟨x :: r, (h1.cons x).trans (.swap _ _ _), by simpa using (h2.cons x).trans (.swap _ _ _)⟩

structure Inv (possible : Nat → Res → Prop) (last blocks : Nat) (s : State) : Prop where
  low : last + 1 - blocks ≤ s.next
  perm : s.nums.Perm (List.range' (last + 1 - blocks) (min s.next (last + 1) - (last + 1 - blocks)))
  poss : ∀ x ∈ s.got ++ s.chan, possible x.1 x.2
  len : s.workers.length = min 4 blocks
  stopped : Worker.stopped ∈ s.workers → s.next > last

theorem inv (possible : Nat → Res → Prop) (last blocks : Nat) (s : State) (hr : Reach possible last blocks s) (hb : blocks ≤ last + 1) :
    Inv possible last blocks s := by
  induction hr with
  | init =>
    refine ⟨Nat.le_refl _, ?_, fun x hx => (by simp [State.init] at hx), by simp [State.init], ?_⟩
    · simp [State.init, State.nums, List.filterMap_replicate, busyOf, Nat.min_eq_left]
    · intro h; simp [State.init, List.mem_replicate] at h
  | @next s s' l _ hs ih =>
    obtain ⟨h1, h2, h3, h4, h5⟩ := ih
    cases hs with
    | @take w hw =>
      obtain ⟨r, hp, hp'⟩ := set_perm s.workers w _ (if s.next > last then Worker.stopped else .busy s.next) hw
      refine ⟨by dsimp only; omega, ?_, h3, by simpa using h4, ?_⟩
      · by_cases hn : s.next > last
        · simp only [if_pos hn] at hp' ⊢
          have e1 : (s.workers.set w .stopped).filterMap busyOf |>.Perm (s.workers.filterMap busyOf) := by
            have a := hp'.filterMap busyOf
            have b := hp.filterMap busyOf
            simp only [List.filterMap_cons, busyOf] at a b
            exact a.trans b.symm
          rw [show min (s.next + 1) (last + 1) = min s.next (last + 1) by omega]
          exact ((e1.append_left _).append_left _).trans h2
        · simp only [if_neg hn] at hp' ⊢
          have e1 : (s.workers.set w (.busy s.next)).filterMap busyOf |>.Perm (s.workers.filterMap busyOf ++ [s.next]) := by
            have a := hp'.filterMap busyOf
            have b := hp.filterMap busyOf
            simp only [List.filterMap_cons, busyOf] at a b
            exact (a.trans (b.symm.cons _)).trans (List.perm_append_singleton _ _).symm
          rw [show min (s.next + 1) (last + 1) - (last + 1 - blocks) = (min s.next (last + 1) - (last + 1 - blocks)) + 1 by omega,
            List.range'_concat, show last + 1 - blocks + 1 * (min s.next (last + 1) - (last + 1 - blocks)) = s.next by omega]
          refine List.Perm.trans ?_ (h2.append_right [s.next])
          have := (e1.append_left (s.chan.map Prod.fst)).append_left (s.got.map Prod.fst)
          simpa [State.nums, List.append_assoc] using this
      · intro hm
        have := hp'.mem_iff.1 hm
        dsimp only
        rcases List.mem_cons.1 this with h | h
        · by_cases hn : s.next > last
          · omega
          · rw [if_neg hn] at h; cases h
        · have := h5 (hp.mem_iff.2 (List.mem_cons_of_mem _ h)); omega
    | @finish w n r hw hposs =>
      obtain ⟨q, hp, hp'⟩ := set_perm s.workers w _ Worker.idle hw
      refine ⟨h1, ?_, ?_, by simpa using h4, ?_⟩
      · refine List.Perm.trans ?_ h2
        have a := hp'.filterMap busyOf
        have b := hp.filterMap busyOf
        simp only [List.filterMap_cons, busyOf] at a b
        have e1 : (n :: (s.workers.set w .idle).filterMap busyOf).Perm (s.workers.filterMap busyOf) := (a.cons n).trans b.symm
        have := (e1.append_left (s.chan.map Prod.fst)).append_left (s.got.map Prod.fst)
        simpa [State.nums, List.append_assoc] using this
      · intro x hx
        simp only [List.mem_append, List.mem_singleton] at hx
        rcases hx with h | h | h
        · exact h3 x (List.mem_append_left _ h)
        · exact h3 x (List.mem_append_right _ h)
        · subst h; exact hposs
      · intro hm
        have := hp'.mem_iff.1 hm
        rcases List.mem_cons.1 this with h | h
        · cases h
        · exact h5 (hp.mem_iff.2 (List.mem_cons_of_mem _ h))
    | @recv x rest hc _ =>
      refine ⟨h1, ?_, ?_, h4, h5⟩
      · refine List.Perm.trans ?_ h2
        simp [State.nums, hc]
      · intro y hy
        apply h3
        rw [hc]
        simp only [List.mem_append, List.mem_singleton, List.mem_cons] at hy ⊢
        rcases hy with (h | h | h) | h
        · exact Or.inl h
        · exact Or.inr (Or.inl h)
        · cases h
        · exact Or.inr (Or.inr h)

/-- C43: whatever the schedule, when the collecting loop has its results it has exactly one for every block of the range, and none
for another block. -/
theorem C43_each_block_once (possible : Nat → Res → Prop) (last blocks : Nat) (s : State) (hr : Reach possible last blocks s)
    (hb : blocks ≤ last + 1) (hd : s.got.length = blocks) :
    (s.got.map Prod.fst).Perm (List.range' (last + 1 - blocks) blocks) ∧ ∀ x ∈ s.got, possible x.1 x.2 := by
  obtain ⟨h1, h2, h3, h4, h5⟩ := inv possible last blocks s hr hb
  refine ⟨?_, fun x hx => h3 x (List.mem_append_left _ hx)⟩
  have hl := h2.length_eq
  simp only [State.nums, List.length_append, List.length_map, List.length_range'] at hl
  have hc : s.chan = [] := List.length_eq_zero_iff.1 (by omega)
  have hw : s.workers.filterMap busyOf = [] := List.length_eq_zero_iff.1 (by omega)
  simp only [State.nums, hc, hw, List.map_nil, List.append_nil] at h2
  rwa [show min s.next (last + 1) - (last + 1 - blocks) = blocks by omega] at h2

/-- C43: the request is never stuck. -/
theorem C43_not_stuck (possible : Nat → Res → Prop) (last blocks : Nat) (s : State) (hr : Reach possible last blocks s)
    (hb : blocks ≤ last + 1) (hp : ∀ n, ∃ r, possible n r) (hc : collecting blocks s = true) :
    ∃ l s', Step possible last blocks s l s' := by
  obtain ⟨h1, h2, h3, h4, h5⟩ := inv possible last blocks s hr hb
  cases hch : s.chan with
  | cons x rest => exact ⟨.recv, _, .recv hch hc⟩
  | nil =>
    have hlt : s.got.length < blocks := by simp [collecting] at hc; exact hc.1
    by_cases hi : ∃ w : Nat, s.workers[w]? = some Worker.idle
    · obtain ⟨w, hw⟩ := hi; exact ⟨.take w, _, .take hw⟩
    · by_cases hbz : ∃ (w n : Nat), s.workers[w]? = some (.busy n)
      · obtain ⟨w, n, hw⟩ := hbz
        obtain ⟨r, hr⟩ := hp n
        exact ⟨.finish w r, _, .finish hw hr⟩
      · exfalso
        have hall : ∀ x ∈ s.workers, x = .stopped := by
          intro x hx
          obtain ⟨w, hw⟩ := List.getElem?_of_mem hx
          cases x with
          | idle => exact absurd ⟨w, hw⟩ hi
          | busy n => exact absurd ⟨w, n, hw⟩ hbz
          | stopped => rfl
        have hne : s.workers ≠ [] := by intro h; rw [h] at h4; simp at h4; omega
        have hst : s.next > last := by
          cases hw : s.workers with
          | nil => exact absurd hw hne
          | cons x xs =>
            apply h5; rw [hw]
            have := hall x (by rw [hw]; simp)
            subst this; simp
        have hf : s.workers.filterMap busyOf = [] := by
          rw [List.filterMap_eq_nil_iff]; intro a ha; rw [hall a ha]; rfl
        have hl := h2.length_eq
        simp only [State.nums, List.length_append, List.length_map, List.length_range', hch, hf, List.length_nil] at hl
        omega

/-- Work left. -/
def weight : Worker → Nat
  | .idle => 1
  | .busy _ => 3
  | .stopped => 0

def todo (last : Nat) (s : State) : Nat := 4 * (last + 1 - min s.next (last + 1)) + (s.workers.map weight).sum + s.chan.length

theorem sum_set (l : List Worker) (w : Nat) (a b : Worker) (h : l[w]? = some a) : ((l.set w b).map weight).sum + weight a = (l.map weight).sum + weight b := by
  obtain ⟨r, h1, h2⟩ := set_perm l w a b h
  have e1 := (h1.map weight).sum_nat
  have e2 := (h2.map weight).sum_nat
  simp only [List.map_cons, List.sum_cons] at e1 e2
  omega

/-- C43: and it ends, whatever the schedule: every step uses up some of a fixed amount of work. -/
theorem C43_terminates (possible : Nat → Res → Prop) (last blocks : Nat) (s s' : State) (l : Label) (hs : Step possible last blocks s l s') :
    todo last s' < todo last s := by
  cases hs with
  | @take w hw =>
    by_cases hn : s.next > last
    · have := sum_set s.workers w _ .stopped hw
      simp only [todo, if_pos hn]
      simp only [weight] at this
      omega
    · have := sum_set s.workers w _ (.busy s.next) hw
      simp only [todo, if_neg hn]
      simp only [weight] at this
      omega
  | @finish w n r hw _ =>
    have := sum_set s.workers w _ .idle hw
    simp only [todo, List.length_append, List.length_singleton]
    simp only [weight] at this
    omega
  | recv hc _ => simp [todo, hc]

/-! ### The arrays -/

/-- The results by block. -/
def resOf (got : List (Nat × Res)) (n : Nat) : Res := ((got.find? (fun x => x.1 = n)).map Prod.snd).getD .missing

theorem resOf_mem : ∀ (got : List (Nat × Res)) (x : Nat × Res), x ∈ got → (got.map Prod.fst).Nodup → resOf got x.1 = x.2
  | y :: ys, x, hx, hn => by
    simp only [List.map_cons, List.nodup_cons] at hn
    simp only [resOf, List.find?_cons]
    rcases List.mem_cons.1 hx with h | h
    · subst h; simp
    · have hne : y.1 ≠ x.1 := fun h' => hn.1 (h' ▸ List.mem_map_of_mem h)
      simp only [hne, decide_false]
      exact resOf_mem ys x h hn.2

theorem collect_rr (oldest : Nat) (i : Nat) : ∀ (got : List (Nat × Res)) (a : Arr), (∀ x ∈ got, oldest ≤ x.1) → (got.map Prod.fst).Nodup →
    ∀ p, (oldest + i, Res.ok p) ∈ got → (got.foldl (collect1 oldest) a).reward i = p.reward ∧ (got.foldl (collect1 oldest) a).ratio i = some p.ratio := by
  have keep : ∀ (got : List (Nat × Res)) (a : Arr), (∀ x ∈ got, oldest ≤ x.1) → (∀ x ∈ got, x.1 ≠ oldest + i) →
      (got.foldl (collect1 oldest) a).reward i = a.reward i ∧ (got.foldl (collect1 oldest) a).ratio i = a.ratio i := by
    intro got
    induction got with
    | nil => intro a _ _; exact ⟨rfl, rfl⟩
    | cons x xs ih =>
      intro a h1 h2
      have := ih (collect1 oldest a x) (fun y hy => h1 y (List.mem_cons_of_mem _ hy)) (fun y hy => h2 y (List.mem_cons_of_mem _ hy))
      simp only [List.foldl_cons]
      rw [this.1, this.2]
      have a1 := h1 x (by simp)
      have a2 := h2 x (by simp)
      obtain ⟨n, r⟩ := x
      dsimp only at a1 a2
      cases r with
      | err => exact ⟨rfl, rfl⟩
      | missing => simp only [collect1]; split <;> exact ⟨rfl, rfl⟩
      | ok q => simp only [collect1, put]; rw [if_neg (by omega), if_neg (by omega)]; exact ⟨rfl, rfl⟩
  intro got
  induction got with
  | nil => intro a _ _ p h; cases h
  | cons x xs ih =>
    intro a h1 hn p hp
    simp only [List.map_cons, List.nodup_cons] at hn
    simp only [List.foldl_cons]
    rcases List.mem_cons.1 hp with h | h
    · subst h
      have := keep xs (collect1 oldest a (oldest + i, .ok p)) (fun y hy => h1 y (List.mem_cons_of_mem _ hy))
        (fun y hy he => hn.1 (List.mem_map.2 ⟨y, hy, he⟩))
      rw [this.1, this.2]
      simp [collect1, put]
    · exact ih _ (fun y hy => h1 y (List.mem_cons_of_mem _ hy)) hn.2 p h

theorem collect_base (oldest : Nat) (j : Nat) : ∀ (got : List (Nat × Res)) (a : Arr), (∀ x ∈ got, oldest ≤ x.1) →
    (∃ p, (oldest + j, Res.ok p) ∈ got ∧ (got.foldl (collect1 oldest) a).baseFee j = some p.baseFee) ∨
    (∃ p, 0 < j ∧ (oldest + (j - 1), Res.ok p) ∈ got ∧ (got.foldl (collect1 oldest) a).baseFee j = some p.nextBaseFee) ∨
    ((got.foldl (collect1 oldest) a).baseFee j = a.baseFee j ∧ (∀ p, (oldest + j, Res.ok p) ∉ got) ∧ ∀ p, 0 < j → (oldest + (j - 1), Res.ok p) ∉ got) := by
  intro got
  induction got with
  | nil => intro a _; exact Or.inr (Or.inr ⟨rfl, by simp, by simp⟩)
  | cons x xs ih =>
    intro a h1
    simp only [List.foldl_cons]
    have a1 := h1 x (by simp)
    rcases ih (collect1 oldest a x) (fun y hy => h1 y (List.mem_cons_of_mem _ hy)) with ⟨p, h, e⟩ | ⟨p, h0, h, e⟩ | ⟨e, n1, n2⟩
    · exact Or.inl ⟨p, List.mem_cons_of_mem _ h, e⟩
    · exact Or.inr (Or.inl ⟨p, h0, List.mem_cons_of_mem _ h, e⟩)
    · rw [e]
      obtain ⟨n, r⟩ := x
      dsimp only at a1
      cases r with
      | err =>
        exact Or.inr (Or.inr ⟨rfl, fun p hp => (List.mem_cons.1 hp).elim (fun h => by cases h) (n1 p), fun p h0 hp => (List.mem_cons.1 hp).elim (fun h => by cases h) (n2 p h0)⟩)
      | missing =>
        refine Or.inr (Or.inr ⟨?_, fun p hp => (List.mem_cons.1 hp).elim (fun h => by cases h) (n1 p), fun p h0 hp => (List.mem_cons.1 hp).elim (fun h => by cases h) (n2 p h0)⟩)
        simp only [collect1]; split <;> rfl
      | ok q =>
        simp only [collect1, put]
        by_cases c1 : j = n - oldest + 1
        · rw [if_pos c1]
          exact Or.inr (Or.inl ⟨q, by omega, by rw [show oldest + (j - 1) = n by omega]; simp, rfl⟩)
        · rw [if_neg c1]
          by_cases c2 : j = n - oldest
          · rw [if_pos c2]
            exact Or.inl ⟨q, by rw [show oldest + j = n by omega]; simp, rfl⟩
          · rw [if_neg c2]
            refine Or.inr (Or.inr ⟨rfl, fun p hp => ?_, fun p h0 hp => ?_⟩)
            · rcases List.mem_cons.1 hp with h | h
              · simp only [Prod.mk.injEq] at h; omega
              · exact n1 p h
            · rcases List.mem_cons.1 hp with h | h
              · simp only [Prod.mk.injEq] at h; omega
              · exact n2 p h0 h

theorem collect_missing (oldest : Nat) : ∀ (got : List (Nat × Res)) (a : Arr),
    (got.foldl (collect1 oldest) a).firstMissing ≤ a.firstMissing ∧
    (∀ n, (n, Res.missing) ∈ got → (got.foldl (collect1 oldest) a).firstMissing ≤ n - oldest) ∧
    ((got.foldl (collect1 oldest) a).firstMissing = a.firstMissing ∨ ∃ n, (n, Res.missing) ∈ got ∧ (got.foldl (collect1 oldest) a).firstMissing = n - oldest) := by
  intro got
  induction got with
  | nil => intro a; exact ⟨Nat.le_refl _, by simp, Or.inl rfl⟩
  | cons x xs ih =>
    intro a
    obtain ⟨i1, i2, i3⟩ := ih (collect1 oldest a x)
    simp only [List.foldl_cons]
    obtain ⟨n, r⟩ := x
    have hle : (collect1 oldest a (n, r)).firstMissing ≤ a.firstMissing := by
      cases r with
      | err => exact Nat.le_refl _
      | ok q => exact Nat.le_refl _
      | missing => simp only [collect1]; split
                   · exact Nat.le_of_lt ‹_›
                   · exact Nat.le_refl _
    refine ⟨Nat.le_trans i1 hle, fun m hm => ?_, ?_⟩
    · rcases List.mem_cons.1 hm with h | h
      · simp only [Prod.mk.injEq] at h
        obtain ⟨h, h'⟩ := h; subst h h'
        refine Nat.le_trans i1 ?_
        simp only [collect1]; split
        · exact Nat.le_refl _
        · omega
      · exact i2 m h
    · rcases i3 with h | ⟨m, hm, h⟩
      · rw [h]
        cases r with
        | err => exact Or.inl rfl
        | ok q => exact Or.inl rfl
        | missing =>
          simp only [collect1]; split
          · exact Or.inr ⟨n, by simp, rfl⟩
          · exact Or.inl rfl
      · exact Or.inr ⟨m, List.mem_cons_of_mem _ hm, h⟩

/-! ### Specification -/

/-- The answer for the blocks `oldest, …, oldest + k - 1`, given the result of each block: one reward row and one ratio per block,
`k + 1` base fees. -/
structure Answers (res : Nat → Res) (withRewards : Bool) (oldest k : Nat) (reward : Option (List (List Int))) (baseFee : List (Option Nat))
    (ratio : List (Option (Nat × Nat))) : Prop where
  rewardLen : ∀ r, reward = some r → r.length = k
  rewardSome : reward.isSome = withRewards
  baseLen : baseFee.length = k + 1
  ratioLen : ratio.length = k
  row : ∀ i, i < k → ∃ p, res (oldest + i) = .ok p ∧ ratio[i]? = some (some p.ratio) ∧ (∀ r, reward = some r → r[i]? = some p.reward)

/-- The base fees are those of the blocks, the last one is computed from the newest block. -/
def GoodBase (res : Nat → Res) (oldest k : Nat) (baseFee : List (Option Nat)) : Prop :=
  (∀ i, i < k → ∃ p, res (oldest + i) = .ok p ∧ baseFee[i]? = some (some p.baseFee)) ∧
  ∃ p, res (oldest + (k - 1)) = .ok p ∧ baseFee[k]? = some (some p.nextBaseFee)

/-- Every base fee is that of its block or the one computed from the block before. -/
def SomeBase (res : Nat → Res) (oldest k : Nat) (baseFee : List (Option Nat)) : Prop :=
  ∀ i, i ≤ k → (∃ p, res (oldest + i) = .ok p ∧ baseFee[i]? = some (some p.baseFee)) ∨
    (∃ p, 0 < i ∧ res (oldest + (i - 1)) = .ok p ∧ baseFee[i]? = some (some p.nextBaseFee))

/-- C43: a finished request answers either with an error of one of its blocks, or with nothing when the oldest block is missing,
or for consecutive existing blocks from the oldest one up to the newest, or up to the first that is missing. One row per block, each
in its place, whatever the schedule. -/
theorem C43_answer (possible : Nat → Res → Prop) (last blocks : Nat) (s : State) (hr : Reach possible last blocks s) (withRewards : Bool)
    (hb : blocks ≤ last + 1) (hb0 : 0 < blocks) (hd : s.got.length = blocks) :
    ∃ res : Nat → Res, (∀ n, last + 1 - blocks ≤ n → n ≤ last → possible n (res n)) ∧
    match finalOut withRewards last blocks s.got with
    | .err => ∃ n, last + 1 - blocks ≤ n ∧ n ≤ last ∧ res n = .err
    | .empty => res (last + 1 - blocks) = .missing
    | .val oldest reward baseFee ratio => oldest = last + 1 - blocks ∧ ∃ k, 0 < k ∧ k ≤ blocks ∧ (k < blocks → res (oldest + k) = .missing) ∧
        Answers res withRewards oldest k reward baseFee ratio ∧ SomeBase res oldest k baseFee := by
  obtain ⟨hperm, hposs⟩ := C43_each_block_once possible last blocks s hr hb hd
  have hnd : (s.got.map Prod.fst).Nodup := hperm.nodup_iff.2 List.nodup_range'
  have hall : ∀ n, last + 1 - blocks ≤ n → n ≤ last → (n, resOf s.got n) ∈ s.got := by
    intro n h1 h2
    have : n ∈ s.got.map Prod.fst := hperm.mem_iff.2 (List.mem_range'_1.2 ⟨h1, by omega⟩)
    obtain ⟨x, hx, rfl⟩ := List.mem_map.1 this
    rw [resOf_mem s.got x hx hnd]; exact hx
  have hrange : ∀ x ∈ s.got, last + 1 - blocks ≤ x.1 ∧ x.1 ≤ last := by
    intro x hx
    have := List.mem_range'_1.1 (hperm.mem_iff.1 (List.mem_map_of_mem (f := Prod.fst) hx))
    omega
  refine ⟨resOf s.got, fun n h1 h2 => hposs _ (hall n h1 h2), ?_⟩
  generalize ho : last + 1 - blocks = oldest at *
  by_cases he : s.got.any (fun x => x.2 = .err) = true
  · simp only [finalOut, he, if_true]
    obtain ⟨x, hx, hxe⟩ := List.any_eq_true.1 he
    have := hrange x hx
    exact ⟨x.1, this.1, this.2, by rw [resOf_mem s.got x hx hnd]; simpa using hxe⟩
  · obtain ⟨m1, m2, m3⟩ := collect_missing oldest s.got ⟨fun _ => [], fun _ => none, fun _ => none, blocks⟩
    have hok : ∀ i, i < (collect oldest blocks s.got).firstMissing → ∃ p, resOf s.got (oldest + i) = .ok p ∧ (oldest + i, Res.ok p) ∈ s.got := by
      intro i hi
      have hm := hall (oldest + i) (by omega) (by have : (collect oldest blocks s.got).firstMissing ≤ blocks := m1; omega)
      cases hres : resOf s.got (oldest + i) with
      | err =>
        rw [hres] at hm
        exact absurd (List.any_eq_true.2 ⟨_, hm, by simp⟩) he
      | missing =>
        rw [hres] at hm
        have := m2 _ hm
        simp only [collect] at hi
        omega
      | ok p => rw [hres] at hm; exact ⟨p, rfl, hm⟩
    have hmiss : (collect oldest blocks s.got).firstMissing < blocks → resOf s.got (oldest + (collect oldest blocks s.got).firstMissing) = .missing := by
      intro hlt
      rcases m3 with h | ⟨n, hn, h⟩
      · exact absurd h (Nat.ne_of_lt hlt)
      · have hrn := hrange _ hn
        simp only [collect]
        rw [h, show oldest + (n - oldest) = n by omega]
        exact resOf_mem s.got _ hn hnd
    have hval : finalOut withRewards last blocks s.got = if (collect oldest blocks s.got).firstMissing = 0 then .empty
        else .val oldest (if withRewards then some ((List.range (collect oldest blocks s.got).firstMissing).map (collect oldest blocks s.got).reward) else none)
          ((List.range ((collect oldest blocks s.got).firstMissing + 1)).map (collect oldest blocks s.got).baseFee)
          ((List.range (collect oldest blocks s.got).firstMissing).map (collect oldest blocks s.got).ratio) := by
      simp only [finalOut, if_neg he, ho]
    rw [hval]
    by_cases h0 : (collect oldest blocks s.got).firstMissing = 0
    · rw [if_pos h0]
      have := hmiss (by rw [h0]; exact hb0)
      simpa [h0] using this
    · rw [if_neg h0]
      refine ⟨rfl, (collect oldest blocks s.got).firstMissing, Nat.pos_of_ne_zero h0, m1, hmiss, ?_, ?_⟩
      · refine ⟨?_, ?_, by simp, by simp, ?_⟩
        · intro r hr'; cases withRewards <;> simp at hr'; subst hr'; simp
        · cases withRewards <;> rfl
        · intro i hi
          obtain ⟨p, hp, hm⟩ := hok i hi
          have hc := collect_rr oldest i s.got ⟨fun _ => [], fun _ => none, fun _ => none, blocks⟩ (fun x hx => (hrange x hx).1) hnd p hm
          refine ⟨p, hp, ?_, ?_⟩
          · simp only [List.getElem?_map, List.getElem?_range hi, Option.map_some]
            exact congrArg some hc.2
          · intro r hr'
            cases withRewards <;> simp at hr'
            subst hr'
            simp only [List.getElem?_map, List.getElem?_range hi, Option.map_some]
            exact congrArg some hc.1
      · intro i hi
        have hget : ((List.range ((collect oldest blocks s.got).firstMissing + 1)).map (collect oldest blocks s.got).baseFee)[i]? = some ((collect oldest blocks s.got).baseFee i) := by
          simp only [List.getElem?_map, List.getElem?_range (show i < (collect oldest blocks s.got).firstMissing + 1 by omega), Option.map_some]
        rw [hget]
        rcases collect_base oldest i s.got ⟨fun _ => [], fun _ => none, fun _ => none, blocks⟩ (fun x hx => (hrange x hx).1) with ⟨p, h, e⟩ | ⟨p, hz, h, e⟩ | ⟨e, n1, n2⟩
        · exact Or.inl ⟨p, resOf_mem s.got _ h hnd, congrArg some e⟩
        · exact Or.inr ⟨p, hz, resOf_mem s.got _ h hnd, congrArg some e⟩
        · by_cases hz : 0 < i
          · obtain ⟨p, _, hm⟩ := hok (i - 1) (by omega)
            exact absurd hm (n2 p hz)
          · obtain ⟨p, _, hm⟩ := hok i (by omega)
            exact absurd hm (n1 p)

/-- The base fees are right when the chain's base fee follows the computation of the newest block's successor, that is when each
block's base fee is the one computed from the block before. -/
theorem C43_base_fee_partial (res : Nat → Res) (oldest k : Nat) (baseFee : List (Option Nat)) (hk : 0 < k) (h : SomeBase res oldest k baseFee)
    (hok : ∀ i, i < k → ∃ p, res (oldest + i) = .ok p)
    (hnext : ∀ i p q, res i = .ok p → res (i + 1) = .ok q → p.nextBaseFee = q.baseFee) : GoodBase res oldest k baseFee := by
  have key : ∀ i p, i ≤ k → res (oldest + i) = .ok p → baseFee[i]? = some (some p.baseFee) := by
    intro i p hi hp
    rcases h i hi with ⟨q, hq, e⟩ | ⟨q, hz, hq, e⟩
    · rw [hp] at hq; cases hq; exact e
    · rw [e, hnext _ _ _ hq (by rw [show oldest + (i - 1) + 1 = oldest + i by omega]; exact hp)]
  refine ⟨fun i hi => ?_, ?_⟩
  · obtain ⟨p, hp⟩ := hok i hi; exact ⟨p, hp, key i p (by omega) hp⟩
  · obtain ⟨p, hp⟩ := hok (k - 1) (by omega)
    refine ⟨p, hp, ?_⟩
    rcases h k (Nat.le_refl _) with ⟨q, hq, e⟩ | ⟨q, hz, hq, e⟩
    · rw [e, hnext _ _ _ hp (by rw [show oldest + (k - 1) + 1 = oldest + k by omega]; exact hq)]
    · rw [hp] at hq; cases hq; exact e

/-! ### Rewards -/

/-- Gas used by some transactions. -/
def gasSum (l : List (Nat × Int)) : Nat := (l.map Prod.fst).sum

/-- C43: the row of a block: its own base fee and gas; and the base fee for the next one rises exactly if the block used more than half
of its limit, stays if exactly half, and falls otherwise, by at most an eighth. -/
theorem C43_next_base_fee {P : Type} (threshold : Nat → P → Nat) (h : Hdr) (txs : List Tx) (gas : List Nat) (ps : List P) (p : Proc)
    (hp : processBlock threshold h txs gas ps = some p) :
    p.baseFee = h.baseFee ∧ p.ratio = (h.gasUsed, h.gasLimit) ∧
    (h.gasUsed = h.gasLimit / 2 → p.nextBaseFee = h.baseFee) ∧
    (h.gasLimit / 2 < h.gasUsed → h.baseFee < p.nextBaseFee) ∧
    (h.gasUsed < h.gasLimit / 2 → p.nextBaseFee ≤ h.baseFee ∧ h.baseFee - p.nextBaseFee ≤ h.baseFee / 8) ∧
    (h.gasUsed ≤ 2 * (h.gasLimit / 2) → p.nextBaseFee ≤ h.baseFee + max 1 (h.baseFee / 8)) := by
  simp only [processBlock, Option.map_eq_some_iff] at hp
  obtain ⟨r, _, rfl⟩ := hp
  refine ⟨rfl, rfl, ?_, ?_, ?_, ?_⟩
  · intro e; simp [calcBaseFee, e]
  · intro e
    simp only [calcBaseFee]
    rw [if_neg (by omega), if_pos (by omega)]
    omega
  · intro e
    simp only [calcBaseFee]
    rw [if_neg (by omega), if_neg (by omega)]
    have : h.baseFee * (h.gasLimit / 2 - h.gasUsed) / (h.gasLimit / 2) ≤ h.baseFee := by
      apply Nat.div_le_of_le_mul
      rw [Nat.mul_comm]
      exact Nat.mul_le_mul_right _ (by omega)
    generalize h.baseFee * (h.gasLimit / 2 - h.gasUsed) / (h.gasLimit / 2) = q at this
    omega
  · intro e
    simp only [calcBaseFee]
    split
    · omega
    · split
      · have : h.baseFee * (h.gasUsed - h.gasLimit / 2) / (h.gasLimit / 2) ≤ h.baseFee := by
          apply Nat.div_le_of_le_mul
          rw [Nat.mul_comm]
          exact Nat.mul_le_mul_right _ (by omega)
        generalize h.baseFee * (h.gasUsed - h.gasLimit / 2) / (h.gasLimit / 2) = q at this
        omega
      · exact Nat.le_trans (Nat.sub_le _ _) (Nat.le_add_right _ _)

example : (processBlock (fun g (p : Nat) => g * p / 100) ⟨1, 0, 31, 60⟩ [] [] [50]).map (·.nextBaseFee) = some 1 ∧
    (processBlock (fun g (p : Nat) => g * p / 100) ⟨1, 800, 0, 60⟩ [] [] [50]).map (·.nextBaseFee) = some 700 := by
  simp [processBlock, rewards, mkSorter, sortTxs, calcBaseFee]

/-- `r` is the reward at the threshold `t` in a list of (gas, reward) sorted by reward: that of the first transaction at which the
gas used so far reaches `t`, of the last one when it never does. -/
def IsPercentile (l : List (Nat × Int)) (t : Nat) (r : Int) : Prop :=
  ∃ k c, l[k]? = some c ∧ c.2 = r ∧ (∀ j, j < k → gasSum (l.take (j + 1)) < t) ∧ (t ≤ gasSum (l.take (k + 1)) ∨ k + 1 = l.length)

/-- Gas and effective tip of each transaction: the tip it offers, but no more than what its fee cap leaves above the base fee. -/
def pairs (h : Hdr) (txs : List Tx) (gas : List Nat) : List (Nat × Int) :=
  List.zipWith (fun t g => (g, if (t.feeCap : Int) - h.baseFee < t.tipCap then (t.feeCap : Int) - h.baseFee else (t.tipCap : Int))) txs gas

theorem tip_eq (t : Tx) (b : Nat) : effectiveTip t b = if (t.feeCap : Int) - b < t.tipCap then (t.feeCap : Int) - b else (t.tipCap : Int) := by
  unfold effectiveTip
  split <;> omega

theorem mkSorter_spec (h : Hdr) : ∀ (txs : List Tx) (gas : List Nat), mkSorter h txs gas = if txs.length ≤ gas.length then some (pairs h txs gas) else none
  | [], gas => by simp [mkSorter, pairs]
  | t :: ts, [] => by simp [mkSorter]
  | t :: ts, g :: gs => by
    rw [mkSorter, mkSorter_spec h ts gs]
    by_cases hl : ts.length ≤ gs.length <;> simp [hl, pairs, tip_eq]

theorem sortTxs_sorted (l : List (Nat × Int)) : (sortTxs l).Pairwise (fun a b => a.2 ≤ b.2) := by
  have := List.pairwise_mergeSort (le := fun a b : Nat × Int => decide (a.2 ≤ b.2)) (by intro a b c; simp; omega) (by intro a b; simp; omega) l
  simpa [sortTxs] using this

theorem advance_mem (thr : Nat) : ∀ (rest : List (Nat × Int)) (cur : Nat × Int) (sum : Nat),
    ∃ pre, cur :: rest = pre ++ (advance thr cur rest sum).1 :: (advance thr cur rest sum).2.1
  | [], cur, sum => ⟨[], rfl⟩
  | t :: ts, cur, sum => by
    simp only [advance]
    split
    · obtain ⟨pre, h⟩ := advance_mem thr ts t ((sum + t.1) % 18446744073709551616)
      exact ⟨cur :: pre, by rw [h]; rfl⟩
    · exact ⟨[], rfl⟩

theorem rewardLoop_mono {P : Type} (threshold : Nat → P → Nat) (g : Nat) : ∀ (ps : List P) (cur : Nat × Int) (rest : List (Nat × Int)) (sum : Nat),
    (cur :: rest).Pairwise (fun a b => a.2 ≤ b.2) →
    (rewardLoop threshold g ps cur rest sum).Pairwise (· ≤ ·) ∧ ∀ r ∈ rewardLoop threshold g ps cur rest sum, cur.2 ≤ r
  | [], cur, rest, sum, _ => ⟨.nil, by simp [rewardLoop]⟩
  | p :: ps, cur, rest, sum, hs => by
    simp only [rewardLoop]
    obtain ⟨pre, hpre⟩ := advance_mem (threshold g p) rest cur sum
    generalize advance (threshold g p) cur rest sum = a at hpre
    have hs' : (a.1 :: a.2.1).Pairwise (fun a b => a.2 ≤ b.2) := by
      rw [hpre] at hs; exact (List.pairwise_append.1 hs).2.1
    have hle : cur.2 ≤ a.1.2 := by
      have : a.1 ∈ cur :: rest := by rw [hpre]; simp
      rcases List.mem_cons.1 this with h | h
      · rw [h]; exact Int.le_refl _
      · exact List.rel_of_pairwise_cons hs h
    obtain ⟨i1, i2⟩ := rewardLoop_mono threshold g ps a.1 a.2.1 a.2.2 hs'
    refine ⟨List.pairwise_cons.2 ⟨i2, i1⟩, fun r hr => ?_⟩
    rcases List.mem_cons.1 hr with h | h
    · rw [h]; exact hle
    · exact Int.le_trans hle (i2 r h)

/-- C43: the rewards of a block are monotone in the percentile, for whatever thresholds and even when gas sums overflow. -/
theorem C43_rewards_monotone {P : Type} (threshold : Nat → P → Nat) (h : Hdr) (txs : List Tx) (gas : List Nat) (ps : List P) (p : Proc)
    (hp : processBlock threshold h txs gas ps = some p) : p.reward.Pairwise (· ≤ ·) := by
  simp only [processBlock, Option.map_eq_some_iff] at hp
  obtain ⟨r, hr, rfl⟩ := hp
  dsimp only
  simp only [rewards] at hr
  split at hr
  · cases hr; exact .nil
  · split at hr
    · cases hr
    · rename_i l _
      have hs := sortTxs_sorted l
      split at hr
      · cases hr
        rw [List.pairwise_map]
        exact List.pairwise_of_forall (by simp)
      · rename_i t ts hl
        cases hr
        rw [hl] at hs
        exact (rewardLoop_mono threshold h.gasUsed ps t ts t.1 hs).1

theorem rewardLoop_length {P : Type} (threshold : Nat → P → Nat) (g : Nat) : ∀ (ps : List P) (cur : Nat × Int) (rest : List (Nat × Int)) (sum : Nat),
    (rewardLoop threshold g ps cur rest sum).length = ps.length
  | [], _, _, _ => rfl
  | p :: ps, cur, rest, sum => by simp only [rewardLoop, List.length_cons, rewardLoop_length]

/-- The loop stands at a transaction before which the threshold is not reached. -/
def At (l : List (Nat × Int)) (t : Nat) (c : Nat × Int) (rest : List (Nat × Int)) (sum : Nat) : Prop :=
  ∃ pre, l = pre ++ c :: rest ∧ sum = gasSum (pre ++ [c]) ∧ ∀ j, j < pre.length → gasSum (l.take (j + 1)) < t

theorem gasSum_append (a b : List (Nat × Int)) : gasSum (a ++ b) = gasSum a + gasSum b := by simp [gasSum]

theorem At.mono {l : List (Nat × Int)} {t t' : Nat} {c : Nat × Int} {rest : List (Nat × Int)} {sum : Nat} (h : At l t c rest sum) (ht : t ≤ t') :
    At l t' c rest sum := by
  obtain ⟨pre, h1, h2, h3⟩ := h
  exact ⟨pre, h1, h2, fun j hj => Nat.lt_of_lt_of_le (h3 j hj) ht⟩

theorem advance_at (l : List (Nat × Int)) (hl : gasSum l < 18446744073709551616) (t : Nat) : ∀ (rest : List (Nat × Int)) (c : Nat × Int) (sum : Nat), At l t c rest sum →
    At l t (advance t c rest sum).1 (advance t c rest sum).2.1 (advance t c rest sum).2.2 ∧
    (t ≤ (advance t c rest sum).2.2 ∨ (advance t c rest sum).2.1 = [])
  | [], c, sum, h => ⟨h, Or.inr rfl⟩
  | x :: xs, c, sum, h => by
    simp only [advance]
    split
    · next hlt =>
      apply advance_at l hl t xs x _
      obtain ⟨pre, h1, h2, h3⟩ := h
      refine ⟨pre ++ [c], by simp [h1], ?_, fun j hj => ?_⟩
      · have : gasSum l = gasSum (pre ++ [c]) + (x.1 + gasSum xs) := by
          rw [h1, show pre ++ c :: x :: xs = (pre ++ [c]) ++ (x :: xs) by simp, gasSum_append]; simp [gasSum]
        rw [gasSum_append, ← h2, Nat.mod_eq_of_lt (by omega)]
        simp [gasSum]
      · by_cases hj' : j < pre.length
        · exact h3 j hj'
        · have hj2 : j = pre.length := by simp at hj; omega
          subst hj2
          rw [h1, show pre ++ c :: x :: xs = (pre ++ [c]) ++ (x :: xs) by simp, List.take_left' (by simp), ← h2]
          exact hlt
    · next hge => exact ⟨h, Or.inl (by dsimp only; omega)⟩

theorem rewardLoop_spec {P : Type} (threshold : Nat → P → Nat) (g : Nat) (l : List (Nat × Int)) (hl : gasSum l < 18446744073709551616) :
    ∀ (ps : List P) (t0 : Nat) (c : Nat × Int) (rest : List (Nat × Int)) (sum : Nat), At l t0 c rest sum → (∀ p ∈ ps, t0 ≤ threshold g p) →
    ps.Pairwise (fun p q => threshold g p ≤ threshold g q) →
    ∀ (i : Nat) p, ps[i]? = some p → ∃ r, (rewardLoop threshold g ps c rest sum)[i]? = some r ∧ IsPercentile l (threshold g p) r
  | [], _, _, _, _, _, _, _, i, p, hp => by simp at hp
  | q :: qs, t0, c, rest, sum, ha, h0, hpw, i, p, hp => by
    simp only [rewardLoop]
    have hadv := advance_at l hl (threshold g q) rest c sum (ha.mono (h0 q (by simp)))
    generalize advance (threshold g q) c rest sum = a at hadv
    rw [List.pairwise_cons] at hpw
    cases i with
    | zero =>
      simp only [List.getElem?_cons_zero, Option.some.injEq] at hp
      subst hp
      obtain ⟨⟨pre, h1, h2, h3⟩, hend⟩ := hadv
      refine ⟨a.1.2, rfl, pre.length, a.1, by rw [h1]; simp, rfl, h3, ?_⟩
      rcases hend with h | h
      · left
        rw [h1, show pre ++ a.1 :: a.2.1 = (pre ++ [a.1]) ++ a.2.1 by simp, List.take_left' (by simp), ← h2]; exact h
      · right; rw [h1, h]; simp
    | succ i =>
      simp only [List.getElem?_cons_succ] at hp ⊢
      exact rewardLoop_spec threshold g l hl qs (threshold g q) a.1 a.2.1 a.2.2 hadv.1 hpw.1 hpw.2 i p hp

/-- C43: each reward is the one at its percentile of the gas used by the block, over the block's transactions sorted by reward. -/
theorem C43_rewards {P : Type} (threshold : Nat → P → Nat) (h : Hdr) (txs : List Tx) (gas : List Nat) (ps : List P) (p : Proc)
    (hp : processBlock threshold h txs gas ps = some p) (hne : txs ≠ []) (hps : ps ≠ [])
    (hmono : ps.Pairwise (fun p q => threshold h.gasUsed p ≤ threshold h.gasUsed q)) (hsum : gasSum (pairs h txs gas) < 18446744073709551616) :
    p.reward.length = ps.length ∧ ∃ l, l.Perm (pairs h txs gas) ∧ l.Pairwise (fun a b => a.2 ≤ b.2) ∧
      ∀ (i : Nat) q, ps[i]? = some q → ∃ r, p.reward[i]? = some r ∧ IsPercentile l (threshold h.gasUsed q) r := by
  simp only [processBlock, Option.map_eq_some_iff] at hp
  obtain ⟨r, hr, rfl⟩ := hp
  dsimp only
  have hpe : ps.isEmpty = false := by cases ps with | nil => exact absurd rfl hps | cons _ _ => rfl
  simp only [rewards, hpe, mkSorter_spec] at hr
  by_cases hlen : txs.length ≤ gas.length
  · simp only [if_pos hlen] at hr
    have hperm : (sortTxs (pairs h txs gas)).Perm (pairs h txs gas) := List.mergeSort_perm _ _
    have hs := sortTxs_sorted (pairs h txs gas)
    cases hl : sortTxs (pairs h txs gas) with
    | nil =>
      have := hperm.length_eq
      rw [hl] at this
      simp only [pairs, List.length_nil, List.length_zipWith, Nat.min_eq_left hlen] at this
      exact absurd (List.length_eq_zero_iff.1 this.symm) hne
    | cons t ts =>
      rw [hl] at hperm hs
      simp only [hl] at hr
      cases hr
      refine ⟨rewardLoop_length _ _ _ _ _ _, t :: ts, hperm, hs, ?_⟩
      have hsum' : gasSum (t :: ts) < 18446744073709551616 := by
        have : gasSum (t :: ts) = gasSum (pairs h txs gas) := (hperm.map Prod.fst).sum_nat
        omega
      exact rewardLoop_spec threshold h.gasUsed (t :: ts) hsum' ps 0 t ts t.1 ⟨[], rfl, by simp [gasSum], by simp⟩ (fun _ _ => Nat.zero_le _) hmono
  · simp only [if_neg hlen] at hr
    cases hr

/-- C43: a block without transactions has zero rewards. -/
theorem C43_empty_block {P : Type} (threshold : Nat → P → Nat) (h : Hdr) (gas : List Nat) (ps : List P) :
    processBlock threshold h [] gas ps = some ⟨ps.map (fun _ => 0), h.baseFee, calcBaseFee h, (h.gasUsed, h.gasLimit)⟩ := by
  cases ps <;> simp [processBlock, rewards, mkSorter, sortTxs]

/-- C43: a worker does not panic when every transaction of the block has a receipt. -/
theorem C43_no_panic {P : Type} (threshold : Nat → P → Nat) (db : Db) (cache : Option Proc) (ps : List P) (n : Nat) (h : (db.txs n).length ≤ (db.gasOf n).length) :
    (fetch threshold db cache ps n).isSome := by
  unfold fetch
  split
  · rfl
  · split
    · rfl
    · simp only [processBlock, rewards, mkSorter_spec, if_pos h]
      split
      · rfl
      · split <;> rfl

/-- C43: whatever the schedule, a request whose workers do not panic is never answered with an error: blocks that the index
does not have are left out, with everything after them, and the answer is empty exactly if the oldest block is one of them. -/
theorem C43_database {P : Type} (threshold : Nat → P → Nat) (db : Db) (cache : Nat → Option Proc) (ps : List P)
    (last blocks : Nat) (s : State) (hr : Reach (fun n r => fetch threshold db (cache n) ps n = some r) last blocks s) (withRewards : Bool)
    (hb : blocks ≤ last + 1) (hb0 : 0 < blocks) (hd : s.got.length = blocks) :
    finalOut withRewards last blocks s.got ≠ .err ∧
    (finalOut withRewards last blocks s.got = .empty →
      cache (last + 1 - blocks) = none ∧ db.headers (headerNr (last + 1 - blocks)) = none) ∧
    ∀ oldest reward baseFee ratio, finalOut withRewards last blocks s.got = .val oldest reward baseFee ratio →
      oldest = last + 1 - blocks ∧ 0 < ratio.length ∧
      (ratio.length < blocks → cache (oldest + ratio.length) = none ∧ db.headers (headerNr (oldest + ratio.length)) = none) ∧
      ∀ i, i < ratio.length → cache (oldest + i) ≠ none ∨ db.headers (headerNr (oldest + i)) ≠ none := by
  obtain ⟨res, hres, hm⟩ := C43_answer _ last blocks s hr withRewards hb hb0 hd
  have hmiss : ∀ n, last + 1 - blocks ≤ n → n ≤ last → res n = .missing → cache n = none ∧ db.headers (headerNr n) = none := by
    intro n h1 h2 h3
    have hf := hres n h1 h2
    rw [h3] at hf
    unfold fetch at hf
    cases hc : cache n with
    | some q => rw [hc] at hf; cases hf
    | none =>
      rw [hc] at hf
      simp only at hf
      cases hh : db.headers (headerNr n) with
      | none => exact ⟨rfl, rfl⟩
      | some h =>
        rw [hh] at hf
        simp only [Option.map_eq_some_iff] at hf
        obtain ⟨_, _, hx⟩ := hf
        cases hx
  have hok : ∀ n q, last + 1 - blocks ≤ n → n ≤ last → res n = .ok q → cache n ≠ none ∨ db.headers (headerNr n) ≠ none := by
    intro n q h1 h2 h3
    have hf := hres n h1 h2
    rw [h3] at hf
    unfold fetch at hf
    cases hc : cache n with
    | some q => left; intro h; cases h
    | none =>
      rw [hc] at hf
      simp only at hf
      right
      intro hh
      rw [hh] at hf
      simp only [Option.some.injEq] at hf
      cases hf
  have herr : ∀ n, last + 1 - blocks ≤ n → n ≤ last → res n ≠ .err := by
    intro n h1 h2 h3
    have hf := hres n h1 h2
    rw [h3] at hf
    unfold fetch at hf
    cases hc : cache n with
    | some q => rw [hc] at hf; cases hf
    | none =>
      rw [hc] at hf
      simp only at hf
      cases hh : db.headers (headerNr n) with
      | none => rw [hh] at hf; cases hf
      | some h =>
        rw [hh] at hf
        simp only [Option.map_eq_some_iff] at hf
        obtain ⟨_, _, hx⟩ := hf
        cases hx
  cases ho : finalOut withRewards last blocks s.got with
  | err =>
    rw [ho] at hm
    obtain ⟨n, h1, h2, h3⟩ := hm
    exact absurd h3 (herr n h1 h2)
  | empty =>
    rw [ho] at hm
    refine ⟨(fun h => by cases h), fun _ => hmiss _ (by omega) (by omega) hm, fun _ _ _ _ h => by cases h⟩
  | val oldest reward baseFee ratio =>
    rw [ho] at hm
    obtain ⟨e, k, hk0, hkb, hk, ha, _⟩ := hm
    refine ⟨(fun h => by cases h), (fun h => by cases h), ?_⟩
    intro o r b t h
    cases h
    have hl : ratio.length = k := ha.ratioLen
    refine ⟨e, by omega, ?_, ?_⟩
    · intro h; rw [hl]; exact hmiss _ (by omega) (by omega) (hk (by omega))
    · intro i hi
      rw [hl] at hi
      obtain ⟨q, hq, _⟩ := ha.row i hi
      exact hok _ q (by omega) (by omega) hq

/-! ### The range -/

theorem valid_iff {P : Type} (inRange : P → Bool) (lt : P → P → Bool) : ∀ ps : List P, validPercentiles inRange lt ps = true ↔
    (∀ p ∈ ps, inRange p = true) ∧ ∀ (i : Nat) p q, ps[i]? = some p → ps[i + 1]? = some q → lt p q = true
  | [] => by simp [validPercentiles]
  | [p] => by simp [validPercentiles]
  | p :: q :: ps => by
    rw [validPercentiles, Bool.and_eq_true, Bool.and_eq_true, valid_iff inRange lt (q :: ps)]
    constructor
    · rintro ⟨⟨h1, h2⟩, h3, h4⟩
      refine ⟨fun x hx => ?_, fun i x y hx hy => ?_⟩
      · rcases List.mem_cons.1 hx with h | h
        · rw [h]; exact h1
        · exact h3 x h
      · cases i with
        | zero => simp at hx hy; subst hx hy; exact h2
        | succ i => exact h4 i x y (by simpa using hx) (by simpa using hy)
    · rintro ⟨h1, h2⟩
      exact ⟨⟨h1 p (by simp), h2 0 p q rfl rfl⟩, fun x hx => h1 x (List.mem_cons_of_mem _ hx), fun i x y hx hy => h2 (i + 1) x y (by simpa using hx) (by simpa using hy)⟩

/-- C43: a request is rejected exactly when there are more than 100 percentiles, one is out of range, they do not increase, the
requested block is beyond the head or the head is not indexed. -/
theorem C43_rejects {P : Type} (inRange : P → Bool) (lt : P → P → Bool) (mh mb : Nat) (head : Option Hdr) (blocks : Nat) (reqEnd : Int) (ps : List P) (hb : 0 < blocks) :
    prepare inRange lt mh mb head blocks reqEnd ps = .err ↔ ps.length > 100 ∨ (∃ p ∈ ps, inRange p = false) ∨
      (∃ (i : Nat) (p q : P), ps[i]? = some p ∧ ps[i + 1]? = some q ∧ lt p q = false) ∨ head = none ∨ ∃ h, head = some h ∧ (h.number : Int) < reqEnd := by
  have hv := valid_iff inRange lt ps
  simp only [prepare, if_neg (show ¬ blocks < 1 by omega)]
  by_cases h1 : ps.length > 100
  · simp [h1]
  · rw [if_neg h1]
    by_cases h2 : validPercentiles inRange lt ps = true
    · rw [if_pos h2]
      obtain ⟨v1, v2⟩ := hv.1 h2
      constructor
      · intro he
        cases head with
        | none => exact Or.inr (Or.inr (Or.inr (Or.inl rfl)))
        | some h =>
          refine Or.inr (Or.inr (Or.inr (Or.inr ⟨h, rfl, ?_⟩)))
          generalize (if blocks > (if ps.length ≠ 0 then mb else mh) then (if ps.length ≠ 0 then mb else mh) else blocks) = m at he
          simp only [resolveBlockRange] at he
          by_cases hlt : (h.number : Int) < reqEnd
          · exact hlt
          · rw [if_neg hlt] at he
            by_cases hm : m = 0
            · rw [if_pos hm] at he; cases he
            · rw [if_neg hm] at he; cases he
      · rintro (h | ⟨p, hp, h⟩ | ⟨i, p, q, hp, hq, h⟩ | h | ⟨h, hh, hlt⟩)
        · exact absurd h h1
        · rw [v1 p hp] at h; cases h
        · rw [v2 i p q hp hq] at h; cases h
        · rw [h]; rfl
        · rw [hh]; simp [resolveBlockRange, hlt]
    · rw [if_neg h2]
      refine ⟨fun _ => ?_, fun _ => rfl⟩
      apply Classical.byContradiction
      intro hn
      apply h2
      rw [hv]
      refine ⟨fun p hp => ?_, fun i p q hp hq => ?_⟩
      · cases hr : inRange p with
        | true => rfl
        | false => exact absurd (Or.inr (Or.inl ⟨p, hp, hr⟩)) hn
      · cases hr : lt p q with
        | true => rfl
        | false => exact absurd (Or.inr (Or.inr (Or.inl ⟨i, p, q, hp, hq, hr⟩))) hn

/-- C43: the range ends at the requested block (at the head for a tag), has as many blocks as requested, limited by the
configuration and by the start of the chain. -/
theorem C43_range {P : Type} (inRange : P → Bool) (lt : P → P → Bool) (mh mb : Nat) (head : Option Hdr) (blocks : Nat) (reqEnd : Int) (ps : List P) (last n : Nat)
    (hp : prepare inRange lt mh mb head blocks reqEnd ps = .range last n) :
    ∃ h, head = some h ∧ last ≤ h.number ∧ (0 ≤ reqEnd → (last : Int) = reqEnd) ∧ (reqEnd < 0 → last = h.number) ∧
      n = min (min blocks (if ps = [] then mh else mb)) (last + 1) ∧ 0 < n := by
  simp only [prepare] at hp
  split at hp
  · cases hp
  · split at hp
    · cases hp
    · split at hp
      · have hm : (if ps.length ≠ 0 then mb else mh) = (if ps = [] then mh else mb) := by cases ps <;> simp
        rw [hm] at hp
        generalize (if ps = [] then mh else mb) = m at hp
        have hm2 : (if blocks > m then m else blocks) = min blocks m := by split <;> omega
        rw [hm2] at hp
        cases head with
        | none => cases hp
        | some h =>
          simp only [resolveBlockRange] at hp
          split at hp
          · cases hp
          · next hle =>
            split at hp
            · cases hp
            · next hnz =>
              have hinj : (if reqEnd < 0 then h.number else reqEnd.toNat) = last ∧
                  (if (if reqEnd < 0 then h.number else reqEnd.toNat) + 1 < min blocks m then (if reqEnd < 0 then h.number else reqEnd.toNat) + 1 else min blocks m) = n := by
                simpa using hp
              obtain ⟨hl, hn⟩ := hinj
              rw [hl] at hn
              refine ⟨h, rfl, ?_⟩
              by_cases hneg : reqEnd < 0
              · rw [if_pos hneg] at hl
                split at hn <;> (refine ⟨by omega, by omega, by omega, by omega, by omega⟩)
              · rw [if_neg hneg] at hl
                split at hn <;> (refine ⟨by omega, by omega, by omega, by omega, by omega⟩)
      · cases hp

/-- C43: a fetched block is the block asked for, except for block 0. -/
theorem C43_right_block_partial {P : Type} (threshold : Nat → P → Nat) (db : Db) (ps : List P) (n : Nat) (p : Proc) (hn : n ≠ 0)
    (hf : fetch threshold db none ps n = some (.ok p)) :
    ∃ h, db.headers n = some h ∧ p.baseFee = h.baseFee ∧ p.ratio = (h.gasUsed, h.gasLimit) ∧ p.nextBaseFee = calcBaseFee h := by
  simp only [fetch, headerNr, if_neg hn] at hf
  split at hf
  · cases hf
  · rename_i h hh
    refine ⟨h, hh, ?_⟩
    simp only [Option.map_eq_some_iff, Res.ok.injEq, processBlock] at hf
    obtain ⟨a, ⟨r, _, rfl⟩, rfl⟩ := hf
    exact ⟨rfl, rfl, rfl⟩

/-- C43 does not hold for requests that reach beyond the first block: block 0, which does not exist on this chain (blocks are
numbered from 1), is reported with the base fee and the ratio of block 1. -/
theorem C43_block_zero_violated {P : Type} (threshold : Nat → P → Nat) (db : Db) (inRange : P → Bool) (lt : P → P → Bool) (mh mb : Nat)
    (h h1 : Hdr) (hh : db.headers 1 = some h1) (blocks : Nat) (hb : h.number < blocks) (hm : h.number < mh) :
    prepare inRange lt mh mb (some h) blocks (-2) [] = .range h.number (h.number + 1) ∧
    h.number + 1 - (h.number + 1) = 0 ∧
    fetch (P := P) threshold db none [] 0 = some (.ok ⟨[], h1.baseFee, calcBaseFee h1, (h1.gasUsed, h1.gasLimit)⟩) := by
  refine ⟨?_, by omega, by simp [fetch, headerNr, hh, processBlock, rewards]⟩
  simp only [prepare, List.length_nil, validPercentiles, resolveBlockRange]
  have hbm : (if blocks > mh then mh else blocks) ≠ 0 := by split <;> omega
  have hle : h.number + 1 ≤ (if blocks > mh then mh else blocks) := by split <;> omega
  have h3 : ¬ ((h.number : Int) < -2) := by omega
  simp only [if_neg (show ¬ blocks < 1 by omega), if_neg (show ¬ 0 > 100 by omega), if_true, ne_eq, not_true_eq_false, if_false, if_neg hbm, if_neg h3]
  simp only [show ((-2 : Int) < 0) = True by simp, if_true]
  congr 1
  generalize (if blocks > mh then mh else blocks) = m at hle
  split <;> omega

/-! ### Cases -/

/-- three empty blocks with the fixed base fee of the chain -/
def db0 : Db where
  headers n := if 1 ≤ n ∧ n ≤ 3 then some ⟨n, 1000, 0, 18446744073709551615⟩ else none
  txs _ := []
  gasOf _ := []

def thr0 (g p : Nat) : Nat := g * p / 100

def possible0 (n : Nat) (r : Res) : Prop := fetch thr0 db0 none ([] : List Nat) n = some r

def p0 : Proc := ⟨[], 1000, 875, (0, 18446744073709551615)⟩

theorem possible0_ok (n : Nat) (h : 1 ≤ n ∧ n ≤ 3) : possible0 n (.ok p0) := by
  have : n = 1 ∨ n = 2 ∨ n = 3 := by omega
  rcases this with rfl | rfl | rfl <;> (unfold possible0; decide +kernel)

/-- the last two blocks; the first worker is faster -/
def sA : State := ⟨4, [.idle, .idle], [], [(2, .ok p0), (3, .ok p0)]⟩
/-- the second worker is faster -/
def sB : State := ⟨4, [.idle, .idle], [], [(3, .ok p0), (2, .ok p0)]⟩

theorem runA : Reach possible0 3 2 sA :=
  .next (.next (.next (.next (.next (.next .init
    (.take (w := 0) rfl)) (.take (w := 1) rfl)) (.finish (w := 0) (n := 2) rfl (possible0_ok 2 (by omega)))) (.finish (w := 1) (n := 3) rfl (possible0_ok 3 (by omega))))
    (.recv rfl (by decide +kernel))) (.recv rfl (by decide +kernel))

theorem runB : Reach possible0 3 2 sB :=
  .next (.next (.next (.next (.next (.next .init
    (.take (w := 0) rfl)) (.take (w := 1) rfl)) (.finish (w := 1) (n := 3) rfl (possible0_ok 3 (by omega)))) (.finish (w := 0) (n := 2) rfl (possible0_ok 2 (by omega))))
    (.recv rfl (by decide +kernel))) (.recv rfl (by decide +kernel))

/-- C43 does not hold for base fees: they depend on the order in which the workers finish. The chain's base fee is fixed, so
that the one computed from block 2 (875) is not the one of block 3 (1000); the answer has one or the other. -/
theorem C43_base_fee_violated : ∃ sA sB, Reach possible0 3 2 sA ∧ Reach possible0 3 2 sB ∧ sA.got.length = 2 ∧ sB.got.length = 2 ∧
    (∃ r a, finalOut false 3 2 sA.got = .val 2 r [some 1000, some 1000, some 875] a) ∧
    (∃ r a, finalOut false 3 2 sB.got = .val 2 r [some 1000, some 875, some 875] a) :=
  ⟨sA, sB, runA, runB, rfl, rfl,
    ⟨none, [some (0, 18446744073709551615), some (0, 18446744073709551615)], by decide +kernel⟩,
    ⟨none, [some (0, 18446744073709551615), some (0, 18446744073709551615)], by decide +kernel⟩⟩

/-- the hypotheses of `C43_answer` are met by `runA`; here the answer itself -/
example : finalOut true 3 2 sA.got = .val 2 (some [[], []]) [some 1000, some 1000, some 875] [some (0, 18446744073709551615), some (0, 18446744073709551615)] := by
  decide +kernel

/-- a block that is missing in the middle cuts the answer, one that is missing at the start empties it -/
example : finalOut false 5 3 [(4, .missing), (5, .ok p0), (3, .ok p0)] = .val 3 none [some 1000, some 875] [some (0, 18446744073709551615)] ∧
    finalOut false 5 3 [(4, .ok p0), (5, .ok p0), (3, .missing)] = .empty := by decide +kernel

/-- a block with three transactions: gas 10, 50, 40 and tips 5, 1, 3 -/
def h3 : Hdr := ⟨7, 100, 100, 1000⟩
def txs3 : List Tx := [⟨5, 200⟩, ⟨1, 200⟩, ⟨3, 200⟩]

example : (processBlock thr0 h3 txs3 [10, 50, 40] [0, 50, 51, 90, 91, 100]).map Proc.reward = some [1, 1, 3, 3, 5, 5] := by
  have h1 : mkSorter h3 txs3 [10, 50, 40] = some [(10, 5), (50, 1), (40, 3)] := by decide +kernel
  have h2 : sortTxs [(10, 5), (50, 1), (40, 3)] = [(50, 1), (40, 3), (10, 5)] := by
    simp [sortTxs, List.mergeSort, List.MergeSort.Internal.splitInTwo, List.splitAt, List.splitAt.go, List.merge]
  simp only [processBlock, rewards, h1, h2]
  decide +kernel

example : gasSum (pairs h3 txs3 [10, 50, 40]) < 18446744073709551616 ∧
    ([0, 50, 51, 90, 91, 100] : List Nat).Pairwise (fun p q => thr0 h3.gasUsed p ≤ thr0 h3.gasUsed q) := by decide +kernel

/-- fewer receipts than transactions would crash the node -/
example : processBlock thr0 h3 txs3 [10, 50] [50] = none := rfl

example : prepare (fun p => decide (p ≤ 100)) (fun p q => decide (p < q)) 1024 1024 (some ⟨9, 0, 0, 0⟩) 3 (-2) [10, 20] = .range 9 3 ∧
    prepare (fun p => decide (p ≤ 100)) (fun p q => decide (p < q)) 1024 1024 (some ⟨9, 0, 0, 0⟩) 3 7 [10, 20] = .range 7 3 ∧
    prepare (fun p => decide (p ≤ 100)) (fun p q => decide (p < q)) 1024 2 (some ⟨9, 0, 0, 0⟩) 3 7 [10, 20] = .range 7 2 ∧
    prepare (fun p => decide (p ≤ 100)) (fun p q => decide (p < q)) 1024 1024 (some ⟨9, 0, 0, 0⟩) 3 10 [10, 20] = .err ∧
    prepare (fun p => decide (p ≤ 100)) (fun p q => decide (p < q)) 1024 1024 (some ⟨9, 0, 0, 0⟩) 3 7 [20, 20] = .err := by decide +kernel

/-- the chain of `C43_base_fee_partial`: blocks whose gas is on target keep their base fee -/
example : calcBaseFee ⟨1, 1000, 50, 100⟩ = 1000 ∧ calcBaseFee ⟨1, 1000, 100, 100⟩ = 1125 ∧ calcBaseFee ⟨1, 1000, 0, 100⟩ = 875 := by decide +kernel

end Verif.FeeHistory
