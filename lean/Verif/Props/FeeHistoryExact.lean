import Verif.Props.FeeHistory
/-
C43: which base fee a fee history reports.
-/
namespace Verif.FeeHistory

/-- Elements of the array that nothing of the list writes stay. -/
theorem base_keep (oldest j : Nat) : ∀ (got : List (Nat × Res)) (a : Arr), (∀ x ∈ got, oldest ≤ x.1) →
    (∀ p, (oldest + j, Res.ok p) ∉ got) → (0 < j → ∀ p, (oldest + (j - 1), Res.ok p) ∉ got) →
    (got.foldl (collect1 oldest) a).baseFee j = a.baseFee j := by
  intro got a h h1 h2
  rcases collect_base oldest j got a h with ⟨p, hp, _⟩ | ⟨p, h0, hp, _⟩ | ⟨e, _⟩
  · exact absurd hp (h1 p)
  · exact absurd hp (h2 h0 p)
  · exact e

theorem nodup_unique {got : List (Nat × Res)} (hn : (got.map Prod.fst).Nodup) {a b n : Nat} {r r' : Res}
    (ha : got[a]? = some (n, r)) (hb : got[b]? = some (n, r')) : a = b := by
  have h1 : (got.map Prod.fst)[a]? = some n := by simp [ha]
  have h2 : (got.map Prod.fst)[b]? = some n := by simp [hb]
  obtain ⟨ha', e1⟩ := List.getElem?_eq_some_iff.1 h1
  obtain ⟨hb', e2⟩ := List.getElem?_eq_some_iff.1 h2
  rcases Nat.lt_trichotomy a b with h | h | h
  · exact absurd (e1.trans e2.symm) (List.pairwise_iff_getElem.1 hn a b ha' hb' h)
  · exact h
  · exact absurd (e2.trans e1.symm) (List.pairwise_iff_getElem.1 hn b a hb' ha' h)

/-- The element of a block is what arrived last of the block and of its predecessor. -/
theorem base_last (oldest j : Nat) (got : List (Nat × Res)) (a0 : Arr) (hlow : ∀ x ∈ got, oldest ≤ x.1)
    (hn : (got.map Prod.fst).Nodup) (hj : 0 < j) {a b : Nat} {p q : Proc}
    (ha : got[a]? = some (oldest + (j - 1), .ok p)) (hb : got[b]? = some (oldest + j, .ok q)) :
    (got.foldl (collect1 oldest) a0).baseFee j = some (if a < b then q.baseFee else p.nextBaseFee) := by
  have key : ∀ (c n : Nat) (r : Proc), got[c]? = some (n, .ok r) → n = oldest + (j - 1) ∨ n = oldest + j →
      (∀ d, c < d → ∀ m r', got[d]? = some (m, .ok r') → m ≠ oldest + (j - 1) ∧ m ≠ oldest + j) →
      (got.foldl (collect1 oldest) a0).baseFee j = some (if n = oldest + j then r.baseFee else r.nextBaseFee) := by
    intro c n r hc hnn hafter
    obtain ⟨hlt, hget⟩ := List.getElem?_eq_some_iff.1 hc
    have hsplit : got = got.take c ++ (n, .ok r) :: got.drop (c + 1) := by
      rw [← hget, List.getElem_cons_drop, List.take_append_drop]
    rw [hsplit, List.foldl_append, List.foldl_cons]
    have hd : ∀ m r', (m, Res.ok r') ∈ got.drop (c + 1) → m ≠ oldest + (j - 1) ∧ m ≠ oldest + j := by
      intro m r' hm
      obtain ⟨k, hk⟩ := List.getElem?_of_mem hm
      rw [List.getElem?_drop] at hk
      exact hafter (c + 1 + k) (by omega) m r' hk
    rw [base_keep oldest j (got.drop (c + 1)) _ (fun x hx => hlow x (List.mem_of_mem_drop hx))
      (fun r' hm => (hd _ r' hm).2 rfl) (fun _ r' hm => (hd _ r' hm).1 rfl)]
    simp only [collect1, put]
    rcases hnn with e | e
    · rw [if_pos (by omega), if_neg (by omega)]
    · rw [if_neg (by omega), if_pos (by omega), if_pos e]
  by_cases hab : a < b
  · rw [if_pos hab]
    have := key b (oldest + j) q hb (.inr rfl) (fun d hd m r' hm => ⟨fun e => ?_, fun e => ?_⟩)
    · rwa [if_pos rfl] at this
    · subst e; have := nodup_unique hn ha hm; omega
    · subst e; have := nodup_unique hn hb hm; omega
  · rw [if_neg hab]
    have hne : a ≠ b := fun e => by
      subst e; rw [ha] at hb; simp only [Option.some.injEq, Prod.mk.injEq] at hb; omega
    have := key a (oldest + (j - 1)) p ha (.inl rfl) (fun d hd m r' hm => ⟨fun e => ?_, fun e => ?_⟩)
    · rwa [if_neg (by omega)] at this
    · subst e; have := nodup_unique hn ha hm; omega
    · subst e; have := nodup_unique hn hb hm; omega

/-- **C43 (base fees, exact).** In a finished answer the base fee of every block but the oldest is the block's own if its result arrived
after that of the block before, and otherwise the fee computed from the block before; the oldest block has its own, and the one after the
newest the computed one. -/
theorem C43_base_fee_exact (possible : Nat → Res → Prop) (last blocks : Nat) (s : State) (hr : Reach possible last blocks s) (withRewards : Bool)
    (hb : blocks ≤ last + 1) (hb0 : 0 < blocks) (hd : s.got.length = blocks) (oldest : Nat) (reward : Option (List (List Int)))
    (baseFee : List (Option Nat)) (ratio : List (Option (Nat × Nat)))
    (ho : finalOut withRewards last blocks s.got = .val oldest reward baseFee ratio) :
    (∀ (i a b : Nat) (p q : Proc), 0 < i → i < ratio.length → s.got[a]? = some (oldest + (i - 1), Res.ok p) → s.got[b]? = some (oldest + i, Res.ok q) →
      baseFee[i]? = some (some (if a < b then q.baseFee else p.nextBaseFee))) ∧
    (∀ (a : Nat) (p : Proc), s.got[a]? = some (oldest, Res.ok p) → baseFee[0]? = some (some p.baseFee)) ∧
    (∀ (a : Nat) (p : Proc), s.got[a]? = some (oldest + (ratio.length - 1), Res.ok p) → baseFee[ratio.length]? = some (some p.nextBaseFee)) := by
  obtain ⟨hperm, _⟩ := C43_each_block_once possible last blocks s hr hb hd
  have hnd : (s.got.map Prod.fst).Nodup := hperm.nodup_iff.2 List.nodup_range'
  have hlow : ∀ x ∈ s.got, last + 1 - blocks ≤ x.1 := fun x hx =>
    (List.mem_range'_1.1 (hperm.mem_iff.1 (List.mem_map_of_mem (f := Prod.fst) hx))).1
  obtain ⟨res, hres, hm⟩ := C43_answer possible last blocks s hr withRewards hb hb0 hd
  rw [ho] at hm
  obtain ⟨e, k, hk0, hkb, hk, ha, hs⟩ := hm
  have hl : ratio.length = k := ha.ratioLen
  simp only [finalOut] at ho
  split at ho
  · cases ho
  · split at ho
    · cases ho
    · next hz =>
      injection ho with e1 e2 e3 e4
      have hfm : (collect (last + 1 - blocks) blocks s.got).firstMissing = ratio.length := by rw [← e4]; simp
      have hget : ∀ i, i ≤ ratio.length → baseFee[i]? = some ((collect (last + 1 - blocks) blocks s.got).baseFee i) := by
        intro i hi
        rw [← e3, List.getElem?_map, List.getElem?_range (by omega)]; rfl
      subst e
      refine ⟨fun i a b p q hi hil h1 h2 => ?_, fun a p h1 => ?_, fun a p h1 => ?_⟩
      · rw [hget i (by omega)]
        congr 1
        exact base_last _ i s.got _ hlow hnd hi h1 h2
      · rw [hget 0 (by omega)]
        congr 1
        have hmem := List.mem_of_getElem? h1
        rcases collect_base (last + 1 - blocks) 0 s.got ⟨fun _ => [], fun _ => none, fun _ => none, blocks⟩ hlow with ⟨q, hq, e⟩ | ⟨q, h0, _⟩ | ⟨_, h, _⟩
        · obtain ⟨b, hb'⟩ := List.getElem?_of_mem hq
          have hab := nodup_unique hnd h1 hb'
          subst hab
          rw [h1] at hb'
          cases hb'
          exact e
        · omega
        · exact absurd hmem (h p)
      · rw [hget _ (Nat.le_refl _)]
        congr 1
        have hmem := List.mem_of_getElem? h1
        have hnot : ∀ q, (last + 1 - blocks + ratio.length, Res.ok q) ∉ s.got := by
          intro q hq
          have hin := List.mem_range'_1.1 (hperm.mem_iff.1 (List.mem_map_of_mem (f := Prod.fst) hq))
          have hkb' : ratio.length < blocks := by dsimp only at hin; omega
          have h3 := (collect_missing (last + 1 - blocks) s.got ⟨fun _ => [], fun _ => none, fun _ => none, blocks⟩).2.2
          rw [show (s.got.foldl (collect1 (last + 1 - blocks)) ⟨fun _ => [], fun _ => none, fun _ => none, blocks⟩).firstMissing = ratio.length from hfm] at h3
          rcases h3 with h3 | ⟨n, hn, h3⟩
          · dsimp only at h3; omega
          · have hnl := hlow _ hn
            dsimp only at hnl
            have hne : n = last + 1 - blocks + ratio.length := by omega
            obtain ⟨x, hx⟩ := List.getElem?_of_mem hn
            obtain ⟨y, hy⟩ := List.getElem?_of_mem hq
            rw [hne] at hx
            have hxy := nodup_unique hnd hx hy
            subst hxy
            rw [hx] at hy
            cases hy
        rcases collect_base (last + 1 - blocks) ratio.length s.got ⟨fun _ => [], fun _ => none, fun _ => none, blocks⟩ hlow with ⟨q, hq, _⟩ | ⟨q, h0, hq, e⟩ | ⟨_, _, h⟩
        · exact absurd hq (hnot q)
        · obtain ⟨b, hb'⟩ := List.getElem?_of_mem hq
          have hab := nodup_unique hnd h1 hb'
          subst hab
          rw [h1] at hb'
          cases hb'
          exact e
        · exact absurd hmem (h p (by omega))

/-! ### Every order of neighbours happens -/

theorem replicate_min (blocks : Nat) (h : 2 ≤ blocks) : ∃ ws, List.replicate (min 4 blocks) Worker.idle = .idle :: .idle :: ws := by
  obtain ⟨m, hm⟩ : ∃ m, min 4 blocks = m + 2 := ⟨min 4 blocks - 2, by omega⟩
  exact ⟨List.replicate m .idle, by rw [hm]; rfl⟩

theorem collecting_ok (blocks : Nat) (s : State) (h : s.got.length < blocks) (hok : ∀ x ∈ s.got, x.2 ≠ .err) : collecting blocks s = true := by
  simp only [collecting, Bool.and_eq_true, decide_eq_true_eq, List.all_eq_true]
  exact ⟨h, fun x hx => by simpa using hok x hx⟩

/-- One worker does one block after the other. -/
theorem sequential (p : Nat → Proc) (last blocks : Nat) (ws : List Worker) : ∀ (m n : Nat) (got : List (Nat × Res)),
    Reach (fun n r => r = .ok (p n)) last blocks ⟨n, .idle :: ws, [], got⟩ → n + m ≤ last + 1 → got.length + m ≤ blocks →
    (∀ x ∈ got, x.2 ≠ .err) →
    ∃ got', got'.length = got.length + m ∧ (∀ x ∈ got', x.2 ≠ .err) ∧ (∀ (i : Nat) x, got[i]? = some x → got'[i]? = some x) ∧
      (∀ k, k < m → got'[got.length + k]? = some (n + k, .ok (p (n + k)))) ∧
      Reach (fun n r => r = .ok (p n)) last blocks ⟨n + m, .idle :: ws, [], got'⟩
  | 0, n, got, hr, _, _, he => ⟨got, rfl, he, fun _ _ h => h, fun k hk => by omega, hr⟩
  | m + 1, n, got, hr, h1, h2, he => by
    have r1 := Reach.next hr (.take (w := 0) rfl)
    have hn : ¬ n > last := by omega
    simp only [if_neg hn, List.set_cons_zero] at r1
    have r2 := Reach.next r1 (.finish (w := 0) (n := n) (r := .ok (p n)) rfl rfl)
    simp only [List.set_cons_zero, List.nil_append] at r2
    have r3 := Reach.next r2 (.recv rfl (collecting_ok _ _ (by dsimp only; omega) he))
    simp only at r3
    obtain ⟨got', l1, l2, l3, l4, l5⟩ := sequential p last blocks ws m (n + 1) (got ++ [(n, .ok (p n))]) r3 (by omega) (by simp; omega)
      (fun x hx => by
        rcases List.mem_append.1 hx with h | h
        · exact he x h
        · rw [List.mem_singleton.1 h]; intro h'; cases h')
    refine ⟨got', by rw [l1]; simp; omega, l2, fun i x hx => l3 i x ?_, fun k hk => ?_, ?_⟩
    · rw [List.getElem?_append_left (List.getElem?_eq_some_iff.1 hx).1]; exact hx
    · cases k with
      | zero => exact l3 got.length _ (by simp)
      | succ k =>
        have := l4 k (by omega)
        simp only [List.length_append, List.length_singleton] at this
        rw [show got.length + (k + 1) = got.length + 1 + k by omega, show n + (k + 1) = n + 1 + k by omega]
        exact this
    · rw [show n + (m + 1) = n + 1 + m by omega]; exact l5

/-- For every two neighbours there is a schedule in which the newer one is received first. -/
theorem swapped (p : Nat → Proc) (last blocks i : Nat) (hb : blocks ≤ last + 1) (hi : 0 < i) (hil : i < blocks) :
    ∃ s, Reach (fun n r => r = .ok (p n)) last blocks s ∧ s.got.length = blocks ∧ (∀ x ∈ s.got, x.2 ≠ .err) ∧
      ∃ a b : Nat, b < a ∧ s.got[a]? = some (last + 1 - blocks + (i - 1), Res.ok (p (last + 1 - blocks + (i - 1)))) ∧
        s.got[b]? = some (last + 1 - blocks + i, Res.ok (p (last + 1 - blocks + i))) := by
  obtain ⟨ws, hws⟩ := replicate_min blocks (by omega)
  have r0 : Reach (fun n r => r = .ok (p n)) last blocks ⟨last + 1 - blocks, .idle :: .idle :: ws, [], []⟩ := by
    have := Reach.init (possible := fun n r => r = Res.ok (p n)) (last := last) (blocks := blocks)
    rwa [State.init, hws] at this
  obtain ⟨g1, a1, a2, _, _, a5⟩ := sequential p last blocks (.idle :: ws) (i - 1) (last + 1 - blocks) [] r0 (by omega) (by simp; omega) (by simp)
  simp only [List.length_nil, Nat.zero_add] at a1
  generalize hc : last + 1 - blocks + (i - 1) = c at a5 ⊢
  have hc1 : last + 1 - blocks + i = c + 1 := by omega
  rw [hc1]
  have r1 := Reach.next a5 (.take (w := 0) rfl)
  simp only [if_neg (show ¬ c > last by omega), List.set_cons_zero] at r1
  have r2 := Reach.next r1 (.take (w := 1) rfl)
  simp only [if_neg (show ¬ c + 1 > last by omega), List.set_cons_zero, List.set_cons_succ] at r2
  have r3 := Reach.next r2 (.finish (w := 1) (n := c + 1) (r := .ok (p (c + 1))) rfl rfl)
  simp only [List.set_cons_zero, List.set_cons_succ, List.nil_append] at r3
  have r4 := Reach.next r3 (.finish (w := 0) (n := c) (r := .ok (p c)) rfl rfl)
  simp only [List.set_cons_zero, List.singleton_append] at r4
  have r5 := Reach.next r4 (.recv rfl (collecting_ok _ _ (by dsimp only; omega) a2))
  simp only at r5
  have e5 : ∀ x ∈ g1 ++ [(c + 1, Res.ok (p (c + 1)))], x.2 ≠ .err := fun x hx => by
    rcases List.mem_append.1 hx with h | h
    · exact a2 x h
    · rw [List.mem_singleton.1 h]; intro h'; cases h'
  have r6 := Reach.next r5 (.recv rfl (collecting_ok _ _ (by simp; omega) e5))
  simp only at r6
  have e6 : ∀ x ∈ g1 ++ [(c + 1, Res.ok (p (c + 1)))] ++ [(c, Res.ok (p c))], x.2 ≠ .err := fun x hx => by
    rcases List.mem_append.1 hx with h | h
    · exact e5 x h
    · rw [List.mem_singleton.1 h]; intro h'; cases h'
  obtain ⟨g2, b1, b2, b3, _, b5⟩ := sequential p last blocks (.idle :: ws) (blocks - (i + 1)) (c + 1 + 1) _ r6 (by omega) (by simp; omega) e6
  refine ⟨_, b5, by rw [b1]; simp; omega, b2, i, i - 1, by omega, b3 _ _ ?_, b3 _ _ ?_⟩
  · rw [List.getElem?_append_right (by simp; omega)]
    simp [a1, show i - (i - 1 + 1) = 0 by omega]
  · rw [List.getElem?_append_left (by simp; omega), List.getElem?_append_right (by omega)]
    simp [a1]

/-- **C43 (base fees, exactly when).** Let every block of the range be there. The answer has each block's own base fee, whatever the schedule
of the workers, exactly if every block's base fee is the one computed from the block before. -/
theorem C43_base_fee_iff (p : Nat → Proc) (last blocks : Nat) (withRewards : Bool) (hb : blocks ≤ last + 1) (hb0 : 0 < blocks) :
    (∀ s, Reach (fun n r => r = .ok (p n)) last blocks s → s.got.length = blocks →
      ∃ reward baseFee ratio, finalOut withRewards last blocks s.got = .val (last + 1 - blocks) reward baseFee ratio ∧ ratio.length = blocks ∧
        ∀ i, i < blocks → baseFee[i]? = some (some (p (last + 1 - blocks + i)).baseFee)) ↔
    ∀ n, last + 1 - blocks ≤ n → n < last → (p n).nextBaseFee = (p (n + 1)).baseFee := by
  have shape : ∀ s, Reach (fun n r => r = .ok (p n)) last blocks s → s.got.length = blocks →
      ∃ reward baseFee ratio, finalOut withRewards last blocks s.got = .val (last + 1 - blocks) reward baseFee ratio ∧ ratio.length = blocks ∧
        ∀ i, i < blocks → ∃ a : Nat, s.got[a]? = some (last + 1 - blocks + i, Res.ok (p (last + 1 - blocks + i))) := by
    intro s hr hd
    obtain ⟨hperm, hposs⟩ := C43_each_block_once _ last blocks s hr hb hd
    obtain ⟨res, hres, hm⟩ := C43_answer _ last blocks s hr withRewards hb hb0 hd
    cases ho : finalOut withRewards last blocks s.got with
    | err => rw [ho] at hm; obtain ⟨n, h1, h2, h3⟩ := hm; have := hres n h1 h2; rw [h3] at this; cases this
    | empty => rw [ho] at hm; have := hres _ (Nat.le_refl _) (by omega); rw [hm] at this; cases this
    | val oldest reward baseFee ratio =>
      rw [ho] at hm
      obtain ⟨e, k, hk0, hkb, hk, ha, _⟩ := hm
      subst e
      refine ⟨reward, baseFee, ratio, rfl, ?_, fun i hi => ?_⟩
      · rw [ha.ratioLen]
        apply Classical.byContradiction
        intro hne
        have h1 := hk (by omega)
        have h2 := hres (last + 1 - blocks + k) (by omega) (by omega)
        rw [h1] at h2; cases h2
      · have hmem : last + 1 - blocks + i ∈ s.got.map Prod.fst := hperm.mem_iff.2 (List.mem_range'_1.2 ⟨by omega, by omega⟩)
        obtain ⟨x, hx, hxe⟩ := List.mem_map.1 hmem
        have hx2 := hposs x hx
        obtain ⟨a, ha'⟩ := List.getElem?_of_mem hx
        refine ⟨a, ?_⟩
        rw [ha']
        obtain ⟨x1, x2⟩ := x
        dsimp only at hxe hx2
        rw [hx2, hxe]
  constructor
  · intro H n h1 h2
    obtain ⟨s, hr, hd, _, a, b, hab, ha, hb'⟩ := swapped p last blocks (n + 1 - (last + 1 - blocks)) hb (by omega) (by omega)
    obtain ⟨reward, baseFee, ratio, ho, hl, hall⟩ := H s hr hd
    have hx := (C43_base_fee_exact _ last blocks s hr withRewards hb hb0 hd _ reward baseFee ratio ho).1
      (n + 1 - (last + 1 - blocks)) a b _ _ (by omega) (by omega) ha hb'
    rw [if_neg (by omega), hall _ (by omega)] at hx
    simp only [Option.some.injEq] at hx
    rw [show last + 1 - blocks + (n + 1 - (last + 1 - blocks)) = n + 1 by omega,
      show last + 1 - blocks + (n + 1 - (last + 1 - blocks) - 1) = n by omega] at hx
    exact hx.symm
  · intro H s hr hd
    obtain ⟨reward, baseFee, ratio, ho, hl, hget⟩ := shape s hr hd
    refine ⟨reward, baseFee, ratio, ho, hl, fun i hi => ?_⟩
    obtain ⟨x1, x2, _⟩ := C43_base_fee_exact _ last blocks s hr withRewards hb hb0 hd _ reward baseFee ratio ho
    obtain ⟨b, hb'⟩ := hget i hi
    cases i with
    | zero => exact x2 b _ hb'
    | succ i =>
      obtain ⟨a, ha⟩ := hget i (by omega)
      rw [x1 (i + 1) a b _ _ (by omega) (by omega) ha hb']
      have h3 := H (last + 1 - blocks + i) (by omega) (by omega)
      congr 2
      rw [h3, show last + 1 - blocks + i + 1 = last + 1 - blocks + (i + 1) by omega]
      split <;> rfl

/-- On the chain of `db0`, whose base fee is fixed and whose blocks are empty, the right-hand side fails: 875 is not 1000. -/
example : ¬ ∀ n, 3 + 1 - 2 ≤ n → n < 3 → ((fun _ => p0) n : Proc).nextBaseFee = ((fun _ => p0) (n + 1) : Proc).baseFee :=
  fun h => absurd (h 2 (by omega) (by omega)) (by decide)

/-- In the schedule `runB` the newer block arrives first, and the answer has the computed fee in its place. -/
example : sB.got[0]? = some (2 + 1, .ok p0) ∧ sB.got[1]? = some (2 + (1 - 1), .ok p0) := by decide

end Verif.FeeHistory
