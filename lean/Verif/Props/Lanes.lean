import Verif.Model.Lanes
/-
C158: proposed blocks keep to the limits and every kind of transaction has its share. C159: what fits into a block gets into one.
-/
namespace Verif.Props.Lanes
open Verif.Lanes

/-- Bytes and gas of transactions. -/
def bytesOf (l : List Tx) : Nat := (l.map (·.size)).foldr (· + ·) 0
def gasOf (l : List Tx) : Nat := (l.map (·.gas)).foldr (· + ·) 0

theorem bytesOf_append (a b : List Tx) : bytesOf (a ++ b) = bytesOf a + bytesOf b := by
  induction a with
  | nil => simp [bytesOf]
  | cons x xs ih => simp only [bytesOf, List.cons_append, List.map_cons, List.foldr_cons] at ih ⊢; omega

theorem gasOf_append (a b : List Tx) : gasOf (a ++ b) = gasOf a + gasOf b := by
  induction a with
  | nil => simp [gasOf]
  | cons x xs ih => simp only [gasOf, List.cons_append, List.map_cons, List.foldr_cons] at ih ⊢; omega

theorem mem_bytes {t : Tx} : ∀ {l : List Tx}, t ∈ l → t.size ≤ bytesOf l
  | x :: xs, h => by
    rcases List.mem_cons.mp h with e | h
    · subst e; simp only [bytesOf, List.map_cons, List.foldr_cons]; omega
    · have := mem_bytes h; simp only [bytesOf, List.map_cons, List.foldr_cons] at this ⊢; omega

theorem mem_gas {t : Tx} : ∀ {l : List Tx}, t ∈ l → t.gas ≤ gasOf l
  | x :: xs, h => by
    rcases List.mem_cons.mp h with e | h
    · subst e; simp only [gasOf, List.map_cons, List.foldr_cons]; omega
    · have := mem_gas h; simp only [gasOf, List.map_cons, List.foldr_cons] at this ⊢; omega

/-- The share of a lane: a tenth for oracle updates, bids and free transactions, seven tenths for the rest. -/
def share (tenths : Nat) (max : Nat) : Nat := tenths * max / 10

theorem limits_tenth (b : Block) (p : Proposal) : ∀ l ∈ [systemLane, mevLane, freeLane],
    limits b p l = (share 1 b.maxBytes, share 1 b.gasLimit) := by
  intro l hl
  have : l.space = 100000000000000000 := by
    simp only [List.mem_cons, List.not_mem_nil, or_false] at hl
    rcases hl with e | e | e <;> rw [e] <;> rfl
  unfold limits share
  rw [this, if_neg (by decide)]
  generalize b.maxBytes = x
  generalize b.gasLimit = y
  congr 1 <;> omega

theorem limits_rest (b : Block) (p : Proposal) (n : Int) :
    limits b p (defaultLane n) = (share 7 b.maxBytes, share 7 b.gasLimit) := by
  have : (defaultLane n).space = 700000000000000000 := rfl
  unfold limits share
  rw [this, if_neg (by decide)]
  generalize b.maxBytes = x
  generalize b.gasLimit = y
  congr 1 <;> omega

/-- What the proposal becomes: the selection or nothing, within the limits. -/
theorem update_shape (b : Block) (l : Lane) (p : Proposal) (sel : List Tx) :
    ∃ took, (took = sel ∨ took = []) ∧ (update b l p sel).txs = p.txs ++ took ∧
      bytesOf took ≤ (limits b p l).1 ∧ gasOf took ≤ (limits b p l).2 ∧
      (∀ t ∈ took, ∀ u ∈ p.txs, u.hash ≠ t.hash) := by
  unfold update
  simp only
  split
  · exact ⟨[], .inr rfl, by simp, Nat.zero_le _, Nat.zero_le _, by simp⟩
  · rename_i hd
    split
    · exact ⟨[], .inr rfl, by simp, Nat.zero_le _, Nat.zero_le _, by simp⟩
    · rename_i hl
      split
      · exact ⟨[], .inr rfl, by simp, Nat.zero_le _, Nat.zero_le _, by simp⟩
      · refine ⟨sel, .inl rfl, rfl, ?_, ?_, ?_⟩
        · show (sel.map (·.size)).foldr (· + ·) 0 ≤ _; omega
        · show (sel.map (·.gas)).foldr (· + ·) 0 ≤ _; omega
        · intro t ht u hu he
          apply hd
          rw [List.any_eq_true]
          refine ⟨t, ht, ?_⟩
          rw [List.any_eq_true]
          exact ⟨u, hu, by simp [he]⟩

/-- **C158 (limits and order).** Whatever the lanes select, a proposed block consists of oracle updates, then the auction's
bundle, then free transactions, then the rest, as selected by the respective lane, each part within its share of the bytes and
the gas of a block, and no transaction of one part again in another; so the block is within its limits. -/
theorem C158_parts (b : Block) (n : Int) (select : Lane → Proposal → List Tx) :
    ∃ sys mev free rest, propose b n select = sys ++ mev ++ free ++ rest ∧
      (sys = select systemLane ⟨[]⟩ ∨ sys = []) ∧ (mev = select mevLane ⟨sys⟩ ∨ mev = []) ∧
      (free = select freeLane ⟨sys ++ mev⟩ ∨ free = []) ∧ (rest = select (defaultLane n) ⟨sys ++ mev ++ free⟩ ∨ rest = []) ∧
      (bytesOf sys ≤ share 1 b.maxBytes ∧ gasOf sys ≤ share 1 b.gasLimit) ∧
      (bytesOf mev ≤ share 1 b.maxBytes ∧ gasOf mev ≤ share 1 b.gasLimit) ∧
      (bytesOf free ≤ share 1 b.maxBytes ∧ gasOf free ≤ share 1 b.gasLimit) ∧
      (bytesOf rest ≤ share 7 b.maxBytes ∧ gasOf rest ≤ share 7 b.gasLimit) ∧
      (∀ t ∈ mev, ∀ u ∈ sys, u.hash ≠ t.hash) ∧ (∀ t ∈ free, ∀ u ∈ sys ++ mev, u.hash ≠ t.hash) ∧
      (∀ t ∈ rest, ∀ u ∈ sys ++ mev ++ free, u.hash ≠ t.hash) ∧
      bytesOf (propose b n select) ≤ b.maxBytes ∧ gasOf (propose b n select) ≤ b.gasLimit := by
  unfold propose lanes
  simp only [prepare]
  obtain ⟨sys, c1, e1, s1, g1, d1⟩ := update_shape b systemLane ⟨[]⟩ (select systemLane ⟨[]⟩)
  have q1 : update b systemLane ⟨[]⟩ (select systemLane ⟨[]⟩) = ⟨sys⟩ := by
    cases hu : update b systemLane ⟨[]⟩ (select systemLane ⟨[]⟩) with
    | mk txs => rw [hu] at e1; simpa using e1
  rw [q1]
  obtain ⟨mev, c2, e2, s2, g2, d2⟩ := update_shape b mevLane ⟨sys⟩ (select mevLane ⟨sys⟩)
  have q2 : update b mevLane ⟨sys⟩ (select mevLane ⟨sys⟩) = ⟨sys ++ mev⟩ := by
    cases hu : update b mevLane ⟨sys⟩ (select mevLane ⟨sys⟩) with
    | mk txs => rw [hu] at e2; simpa using e2
  rw [q2]
  obtain ⟨free, c3, e3, s3, g3, d3⟩ := update_shape b freeLane ⟨sys ++ mev⟩ (select freeLane ⟨sys ++ mev⟩)
  have q3 : update b freeLane ⟨sys ++ mev⟩ (select freeLane ⟨sys ++ mev⟩) = ⟨sys ++ mev ++ free⟩ := by
    cases hu : update b freeLane ⟨sys ++ mev⟩ (select freeLane ⟨sys ++ mev⟩) with
    | mk txs => rw [hu] at e3; simpa using e3
  rw [q3]
  obtain ⟨rest, c4, e4, s4, g4, d4⟩ := update_shape b (defaultLane n) ⟨sys ++ mev ++ free⟩ (select (defaultLane n) ⟨sys ++ mev ++ free⟩)
  have hmem : systemLane ∈ [systemLane, mevLane, freeLane] ∧ mevLane ∈ [systemLane, mevLane, freeLane] ∧
      freeLane ∈ [systemLane, mevLane, freeLane] := by simp
  rw [limits_tenth b _ _ hmem.1] at s1 g1
  rw [limits_tenth b _ _ hmem.2.1] at s2 g2
  rw [limits_tenth b _ _ hmem.2.2] at s3 g3
  rw [limits_rest] at s4 g4
  refine ⟨sys, mev, free, rest, e4, c1, c2, c3, c4, ⟨s1, g1⟩, ⟨s2, g2⟩, ⟨s3, g3⟩, ⟨s4, g4⟩, d2, d3, d4, ?_, ?_⟩
  · rw [e4]
    simp only [bytesOf_append]
    simp only [share] at s1 s2 s3 s4
    omega
  · rw [e4]
    simp only [gasOf_append]
    simp only [share] at g1 g2 g3 g4
    omega

/-- **C158 (no crowding out).** A selection within the lane's share, of transactions that are not in the block yet, is taken:
whatever the lanes before it put into the block, they leave that share. -/
theorem C158_share (b : Block) (n : Int) (select : Lane → Proposal → List Tx) (before after : List Lane) (l : Lane)
    (hl : lanes n = before ++ l :: after) (sel : List Tx) (p : Proposal) (hp : p = prepare b select before ⟨[]⟩)
    (hsel : select l p = sel) (hb : bytesOf sel ≤ (limits b p l).1) (hg : gasOf sel ≤ (limits b p l).2)
    (hnew : ∀ t ∈ sel, ∀ u ∈ p.txs, u.hash ≠ t.hash) : ∀ t ∈ sel, t ∈ propose b n select := by
  have mono : ∀ (ls : List Lane) (q : Proposal) (t : Tx), t ∈ q.txs → t ∈ (prepare b select ls q).txs := by
    intro ls
    induction ls with
    | nil => intro q t h; exact h
    | cons x xs ih =>
      intro q t h
      obtain ⟨took, _, e, _⟩ := update_shape b x q (select x q)
      exact ih _ _ (by rw [e]; exact List.mem_append_left _ h)
  have app : ∀ (xs ys : List Lane) (q : Proposal), prepare b select (xs ++ ys) q = prepare b select ys (prepare b select xs q) := by
    intro xs
    induction xs with
    | nil => intro ys q; rfl
    | cons x xs ih => intro ys q; exact ih ys _
  -- what the lanes before have taken
  have tot : ∀ (xs : List Lane) (q : Proposal), (∀ x ∈ xs, x.space ≠ 0) →
      bytesOf (prepare b select xs q).txs ≤ bytesOf q.txs + ((xs.map fun x => x.space * b.maxBytes / 1000000000000000000).foldr (· + ·) 0) ∧
      gasOf (prepare b select xs q).txs ≤ gasOf q.txs + ((xs.map fun x => x.space * b.gasLimit / 1000000000000000000).foldr (· + ·) 0) := by
    intro xs
    induction xs with
    | nil => intro q _; exact ⟨Nat.le_refl _, Nat.le_refl _⟩
    | cons x xs ih =>
      intro q hx
      obtain ⟨took, _, e, h1, h2, _⟩ := update_shape b x q (select x q)
      obtain ⟨i1, i2⟩ := ih (update b x q (select x q)) (fun y hy => hx y (List.mem_cons_of_mem _ hy))
      rw [e, bytesOf_append] at i1
      rw [e, gasOf_append] at i2
      unfold limits at h1 h2
      rw [if_neg (hx x (List.mem_cons_self ..))] at h1 h2
      simp only [prepare, List.map_cons, List.foldr_cons]
      exact ⟨by omega, by omega⟩
  have hz : ∀ x ∈ lanes n, x.space ≠ 0 := by
    intro x hx
    simp only [lanes, List.mem_cons, List.not_mem_nil, or_false] at hx
    rcases hx with e | e | e | e <;> rw [e] <;> exact Nat.succ_ne_zero _
  have room : bytesOf p.txs + bytesOf sel ≤ b.maxBytes ∧ gasOf p.txs + gasOf sel ≤ b.gasLimit := by
    obtain ⟨t1, t2⟩ := tot before ⟨[]⟩ fun x hx => hz x (by rw [hl]; exact List.mem_append_left _ hx)
    rw [← hp] at t1 t2
    have sp : ∀ m : Nat, ((before.map fun x => x.space * m / 1000000000000000000).foldr (· + ·) 0) + l.space * m / 1000000000000000000 ≤ m := by
      intro m
      have := congrArg (fun ls => (ls.map fun x : Lane => x.space * m / 1000000000000000000).foldr (· + ·) 0) hl
      have h4 : ((lanes n).map fun x : Lane => x.space * m / 1000000000000000000).foldr (· + ·) 0 ≤ m := by
        simp only [lanes, List.map_cons, List.map_nil, List.foldr_cons, List.foldr_nil, systemLane, mevLane, freeLane, defaultLane]
        omega
      have split : ∀ (xs ys : List Lane), ((xs ++ ys).map fun x : Lane => x.space * m / 1000000000000000000).foldr (· + ·) 0 =
          (xs.map fun x : Lane => x.space * m / 1000000000000000000).foldr (· + ·) 0 +
          (ys.map fun x : Lane => x.space * m / 1000000000000000000).foldr (· + ·) 0 := by
        intro xs ys
        induction xs with
        | nil => simp
        | cons x xs ih => simp only [List.cons_append, List.map_cons, List.foldr_cons, ih]; omega
      rw [split] at this
      simp only [List.map_cons, List.foldr_cons] at this
      omega
    have hls : l.space ≠ 0 := hz l (by rw [hl]; simp)
    unfold limits at hb hg
    rw [if_neg hls] at hb hg
    have := sp b.maxBytes
    have := sp b.gasLimit
    simp only [show bytesOf [] = 0 from rfl, show gasOf [] = 0 from rfl] at t1 t2
    exact ⟨by omega, by omega⟩
  have taken : update b l p sel = ⟨p.txs ++ sel⟩ := by
    unfold update
    simp only
    rw [if_neg, if_neg, if_neg]
    · intro h; simp only [Proposal.size, Proposal.gas] at h; simp only [bytesOf, gasOf] at room; omega
    · intro h; simp only [bytesOf] at hb; simp only [gasOf] at hg; omega
    · intro h
      rw [List.any_eq_true] at h
      obtain ⟨t, ht, h⟩ := h
      rw [List.any_eq_true] at h
      obtain ⟨u, hu, h⟩ := h
      exact hnew t ht u hu (by simpa using h)
  intro t ht
  unfold propose
  rw [hl, app, ← hp]
  simp only [prepare]
  rw [hsel, taken]
  exact mono _ _ _ (List.mem_append_right _ ht)

/-- **C158 (configuration).** The four lanes are accepted by the mempool, and a transaction is kept in exactly one of them: the first
that wants it. -/
theorem C158_lanes (n : Int) (m : Matchers) (t : Tx) :
    validate (lanes n) = true ∧ ((lanes n).filter fun l => l.name == laneOf m t).length = 1 ∧
    (laneOf m t = "system" ↔ m.oracle t = true) ∧ (laneOf m t = "mev" ↔ m.oracle t = false ∧ m.bid t = true) ∧
    (laneOf m t = "free" ↔ m.oracle t = false ∧ m.bid t = false ∧ m.free t = true) := by
  have hv : validate (lanes n) = true := by
    simp [validate, lanes, systemLane, mevLane, freeLane, defaultLane]
  refine ⟨hv, ?_, ?_, ?_, ?_⟩ <;> unfold laneOf <;> cases m.oracle t <;> cases m.bid t <;> cases m.free t <;>
    simp [lanes, systemLane, mevLane, freeLane, defaultLane]

/-- The room of a lane in the mempool: one oracle update, a hundred bids, a hundred free transactions, and for the rest as many
as the node's option says (none: no limit). -/
def room (n : Int) (lane : String) : Option Nat :=
  if lane = "system" then some 1 else if lane = "mev" then some 100 else if lane = "free" then some 100
  else if 0 < n then some n.toNat else none

theorem offer_eq (n : Int) (hn : 0 ≤ n) (m : Matchers) (p : Pool) (t : Tx) :
    (offer n m p t = none ↔ ∃ k, room n (laneOf m t) = some k ∧ k ≤ (p (laneOf m t)).length) ∧
    ∀ q, offer n m p t = some q →
      (∀ k, room n (laneOf m t) = some k → (p (laneOf m t)).length < k) ∧
      q (laneOf m t) = p (laneOf m t) ++ [t] ∧ ∀ l, l ≠ laneOf m t → q l = p l := by
  have hcases : laneOf m t = "system" ∨ laneOf m t = "mev" ∨ laneOf m t = "free" ∨ laneOf m t = "default" := by
    unfold laneOf; cases m.oracle t <;> cases m.bid t <;> cases m.free t <;> simp
  have step : ∀ l : Lane, (lanes n).find? (fun x => x.name == laneOf m t) = some l → l.name = laneOf m t → 0 ≤ l.maxTxs →
      (∀ k, room n (laneOf m t) = some k ↔ 0 < l.maxTxs ∧ k = l.maxTxs.toNat) →
      (offer n m p t = none ↔ ∃ k, room n (laneOf m t) = some k ∧ k ≤ (p (laneOf m t)).length) ∧
      ∀ q, offer n m p t = some q →
        (∀ k, room n (laneOf m t) = some k → (p (laneOf m t)).length < k) ∧
        q (laneOf m t) = p (laneOf m t) ++ [t] ∧ ∀ l, l ≠ laneOf m t → q l = p l := by
    intro l hf hname hpos hroom
    unfold offer
    rw [hf]
    simp only [insertLane]
    rw [hname]
    by_cases hc : 0 < l.maxTxs ∧ l.maxTxs ≤ ((p (laneOf m t)).length : Int)
    · rw [if_pos hc]
      refine ⟨⟨fun _ => ⟨l.maxTxs.toNat, (hroom _).mpr ⟨hc.1, rfl⟩, by omega⟩, fun _ => rfl⟩, fun q hq => by simp at hq⟩
    · rw [if_neg hc, if_neg (by omega)]
      refine ⟨⟨fun h => by simp at h, fun ⟨k, hk, hle⟩ => ?_⟩, fun q hq => ?_⟩
      · obtain ⟨h1, h2⟩ := (hroom k).mp hk
        exact absurd ⟨h1, by omega⟩ hc
      · simp only [Option.map_some, Option.some.injEq] at hq
        subst hq
        refine ⟨fun k hk => ?_, by simp, fun l' hl' => by simp [hl']⟩
        obtain ⟨h1, h2⟩ := (hroom k).mp hk
        by_cases hle : k ≤ (p (laneOf m t)).length
        · exact absurd ⟨h1, by omega⟩ hc
        · omega
  rcases hcases with h | h | h | h
  · refine step systemLane (by rw [h]; rfl) (by rw [h]; rfl) (by decide) (fun k => ?_)
    rw [h]; simp [room, systemLane]; exact eq_comm
  · refine step mevLane (by rw [h]; rfl) (by rw [h]; rfl) (by decide) (fun k => ?_)
    rw [h]; simp [room, mevLane]; exact eq_comm
  · refine step freeLane (by rw [h]; rfl) (by rw [h]; rfl) (by decide) (fun k => ?_)
    rw [h]; simp [room, freeLane]; exact eq_comm
  · refine step (defaultLane n) (by rw [h]; rfl) (by rw [h]; rfl) hn (fun k => ?_)
    rw [h]; simp only [room, defaultLane]
    by_cases h0 : 0 < n <;> simp [h0]; exact eq_comm

/-- **C158 (mempool).** Each kind of transaction has its own room in the mempool: a transaction is refused exactly if the room of
its kind is used up, whatever waits in the other lanes; a transaction that is kept displaces none; and no lane ever keeps
more than its room, nor what does not belong to it. -/
theorem C158_mempool (n : Int) (hn : 0 ≤ n) (m : Matchers) :
    (∀ p t, offer n m p t = none ↔ ∃ k, room n (laneOf m t) = some k ∧ k ≤ (p (laneOf m t)).length) ∧
    (∀ p t q, offer n m p t = some q → t ∈ q (laneOf m t) ∧ ∀ l, ∀ u ∈ p l, u ∈ q l) ∧
    (∀ ts l, (∀ k, room n l = some k → (pool n m ts l).length ≤ k) ∧ ∀ t ∈ pool n m ts l, laneOf m t = l ∧ t ∈ ts) := by
  refine ⟨fun p t => (offer_eq n hn m p t).1, fun p t q h => ?_, fun ts l => ?_⟩
  · obtain ⟨_, h2, h3⟩ := (offer_eq n hn m p t).2 q h
    refine ⟨by rw [h2]; simp, fun l u hu => ?_⟩
    by_cases e : l = laneOf m t
    · subst e; rw [h2]; exact List.mem_append_left _ hu
    · rw [h3 l e]; exact hu
  · have gen : ∀ (ts : List Tx) (p : Pool) (seen : List Tx),
        ((∀ k, room n l = some k → (p l).length ≤ k) ∧ ∀ t ∈ p l, laneOf m t = l ∧ t ∈ seen) →
        ((∀ k, room n l = some k → (ts.foldl (fun p t => (offer n m p t).getD p) p l).length ≤ k) ∧
          ∀ t ∈ ts.foldl (fun p t => (offer n m p t).getD p) p l, laneOf m t = l ∧ t ∈ seen ++ ts) := by
      intro ts
      induction ts with
      | nil => intro p seen h; simpa using h
      | cons x xs ih =>
        intro p seen h
        rw [List.foldl_cons, show seen ++ x :: xs = (seen ++ [x]) ++ xs by simp]
        refine ih _ _ ?_
        cases hx : offer n m p x with
        | none => exact ⟨h.1, fun t ht => ⟨(h.2 t ht).1, List.mem_append_left _ (h.2 t ht).2⟩⟩
        | some q =>
          obtain ⟨h1, h2, h3⟩ := (offer_eq n hn m p x).2 q hx
          simp only [Option.getD_some]
          by_cases e : l = laneOf m x
          · subst e
            rw [h2]
            refine ⟨fun k hk => by have := h1 k hk; simp; omega, fun t ht => ?_⟩
            rcases List.mem_append.mp ht with ht | ht
            · exact ⟨(h.2 t ht).1, List.mem_append_left _ (h.2 t ht).2⟩
            · rw [List.mem_singleton.mp ht]; exact ⟨rfl, by simp⟩
          · rw [h3 l e]
            exact ⟨h.1, fun t ht => ⟨(h.2 t ht).1, List.mem_append_left _ (h.2 t ht).2⟩⟩
    have := gen ts (fun _ => []) [] ⟨by simp, by simp⟩
    simpa [pool] using this

/-- A second oracle update is refused while the first waits; an ordinary transaction is not. -/
example : (offer 5000 ⟨fun t => decide (t.gas = 0), fun _ => false, fun _ => false⟩
      (pool 5000 ⟨fun t => decide (t.gas = 0), fun _ => false, fun _ => false⟩ [⟨1, 9, 0⟩]) ⟨2, 9, 0⟩).isNone = true ∧
    (offer 5000 ⟨fun t => decide (t.gas = 0), fun _ => false, fun _ => false⟩
      (pool 5000 ⟨fun t => decide (t.gas = 0), fun _ => false, fun _ => false⟩ [⟨1, 9, 0⟩]) ⟨2, 9, 1⟩).isNone = false := by
  decide

/-! ### C159 -/

/-- **C159 (large transactions, violated).** A transaction of more than seven tenths of the gas or the bytes of a block is
admitted to the mempool and can never be in a proposed block, whatever the lanes do. -/
theorem C159_large_violated (b : Block) (t : Tx) (g : Nat) (hg : b.maxGas = some g) (hs : t.size ≤ b.maxBytes) (h1 : t.gas ≤ g)
    (h : share 7 g < t.gas ∨ share 7 b.maxBytes < t.size) :
    admitted b t = true ∧ ∀ n select, t ∉ propose b n select := by
  refine ⟨by simp [admitted, hg, hs, h1], fun n select hm => ?_⟩
  obtain ⟨sys, mev, free, rest, e, _, _, _, _, ⟨a1, a2⟩, ⟨b1, b2⟩, ⟨c1, c2⟩, ⟨d1, d2⟩, _⟩ := C158_parts b n select
  have hgl : b.gasLimit = g := by simp [Block.gasLimit, hg]
  rw [hgl] at a2 b2 c2 d2
  rw [e] at hm
  simp only [share] at *
  have : (t.size ≤ 7 * b.maxBytes / 10) ∧ t.gas ≤ 7 * g / 10 := by
    rcases List.mem_append.mp hm with hm | hm
    · rcases List.mem_append.mp hm with hm | hm
      · rcases List.mem_append.mp hm with hm | hm
        · have := mem_bytes hm; have := mem_gas hm; exact ⟨by omega, by omega⟩
        · have := mem_bytes hm; have := mem_gas hm; exact ⟨by omega, by omega⟩
      · have := mem_bytes hm; have := mem_gas hm; exact ⟨by omega, by omega⟩
    · have := mem_bytes hm; have := mem_gas hm; exact ⟨by omega, by omega⟩
  omega

/-- **C159 (oracle updates and free transactions, violated).** An oracle update, a bid or a free transaction of more than a tenth of a
block is kept in its lane only, and is in no block if lanes propose only what they keep. -/
theorem C159_small_lane_violated (b : Block) (m : Matchers) (t : Tx) (g : Nat) (hg : b.maxGas = some g) (hs : t.size ≤ b.maxBytes)
    (h1 : t.gas ≤ g) (h : share 1 g < t.gas) (hm : laneOf m t ≠ "default") :
    admitted b t = true ∧ ∀ n select, (∀ l p, ∀ u ∈ select l p, laneOf m u = l.name) → t ∉ propose b n select := by
  refine ⟨by simp [admitted, hg, hs, h1], fun n select hsel hmem => ?_⟩
  obtain ⟨sys, mev, free, rest, e, q1, q2, q3, q4, ⟨_, a2⟩, ⟨_, b2⟩, ⟨_, c2⟩, _, _⟩ := C158_parts b n select
  have hgl : b.gasLimit = g := by simp [Block.gasLimit, hg]
  rw [hgl] at a2 b2 c2
  rw [e] at hmem
  rcases List.mem_append.mp hmem with hm' | hm'
  · rcases List.mem_append.mp hm' with hm' | hm'
    · rcases List.mem_append.mp hm' with hm' | hm'
      · have := mem_gas hm'; omega
      · have := mem_gas hm'; omega
    · have := mem_gas hm'; omega
  · rcases q4 with q | q
    · rw [q] at hm'
      exact hm (hsel _ _ t hm')
    · rw [q] at hm'; cases hm'

theorem mem_prepare (b : Block) (select : Lane → Proposal → List Tx) : ∀ (ls : List Lane) (q : Proposal) (u : Tx),
    u ∈ (prepare b select ls q).txs → u ∈ q.txs ∨ ∃ l ∈ ls, ∃ p, u ∈ select l p
  | [], q, u, h => .inl h
  | l :: ls, q, u, h => by
    rcases mem_prepare b select ls (update b l q (select l q)) u h with h | ⟨x, hx, p, h⟩
    · obtain ⟨took, ht, e, _⟩ := update_shape b l q (select l q)
      rw [e] at h
      rcases List.mem_append.mp h with h | h
      · exact .inl h
      · rcases ht with ht | ht
        · exact .inr ⟨l, List.mem_cons_self .., q, ht ▸ h⟩
        · rw [ht] at h; cases h
    · exact .inr ⟨x, List.mem_cons_of_mem _ hx, p, h⟩

/-- **C159 (what fits, exactly; partial: seven tenths of a block, or one, instead of a block).** A transaction can be in a proposed block
— lanes propose only what is theirs — exactly if its size and its gas are within the share of its lane: seven tenths of a block, one tenth
for oracle updates, bids and free transactions. If they are, then whatever the other lanes select, it is in the block as soon as its lane
proposes it alone. -/
theorem C159_fits_partial (b : Block) (m : Matchers) (t : Tx) (hid : ∀ u : Tx, u.hash = t.hash → u = t) (n : Int) (k : Nat)
    (hk : k = if laneOf m t = "default" then 7 else 1) :
    ((∃ select, (∀ l p, ∀ u ∈ select l p, laneOf m u = l.name) ∧ t ∈ propose b n select) ↔
      t.size ≤ share k b.maxBytes ∧ t.gas ≤ share k b.gasLimit) ∧
    (t.size ≤ share k b.maxBytes → t.gas ≤ share k b.gasLimit → ∀ select, (∀ l p, ∀ u ∈ select l p, laneOf m u = l.name) →
      (∀ l p, l.name = laneOf m t → select l p = [t]) → t ∈ propose b n select) := by
  have hcases : laneOf m t = "system" ∨ laneOf m t = "mev" ∨ laneOf m t = "free" ∨ laneOf m t = "default" := by
    unfold laneOf; cases m.oracle t <;> cases m.bid t <;> cases m.free t <;> simp
  have fits : t.size ≤ share k b.maxBytes → t.gas ≤ share k b.gasLimit → ∀ select, (∀ l p, ∀ u ∈ select l p, laneOf m u = l.name) →
      (∀ l p, l.name = laneOf m t → select l p = [t]) → t ∈ propose b n select := by
    intro h1 h2 select hsel hone
    have go : ∀ (before after : List Lane) (l : Lane), lanes n = before ++ l :: after → l.name = laneOf m t →
        (∀ x ∈ before, x.name ≠ laneOf m t) →
        (∀ p, limits b p l = (share k b.maxBytes, share k b.gasLimit)) → t ∈ propose b n select := by
      intro before after l hl hn hb hlim
      refine C158_share b n select before after l hl [t] (prepare b select before ⟨[]⟩) rfl (hone l _ hn) ?_ ?_ ?_ t (by simp)
      · rw [hlim]; simpa [bytesOf] using h1
      · rw [hlim]; simpa [gasOf] using h2
      · intro x hx u hu he
        simp only [List.mem_singleton] at hx
        subst hx
        have := hid u he
        subst this
        rcases mem_prepare b select before ⟨[]⟩ u hu with h | ⟨y, hy, p, h⟩
        · cases h
        · exact hb y hy (hsel y p u h).symm
    rcases hcases with e | e | e | e
    · rw [e, if_neg (by decide)] at hk; subst hk
      exact go [] [mevLane, freeLane, defaultLane n] systemLane rfl e.symm (by simp) fun p => limits_tenth b p _ (by simp)
    · rw [e, if_neg (by decide)] at hk; subst hk
      exact go [systemLane] [freeLane, defaultLane n] mevLane rfl e.symm (by simp [e, systemLane]) fun p => limits_tenth b p _ (by simp)
    · rw [e, if_neg (by decide)] at hk; subst hk
      exact go [systemLane, mevLane] [defaultLane n] freeLane rfl e.symm (by simp [e, systemLane, mevLane])
        fun p => limits_tenth b p _ (by simp)
    · rw [e, if_pos rfl] at hk; subst hk
      exact go [systemLane, mevLane, freeLane] [] (defaultLane n) rfl e.symm (by simp [e, systemLane, mevLane, freeLane])
        fun p => limits_rest b p n
  refine ⟨⟨?_, ?_⟩, fits⟩
  · rintro ⟨select, hsel, hmem⟩
    obtain ⟨sys, mev, free, rest, e, q1, q2, q3, q4, ⟨a1, a2⟩, ⟨b1, b2⟩, ⟨c1, c2⟩, ⟨d1, d2⟩, _⟩ := C158_parts b n select
    have small : ∀ part : List Tx, ∀ l : Lane, ∀ p, (part = select l p ∨ part = []) → t ∈ part → laneOf m t = l.name := by
      intro part l p h ht
      rcases h with h | h
      · exact hsel l p t (h ▸ ht)
      · rw [h] at ht; cases ht
    rw [e] at hmem
    simp only [List.mem_append, or_assoc] at hmem
    rcases hmem with h | h | h | h
    · have hl := small sys systemLane _ q1 h
      rw [hl, if_neg (by decide)] at hk; subst hk
      exact ⟨Nat.le_trans (mem_bytes h) a1, Nat.le_trans (mem_gas h) a2⟩
    · have hl := small mev mevLane _ q2 h
      rw [hl, if_neg (by decide)] at hk; subst hk
      exact ⟨Nat.le_trans (mem_bytes h) b1, Nat.le_trans (mem_gas h) b2⟩
    · have hl := small free freeLane _ q3 h
      rw [hl, if_neg (by decide)] at hk; subst hk
      exact ⟨Nat.le_trans (mem_bytes h) c1, Nat.le_trans (mem_gas h) c2⟩
    · have hl := small rest (defaultLane n) _ q4 h
      rw [hl, if_pos (by rfl)] at hk; subst hk
      exact ⟨Nat.le_trans (mem_bytes h) d1, Nat.le_trans (mem_gas h) d2⟩
  · rintro ⟨h1, h2⟩
    refine ⟨fun l _ => if l.name = laneOf m t then [t] else [], ?_, ?_⟩
    · intro l p u hu
      dsimp only at hu
      by_cases h : l.name = laneOf m t
      · rw [if_pos h] at hu
        simp only [List.mem_singleton] at hu
        rw [hu]; exact h.symm
      · rw [if_neg h] at hu; cases hu
    · refine fits h1 h2 _ ?_ ?_
      · intro l p u hu
        by_cases h : l.name = laneOf m t
        · rw [if_pos h] at hu
          simp only [List.mem_singleton] at hu
          rw [hu]; exact h.symm
        · rw [if_neg h] at hu; cases hu
      · intro l p h; rw [if_pos h]

/-- A contract call of 70 of 100 gas fits, one of 71 does not (sizes are small). -/
example : 70 ≤ share 7 100 ∧ ¬ 71 ≤ share 7 100 ∧ 10 ≤ share 1 100 ∧ ¬ 11 ≤ share 1 100 := by decide

/-- **C159 (idle space, violated).** With no oracle updates, bids or free transactions, at least three tenths of every block stay
empty, however many transactions wait. -/
theorem C159_idle_violated (b : Block) (n : Int) (select : Lane → Proposal → List Tx)
    (h : ∀ l ∈ [systemLane, mevLane, freeLane], ∀ p, select l p = []) :
    bytesOf (propose b n select) ≤ 7 * b.maxBytes / 10 ∧ gasOf (propose b n select) ≤ 7 * b.gasLimit / 10 := by
  obtain ⟨sys, mev, free, rest, e, q1, q2, q3, q4, _, _, _, ⟨d1, d2⟩, _⟩ := C158_parts b n select
  have hs : sys = [] := by rcases q1 with q | q <;> rw [q]; exact h _ (by simp) _
  have hm : mev = [] := by rcases q2 with q | q <;> rw [q]; exact h _ (by simp) _
  have hf : free = [] := by rcases q3 with q | q <;> rw [q]; exact h _ (by simp) _
  rw [e, hs, hm, hf]
  exact ⟨d1, d2⟩

/-- **C159 (mempool switched off, violated).** With a negative `mempool.max-txs`, cosmos-sdk's way to leave the mempool to
CometBFT, every ordinary transaction is accepted and forgotten: whatever was offered, it is in no block if lanes propose only what they
keep. -/
theorem C159_disabled_violated (n : Int) (hn : n < 0) (m : Matchers) (t : Tx) (ht : laneOf m t = "default") :
    (∀ p, (offer n m p t).isSome = true) ∧
    ∀ b ts select, (∀ l p, ∀ u ∈ select l p, u ∈ pool n m ts l.name) → t ∉ propose b n select := by
  have hd : ∀ p u, laneOf m u = "default" → ∃ q, offer n m p u = some q ∧ ∀ l, q l = p l := by
    intro p u hu
    refine ⟨fun x => if x = "default" then p "default" else p x, ?_, fun l => by by_cases h : l = "default" <;> simp [h]⟩
    unfold offer
    rw [show (lanes n).find? (fun l => l.name == laneOf m u) = some (defaultLane n) by rw [hu]; rfl]
    have hi : insertLane (defaultLane n) (p "default") u = some (p "default") := by
      unfold insertLane
      rw [show (defaultLane n).maxTxs = n from rfl, if_neg (by omega), if_pos hn]
    show (insertLane (defaultLane n) (p "default") u).map _ = _
    rw [hi]
    rfl
  have belongs : ∀ (ts : List Tx) (p : Pool), (p "default" = [] ∧ ∀ l, ∀ u ∈ p l, laneOf m u = l) →
      (∀ l, ∀ u ∈ ts.foldl (fun p t => (offer n m p t).getD p) p l, laneOf m u = l) ∧
      ts.foldl (fun p t => (offer n m p t).getD p) p "default" = [] := by
    intro ts
    induction ts with
    | nil => intro p h; exact ⟨h.2, h.1⟩
    | cons x xs ih =>
      intro p h
      rw [List.foldl_cons]
      apply ih
      by_cases hx : laneOf m x = "default"
      · obtain ⟨q, e1, e2⟩ := hd p x hx
        rw [e1]; simp only [Option.getD_some]
        exact ⟨by rw [e2]; exact h.1, fun l u hu => h.2 l u (by rw [← e2]; exact hu)⟩
      · unfold offer
        cases hf : (lanes n).find? (fun l => l.name == laneOf m x) with
        | none => exact h
        | some l =>
          have hl : l.name = laneOf m x := by simpa using List.find?_some hf
          cases hi : insertLane l (p l.name) x with
          | none => simp [hi]; exact h
          | some kept =>
            have hk : ∀ u ∈ kept, laneOf m u = l.name := by
              intro u hu
              unfold insertLane at hi
              split at hi
              · cases hi
              · split at hi
                · cases hi; exact h.2 _ u hu
                · cases hi
                  rcases List.mem_append.mp hu with hu | hu
                  · exact h.2 _ u hu
                  · rw [List.mem_singleton.mp hu, hl]
            simp only [hi, Option.map_some, Option.getD_some]
            refine ⟨by rw [if_neg (by rw [hl]; exact fun e => hx e.symm)]; exact h.1, fun y u hu => ?_⟩
            by_cases hy : y = l.name
            · rw [if_pos hy] at hu; rw [hy]; exact hk u hu
            · rw [if_neg hy] at hu; exact h.2 y u hu
  refine ⟨fun p => by obtain ⟨q, e, _⟩ := hd p t ht; rw [e]; rfl, fun b ts select hs hm => ?_⟩
  obtain ⟨hb1, hb2⟩ := belongs ts (fun _ => []) ⟨rfl, by simp⟩
  have hno : ∀ l p, t ∉ select l p := by
    intro l p h
    have h1 := hs l p t h
    have h2 : laneOf m t = l.name := hb1 _ _ h1
    rw [← h2, ht] at h1
    have h3 : pool n m ts "default" = [] := hb2
    rw [h3] at h1
    cases h1
  obtain ⟨sys, mev, free, rest, e, q1, q2, q3, q4, _⟩ := C158_parts b n select
  rw [e] at hm
  simp only [List.mem_append] at hm
  rcases hm with ((hm | hm) | hm) | hm
  · rcases q1 with q | q <;> rw [q] at hm <;> first | exact hno _ _ hm | cases hm
  · rcases q2 with q | q <;> rw [q] at hm <;> first | exact hno _ _ hm | cases hm
  · rcases q3 with q | q <;> rw [q] at hm <;> first | exact hno _ _ hm | cases hm
  · rcases q4 with q | q <;> rw [q] at hm <;> first | exact hno _ _ hm | cases hm

/-- A node whose default lane takes what it has, with an oracle update in front. -/
def toySelect (l : Lane) (_ : Proposal) : List Tx :=
  if l.name = "system" then [⟨1, 50, 1000⟩] else if l.name = "default" then [⟨2, 300, 50000⟩, ⟨3, 300, 20000⟩] else []

example : propose ⟨1000, some 100000⟩ 5000 toySelect = [⟨1, 50, 1000⟩, ⟨2, 300, 50000⟩, ⟨3, 300, 20000⟩] := by decide
/-- One gas more, and the default lane's selection is dropped. -/
example : propose ⟨1000, some 99999⟩ 5000 toySelect = [⟨1, 50, 1000⟩] := by decide
/-- The hypotheses of `C158_share` for the default lane. -/
example : ∀ t ∈ [(⟨2, 300, 50000⟩ : Tx), ⟨3, 300, 20000⟩], t ∈ propose ⟨1000, some 100000⟩ 5000 toySelect :=
  C158_share ⟨1000, some 100000⟩ 5000 toySelect [systemLane, mevLane, freeLane] [] (defaultLane 5000) rfl _ _ rfl rfl
    (by decide) (by decide) (by decide)
/-- A transaction of 75 % of the gas. -/
example : admitted ⟨1000, some 100000⟩ ⟨9, 200, 75000⟩ = true ∧ ∀ n select, (⟨9, 200, 75000⟩ : Tx) ∉ propose ⟨1000, some 100000⟩ n select :=
  C159_large_violated _ _ 100000 rfl (by decide) (by decide) (.inl (by decide))
/-- An oracle update of 11 %. -/
example : ∀ n select, (∀ l p, ∀ u ∈ select l p, laneOf ⟨fun t => t.hash == 9, fun _ => false, fun _ => false⟩ u = l.name) →
    (⟨9, 50, 11000⟩ : Tx) ∉ propose ⟨1000, some 100000⟩ n select :=
  (C159_small_lane_violated ⟨1000, some 100000⟩ _ ⟨9, 50, 11000⟩ 100000 rfl (by decide) (by decide) (by decide) (by decide)).2

end Verif.Props.Lanes
