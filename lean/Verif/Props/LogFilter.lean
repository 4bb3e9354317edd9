import Verif.Model.LogFilter
import Verif.Props.BlockTag
/-
C40: a log query returns exactly the matching logs.
-/
namespace Verif.LogFilter
open Verif Verif.Indexer Verif.BlockTag

variable {T E S : Type}

/-! ### Specification -/

/-- A log satisfies the criteria: its address is one of the given ones (none given: any), it has at least as many topics as
there are positions in the criteria, and at each position the topic is one of the given ones (none given: any). -/
def Matches (c : Crit) (l : RawLog) : Prop :=
  (c.addresses = [] ∨ l.addr ∈ c.addresses) ∧ c.topics.length ≤ l.topics.length ∧
  ∀ p ∈ c.topics.zip l.topics, p.1 = [] ∨ p.2 ∈ p.1

instance (c : Crit) (l : RawLog) : Decidable (Matches c l) := by unfold Matches; infer_instance

/-- The block a bound of the range means: a name is the head, 0 is block 1. -/
def meant (head : Nat) (k : Option Int) : Nat :=
  match k with
  | none => head
  | some k => if k < 0 then head else if k = 0 then 1 else k.toNat

/-- A chain of `head` blocks, all of which could be indexed. -/
structure Chain (env : Env T E) (blk : Nat → Block) (head : Nat) : Prop where
  height : ∀ h, (blk h).height = h
  distinct : Distinct env ((List.range' 1 head).map blk)
  indexable : ∀ h, 1 ≤ h → h ≤ head → Indexable env (blk h).txs

/-- The index of the chain. -/
def Chain.ix (env : Env T E) (blk : Nat → Block) (head : Nat) : Index E := indexAll env ((List.range' 1 head).map blk)

/-- The matching logs of one block, in order; `ix` gives the block's hash. -/
def blockMatches (env : Env T E) (ix : Index E) (c : Crit) (b : Block) : List Log :=
  match ix.headers b.height with
  | none => []
  | some p => (expectedLogs env (env.headerHash p) b 1).filter (fun l => decide (Matches c l.raw))

/-! ### Bloom -/

theorem has_add_mono {bits : Bytes → List Nat} {b : Bloom} {v w : Bytes} (h : b.has bits v = true) : (b.add bits w).has bits v = true := by
  simp only [Bloom.has, List.all_eq_true, Bloom.add, Bool.or_eq_true] at h ⊢
  exact fun x hx => Or.inl (h x hx)

theorem has_add_same (bits : Bytes → List Nat) (b : Bloom) (v : Bytes) : (b.add bits v).has bits v = true := by
  simp only [Bloom.has, List.all_eq_true, Bloom.add, Bool.or_eq_true]
  exact fun x hx => Or.inr (by simpa using hx)

theorem has_topics_mono {bits : Bytes → List Nat} {v : Bytes} : ∀ (ts : List Hash) (b : Bloom), b.has bits v = true →
    Bloom.has bits (ts.foldl (fun b t => b.add bits t.bytes) b) v = true
  | [], _, h => h
  | _ :: ts, _, h => has_topics_mono ts _ (has_add_mono h)

theorem has_topics {bits : Bytes → List Nat} {t : Hash} : ∀ (ts : List Hash) (b : Bloom), t ∈ ts →
    Bloom.has bits (ts.foldl (fun b t => b.add bits t.bytes) b) t.bytes = true
  | [], _, h => by cases h
  | x :: ts, b, h => by
    rw [List.foldl_cons]
    rcases List.mem_cons.1 h with rfl | h
    · exact has_topics_mono ts _ (has_add_same bits b t.bytes)
    · exact has_topics ts _ h

theorem has_log_mono {bits : Bytes → List Nat} {v : Bytes} (l : RawLog) (b : Bloom) (h : b.has bits v = true) : (addLog bits b l).has bits v = true :=
  has_topics_mono _ _ (has_add_mono h)

theorem has_log {bits : Bytes → List Nat} (l : RawLog) (b : Bloom) : (addLog bits b l).has bits l.addr.bytes = true ∧
    ∀ t ∈ l.topics, (addLog bits b l).has bits t.bytes = true :=
  ⟨has_topics_mono _ _ (has_add_same bits b _), fun _ ht => has_topics _ _ ht⟩

theorem has_logs_mono {bits : Bytes → List Nat} {v : Bytes} : ∀ (ls : List RawLog) (b : Bloom), b.has bits v = true →
    Bloom.has bits (ls.foldl (addLog bits) b) v = true
  | [], _, h => h
  | l :: ls, b, h => has_logs_mono ls _ (has_log_mono l b h)

theorem has_logs {bits : Bytes → List Nat} {l : RawLog} : ∀ (ls : List RawLog) (b : Bloom), l ∈ ls →
    Bloom.has bits (ls.foldl (addLog bits) b) l.addr.bytes = true ∧ ∀ t ∈ l.topics, Bloom.has bits (ls.foldl (addLog bits) b) t.bytes = true
  | [], _, h => by cases h
  | x :: ls, b, h => by
    rw [List.foldl_cons]
    rcases List.mem_cons.1 h with rfl | h
    · exact ⟨has_logs_mono ls _ (has_log l b).1, fun t ht => has_logs_mono ls _ ((has_log l b).2 t ht)⟩
    · exact has_logs ls _ h

theorem has_receipts_mono {bits : Bytes → List Nat} {v : Bytes} : ∀ (rs : List Receipt) (b : Bloom), b.has bits v = true →
    Bloom.has bits (rs.foldl (fun b r => r.logs.foldl (addLog bits) b) b) v = true
  | [], _, h => h
  | r :: rs, b, h => has_receipts_mono rs _ (has_logs_mono r.logs b h)

theorem has_receipts {bits : Bytes → List Nat} {l : RawLog} : ∀ (rs : List Receipt) (b : Bloom), (∃ r ∈ rs, l ∈ r.logs) →
    Bloom.has bits (rs.foldl (fun b r => r.logs.foldl (addLog bits) b) b) l.addr.bytes = true ∧
    ∀ t ∈ l.topics, Bloom.has bits (rs.foldl (fun b r => r.logs.foldl (addLog bits) b) b) t.bytes = true
  | [], _, h => by obtain ⟨_, h, _⟩ := h; cases h
  | x :: rs, b, h => by
    rw [List.foldl_cons]
    obtain ⟨r, hr, hl⟩ := h
    rcases List.mem_cons.1 hr with rfl | hr
    · have := has_logs (bits := bits) r.logs b hl
      exact ⟨has_receipts_mono rs _ this.1, fun t ht => has_receipts_mono rs _ (this.2 t ht)⟩
    · exact has_receipts rs _ ⟨r, hr, hl⟩

/-- C40: the bloom of a header never hides a log: if some receipt of the block has a matching log, the block is looked at. For
every way of choosing bloom bits. -/
theorem C40_bloom (bits : Bytes → List Nat) (c : Crit) (rs : List Receipt) (r : Receipt) (hr : r ∈ rs) (l : RawLog) (hl : l ∈ r.logs)
    (hm : Matches c l) : bloomFilter bits (createBloom bits rs) c.addresses c.topics = true := by
  obtain ⟨h1, h2⟩ := has_receipts (bits := bits) rs (fun _ => false) ⟨r, hr, hl⟩
  obtain ⟨m1, m2, m3⟩ := hm
  simp only [bloomFilter, Bool.and_eq_true, Bool.or_eq_true, List.any_eq_true, List.all_eq_true, List.isEmpty_iff]
  refine ⟨?_, fun sub hsub => ?_⟩
  · rcases m1 with m1 | m1
    · exact Or.inl m1
    · exact Or.inr ⟨_, m1, h1⟩
  · obtain ⟨i, hi, hs⟩ := List.mem_iff_getElem.1 hsub
    have hi2 : i < l.topics.length := by omega
    have hz : (sub, l.topics[i]) ∈ c.topics.zip l.topics := by
      refine List.mem_iff_getElem.2 ⟨i, by simp; omega, ?_⟩
      simp [hs]
    rcases m3 _ hz with h | h
    · exact Or.inl h
    · exact Or.inr ⟨_, h, h2 _ (List.getElem_mem _)⟩

/-! ### Filter -/

theorem includes_iff {α : Type} [DecidableEq α] : ∀ (l : List α) (x : α), includes l x = true ↔ x ∈ l
  | [], x => by simp [includes]
  | y :: l, x => by
    simp only [includes]
    split
    · next h => simp [h]
    · next h =>
      rw [includes_iff l x, List.mem_cons]
      constructor
      · exact Or.inr
      · rintro (rfl | h')
        · exact absurd rfl h
        · exact h'

theorem topicsOk_iff : ∀ (ts : List (List Hash)) (lt : List Hash), ts.length ≤ lt.length →
    (topicsOk ts lt = true ↔ ∀ p ∈ ts.zip lt, p.1 = [] ∨ p.2 ∈ p.1)
  | [], lt, _ => by simp [topicsOk]
  | sub :: ts, [], h => by simp at h
  | sub :: ts, t :: lt, h => by
    have ih := topicsOk_iff ts lt (by simpa using h)
    simp only [topicsOk, List.zip_cons_cons, List.mem_cons, forall_eq_or_imp, List.isEmpty_iff]
    by_cases hs : sub = []
    · rw [if_pos hs, ih]; simp [hs]
    · rw [if_neg hs]
      by_cases hi : includes sub t = true
      · rw [if_pos hi, ih]; simp [(includes_iff sub t).1 hi]
      · rw [if_neg hi]
        simp only [Bool.false_eq_true, false_iff, not_and]
        intro h'
        rcases h' with h' | h'
        · exact absurd h' hs
        · exact absurd ((includes_iff sub t).2 h') hi

/-- The filter of the code is the specification. -/
theorem check_iff (c : Crit) (l : Log) : check none none c.addresses c.topics l = decide (Matches c l.raw) := by
  rw [Bool.eq_iff_iff, decide_eq_true_iff]
  unfold check Matches
  simp only [Bool.false_eq_true, if_false]
  by_cases ha : (c.addresses.length > 0 && !includes c.addresses l.raw.addr) = true
  · rw [if_pos ha]
    simp only [Bool.false_eq_true, false_iff, not_and, Bool.and_eq_true, decide_eq_true_eq, Bool.not_eq_true'] at ha ⊢
    intro h
    exfalso
    rcases h with h | h
    · rw [h] at ha; simp at ha
    · rw [(includes_iff _ _).2 h] at ha; simp at ha
  · rw [if_neg ha]
    have ha' : c.addresses = [] ∨ l.raw.addr ∈ c.addresses := by
      simp only [Bool.and_eq_true, decide_eq_true_eq, Bool.not_eq_true', not_and, Bool.not_eq_false] at ha
      rcases Nat.eq_zero_or_pos c.addresses.length with h | h
      · exact Or.inl (List.length_eq_zero_iff.1 h)
      · exact Or.inr ((includes_iff _ _).1 (ha h))
    by_cases ht : c.topics.length > l.raw.topics.length
    · rw [if_pos ht]; simp only [Bool.false_eq_true, false_iff]; rintro ⟨_, h, _⟩; omega
    · rw [if_neg ht, topicsOk_iff _ _ (by omega)]
      exact ⟨fun h => ⟨ha', by omega, h⟩, fun h => h.2.2⟩

/-- The log's block is in the range of the criteria; a bound that is absent or a name (negative) does not restrict. -/
def InRange (c : Crit) (l : Log) : Prop :=
  (∀ f, c.fromBlock = some f → 0 ≤ f → f ≤ (l.blockNumber : Int)) ∧ (∀ t, c.toBlock = some t → 0 ≤ t → (l.blockNumber : Int) ≤ t)

instance (c : Crit) (l : Log) : Decidable (InRange c l) :=
  decidable_of_iff ((c.fromBlock.all fun f => decide (0 ≤ f → f ≤ (l.blockNumber : Int))) = true ∧
      (c.toBlock.all fun t => decide (0 ≤ t → (l.blockNumber : Int) ≤ t)) = true) (by
    unfold InRange
    cases c.fromBlock <;> cases c.toBlock <;> simp <;> omega)

/-- The filter of live filters and subscriptions, which also looks at the range. -/
theorem check_range (c : Crit) (l : Log) :
    check c.fromBlock c.toBlock c.addresses c.topics l = true ↔ InRange c l ∧ Matches c l.raw := by
  have h0 := check_iff c l
  have hsplit : check c.fromBlock c.toBlock c.addresses c.topics l = true ↔
      InRange c l ∧ check none none c.addresses c.topics l = true := by
    unfold check InRange
    simp only [Bool.false_eq_true, if_false]
    cases hf : c.fromBlock with
    | none =>
      cases ht : c.toBlock with
      | none => simp
      | some t =>
        simp only [Bool.false_eq_true, if_false]
        by_cases g : (decide (t ≥ 0) && decide (t.toNat < l.blockNumber)) = true
        · rw [if_pos g]
          simp only [Bool.and_eq_true, decide_eq_true_eq] at g
          simp only [Bool.false_eq_true, false_iff, not_and]
          rintro ⟨_, h⟩
          have := h t rfl g.1
          omega
        · rw [if_neg g]
          simp only [Bool.and_eq_true, decide_eq_true_eq, not_and] at g
          constructor
          · intro h; exact ⟨⟨nofun, fun t' e h' => by cases e; have := g h'; omega⟩, h⟩
          · exact fun h => h.2
    | some f =>
      simp only
      by_cases gf : (decide (f ≥ 0) && decide (f.toNat > l.blockNumber)) = true
      · rw [if_pos gf]
        simp only [Bool.and_eq_true, decide_eq_true_eq] at gf
        simp only [Bool.false_eq_true, false_iff, not_and]
        rintro ⟨h, _⟩
        have := h f rfl gf.1
        omega
      · rw [if_neg gf]
        simp only [Bool.and_eq_true, decide_eq_true_eq, not_and] at gf
        cases ht : c.toBlock with
        | none =>
          simp only [Bool.false_eq_true, if_false]
          constructor
          · intro h; exact ⟨⟨fun f' e h' => by cases e; have := gf h'; omega, nofun⟩, h⟩
          · exact fun h => h.2
        | some t =>
          simp only
          by_cases g : (decide (t ≥ 0) && decide (t.toNat < l.blockNumber)) = true
          · rw [if_pos g]
            simp only [Bool.and_eq_true, decide_eq_true_eq] at g
            simp only [Bool.false_eq_true, false_iff, not_and]
            rintro ⟨_, h⟩
            have := h t rfl g.1
            omega
          · rw [if_neg g]
            simp only [Bool.and_eq_true, decide_eq_true_eq, not_and] at g
            constructor
            · intro h
              exact ⟨⟨fun f' e h' => by cases e; have := gf h'; omega, fun t' e h' => by cases e; have := g h'; omega⟩, h⟩
            · exact fun h => h.2
  rw [hsplit, h0, decide_eq_true_iff]

/-! ### One block -/

/-- the logs of the receipts in the header -/
theorem mk_logs (env : Env T E) : ∀ (l : List (E × Bytes × Result)) (n cum : Nat), (mk env l n cum).map (fun x => x.2.logs) = l.map (fun y => logsOf env y.1 y.2.2)
  | [], _, _ => rfl
  | (e, raw, res) :: l, n, cum => by
    simp only [mk, List.map_cons, mk_logs env l, logsOf, extractLogs]
    congr 1
    cases res.ok with
    | true => cases h : env.unpack res.data (env.isCreate e) <;> simp [h]
    | false => simp

theorem index_header_receipts (env : Env T E) (ix : Index E) (b : Block) (hi : Indexable env b.txs) :
    ∃ hd, (index env ix b).2.headers b.height = some hd ∧ hd.number = b.height ∧ hd.receipts.map (·.logs) = (eths env b.txs).map (fun y => logsOf env y.1 y.2.2) := by
  have hcol := collect_ok env b.txs 0 0 ix hi
  have hok : (collect env b.txs 0 0 ix).1 = true := by rw [hcol]
  refine ⟨mkHeader env b.height (collect env b.txs 0 0 ix).2.1 (collect env b.txs 0 0 ix).2.2, ?_, rfl, ?_⟩
  · simp only [index, hok, if_true, upd]
  · simp only [mkHeader, hcol]
    rw [List.map_map]
    exact mk_logs env _ 0 0

/-- the stored header of a block of a chain -/
theorem chain_header (env : Env T E) (bs : List Block) (hn : (bs.map (·.height)).Nodup) (b : Block) (hb : b ∈ bs) (hi : Indexable env b.txs) :
    ∃ hd, (indexAll env bs).headers b.height = some hd ∧ hd.number = b.height ∧ hd.receipts.map (·.logs) = (eths env b.txs).map (fun y => logsOf env y.1 y.2.2) := by
  obtain ⟨pre, post, rfl⟩ := List.append_of_mem hb
  obtain ⟨hd, h1, h2, h3⟩ := index_header_receipts env (indexAll env pre) b hi
  refine ⟨hd, ?_, h2, h3⟩
  have : indexAll env (pre ++ b :: post) = post.foldl (fun ix b => (index env ix b).2) (index env (indexAll env pre) b).2 := by
    simp only [indexAll, List.foldl_append, List.foldl_cons]
  rw [this, fold_headers env post _ _ ?_]
  · exact h1
  · intro x hx heq
    simp only [List.map_append, List.map_cons, List.nodup_append, List.nodup_cons] at hn
    exact hn.2.1.1 (List.mem_map.2 ⟨x, hx, heq⟩)

/-- One block: exactly its matching logs, for every choice of bloom bits. -/
theorem blockLogs_eq (bits : Bytes → List Nat) (env : Env T E) (bs : List Block) (hd : Distinct env bs) (c : Crit) (b : Block) (hb : b ∈ bs)
    (hi : Indexable env b.txs) : ∃ p, (indexAll env bs).headers b.height = some p ∧ p.number = b.height ∧
      blockLogs bits env (indexAll env bs) c p = some (blockMatches env (indexAll env bs) c b) := by
  obtain ⟨p, h1, h2, h3⟩ := chain_header env bs hd.heights b hb hi
  obtain ⟨p', logs, g1, g2, g3, _⟩ := C39_partial env bs hd b hb hi
  have hpp : p' = p := by rw [h1] at g1; exact (Option.some.inj g1).symm
  subst hpp
  refine ⟨p', h1, h2, ?_⟩
  simp only [blockLogs, blockMatches, h1, h2, g2, Option.map_some, filterLogs]
  have hf : logs.filter (check none none c.addresses c.topics) = logs.filter (fun l => decide (Matches c l.raw)) := by
    congr 1; funext l; exact check_iff c l
  split
  · rw [hf, g3]
  · next hbl =>
    congr 1
    symm
    rw [List.filter_eq_nil_iff]
    intro l hl
    rw [decide_eq_true_iff]
    intro hm
    apply hbl
    simp only [expectedLogs, List.mem_flatMap, List.mem_map] at hl
    obtain ⟨x, hx, y, hy, rfl⟩ := hl
    have hmem : logsOf env x.1.1 x.1.2.2 ∈ p'.receipts.map (·.logs) := by
      rw [h3]
      have : x.1 ∈ eths env b.txs := by
        have := List.mem_zipIdx_iff_getElem?.1 hx
        exact List.mem_of_getElem? this
      exact List.mem_map.2 ⟨x.1, this, rfl⟩
    obtain ⟨r, hr, hrl⟩ := List.mem_map.1 hmem
    refine C40_bloom bits c p'.receipts r hr y.1 ?_ hm
    rw [hrl]
    have := List.mem_zipIdx_iff_getElem?.1 hy
    exact List.mem_of_getElem? this

/-! ### Ranges -/

theorem chain_mem {blk : Nat → Block} {head h : Nat} (h1 : 1 ≤ h) (h2 : h ≤ head) : blk h ∈ (List.range' 1 head).map blk :=
  List.mem_map.2 ⟨h, by rw [List.mem_range'_1]; omega, rfl⟩

theorem header_at (n : Node E S) (b : Nat) (h : 1 ≤ b) : getHeaderByNumber n n b = (match n.ix.headers b with | some p => .val p | none => .null) := by
  have hr : resolveBlockNr n (b : Int) = b := by
    unfold resolveBlockNr; rw [if_neg (by omega), if_neg (by omega)]; simp
  unfold getHeaderByNumber; rw [hr]
  cases n.ix.headers b <;> rfl

theorem walk_eq (bits : Bytes → List Nat) (env : Env T E) (blk : Nat → Block) (head : Nat) (hc : Chain env blk head) (n : Node E S)
    (hn : n.ix = Chain.ix env blk head) (c : Crit) : ∀ (k b : Nat), 1 ≤ b → b + k ≤ head + 1 →
    walk bits env n c k b = some ((List.range' b k).flatMap (fun h => blockMatches env n.ix c (blk h)))
  | 0, _, _, _ => rfl
  | k + 1, b, h1, h2 => by
    obtain ⟨p, g1, g2, g3⟩ := blockLogs_eq bits env _ hc.distinct c (blk b) (chain_mem h1 (by omega)) (hc.indexable b h1 (by omega))
    rw [hc.height] at g1
    have g1' : n.ix.headers b = some p := by rw [hn]; exact g1
    simp only [walk]
    rw [header_at n b h1, g1']
    dsimp only
    have g3' : blockLogs bits env n.ix c p = some (blockMatches env n.ix c (blk b)) := by rw [hn]; exact g3
    rw [g3', walk_eq bits env blk head hc n hn c k (b + 1) (by omega) (by omega)]
    simp only [Option.map_some, List.range'_succ, List.flatMap_cons]

/-- C40: on a chain whose blocks were all indexed, a range query returns the matching logs of the blocks of the range, block by
block in order and in log order within a block; a range whose end is before its start is refused; blocks after the head have
no logs. For every choice of bloom bits. -/
theorem C40_partial (bits : Bytes → List Nat) (env : Env T E) (blk : Nat → Block) (head : Nat) (hpos : 1 ≤ head) (hc : Chain env blk head)
    (n : Node E S) (hn : n.ix = Chain.ix env blk head) (hh : n.head = head) (c : Crit) (hb : c.blockHash = none) (ht : c.topics.length ≤ 4) :
    (meant head c.toBlock < meant head c.fromBlock → getLogs bits env n c = .err) ∧
    (meant head c.fromBlock ≤ meant head c.toBlock →
      getLogs bits env n c = .val ((List.range' (meant head c.fromBlock) (min (meant head c.toBlock) head + 1 - meant head c.fromBlock)).flatMap
        (fun h => blockMatches env n.ix c (blk h)))) := by
  obtain ⟨p, g1, g2, _⟩ := blockLogs_eq bits env _ hc.distinct c (blk head) (chain_mem hpos (Nat.le_refl _)) (hc.indexable head hpos (Nat.le_refl _))
  rw [hc.height] at g1 g2
  have hhd : getHeaderByNumber n n (-2) = .val p := by
    unfold getHeaderByNumber resolveBlockNr
    rw [if_pos (by omega), hh, hn]
    have : (Chain.ix env blk head).headers head = some p := g1
    rw [this]
  have hbnd : ∀ k : Option Int, bound (head : Int) (k.getD (-2)) = (meant head k : Nat) ∧ 1 ≤ meant head k := by
    intro k
    cases k with
    | none => exact ⟨rfl, hpos⟩
    | some k =>
      simp only [Option.getD_some, bound, meant]
      split
      · exact ⟨rfl, hpos⟩
      · split
        · exact ⟨rfl, Nat.le_refl _⟩
        · constructor <;> omega
  obtain ⟨hf, hf1⟩ := hbnd c.fromBlock
  obtain ⟨hto, hto1⟩ := hbnd c.toBlock
  have hguard : (c.fromBlock.getD (-2) > 0 ∧ c.toBlock.getD (-2) > 0 ∧ c.fromBlock.getD (-2) > c.toBlock.getD (-2)) → meant head c.toBlock < meant head c.fromBlock := by
    rintro ⟨a1, a2, a3⟩
    have e1 : bound (head : Int) (c.fromBlock.getD (-2)) = c.fromBlock.getD (-2) := by unfold bound; rw [if_neg (by omega), if_neg (by omega)]
    have e2 : bound (head : Int) (c.toBlock.getD (-2)) = c.toBlock.getD (-2) := by unfold bound; rw [if_neg (by omega), if_neg (by omega)]
    omega
  have hrange : rangeLogs bits env n c (c.fromBlock.getD (-2)) (c.toBlock.getD (-2)) =
      if (meant head c.toBlock : Int) < (meant head c.fromBlock : Int) then .err
      else if (meant head c.fromBlock : Int) > (head : Int) then .val []
      else match walk bits env n c ((if (meant head c.toBlock : Int) > (head : Int) then (head : Int) else (meant head c.toBlock : Int)) + 1 - (meant head c.fromBlock : Int)).toNat
        (meant head c.fromBlock : Int).toNat with | none => .err | some l => .val l := by
    unfold rangeLogs
    rw [hhd]
    simp only [g2, hf, hto]
    rfl
  have hget : getLogs bits env n c = if (c.fromBlock.getD (-2) > 0 ∧ c.toBlock.getD (-2) > 0 ∧ c.fromBlock.getD (-2) > c.toBlock.getD (-2)) then .err
      else rangeLogs bits env n c (c.fromBlock.getD (-2)) (c.toBlock.getD (-2)) := by
    unfold getLogs
    rw [if_neg (by omega), hb]
    rfl
  refine ⟨fun hlt => ?_, fun hle => ?_⟩
  · rw [hget]
    split
    · rfl
    · rw [hrange, if_pos (by omega)]
  · rw [hget, if_neg (fun h => by have := hguard h; omega), hrange, if_neg (by omega)]
    by_cases hgt : meant head c.fromBlock > head
    · rw [if_pos (by omega)]
      rw [show min (meant head c.toBlock) head + 1 - meant head c.fromBlock = 0 by omega]
      rfl
    · rw [if_neg (by omega)]
      have e1 : ((if (meant head c.toBlock : Int) > (head : Int) then (head : Int) else (meant head c.toBlock : Int)) + 1 - (meant head c.fromBlock : Int)).toNat =
          min (meant head c.toBlock) head + 1 - meant head c.fromBlock := by
        split <;> omega
      rw [e1, Int.toNat_natCast, walk_eq bits env blk head hc n hn c _ _ hf1 (by omega)]

/-- C40: a query by block hash returns the matching logs of that block, as long as no two stored headers have the same hash. -/
theorem C40_by_hash_partial (bits : Bytes → List Nat) (env : Env T E) (blk : Nat → Block) (head : Nat) (hc : Chain env blk head)
    (n : Node E S) (hn : n.ix = Chain.ix env blk head)
    (hcol : ∀ h h' p p', n.ix.headers h = some p → n.ix.headers h' = some p' → env.headerHash p = env.headerHash p' → h = h')
    (b : Nat) (h1 : 1 ≤ b) (h2 : b ≤ head) (p : Header) (hp : n.ix.headers b = some p) (hz : env.headerHash p ≠ Hash.zero)
    (c : Crit) (hb : c.blockHash = some (env.headerHash p)) (ht : c.topics.length ≤ 4) :
    getLogs bits env n c = .val (blockMatches env n.ix c (blk b)) := by
  obtain ⟨p', g1, g2, g3⟩ := blockLogs_eq bits env _ hc.distinct c (blk b) (chain_mem h1 h2) (hc.indexable b h1 h2)
  rw [hc.height] at g1
  have hpp : p' = p := by
    have : n.ix.headers b = some p' := by rw [hn]; exact g1
    rw [this] at hp; exact Option.some.inj hp
  subst hpp
  have hnum : n.ix.numOf (env.headerHash p') = some b := by
    rw [hn] at hcol hp ⊢
    exact C38_block_by_hash env _ hc.distinct.heights hcol b p' hp
  have g3' : blockLogs bits env n.ix c p' = some (blockMatches env n.ix c (blk b)) := by rw [hn]; exact g3
  unfold getLogs
  rw [if_neg (by omega), hb]
  simp only [logs, if_pos hz, getHeaderByHash, hnum, hp, g3']

/-- eth_getFilterLogs of a log filter answers like eth_getLogs with the criteria of the filter. -/
theorem C40_filter_logs (bits : Bytes → List Nat) (env : Env T E) (n : Node E S) (c : Crit) (ht : c.topics.length ≤ 4)
    (hr : ¬ (c.fromBlock.getD (-2) > 0 ∧ c.toBlock.getD (-2) > 0 ∧ c.fromBlock.getD (-2) > c.toBlock.getD (-2))) :
    getFilterLogs bits env n c = getLogs bits env n c := by
  unfold getFilterLogs getLogs
  rw [if_neg (by omega)]
  cases c.blockHash with
  | some h => rfl
  | none => dsimp only; rw [if_neg hr]

/-! ### Cases -/

/-- three blocks; the logs have topics 1, 2 (block 1), none (block 2), 1 and 2 (block 3), and so on -/
def blk0 (h : Nat) : Block :=
  if h = 1 then b1 else if h = 3 then b3 else ⟨h, []⟩

def node0 : Node UInt8 Unit := ⟨3, 3, fun _ => some (), (), Chain.ix toy blk0 3⟩

/-- the first 8 bits are chosen by the last byte -/
def bits0 (v : Bytes) : List Nat := [(v.getLastD 0).toNat % 8]

theorem chain0 : Chain toy blk0 3 where
  height h := by
    unfold blk0
    split
    · next h => simp [b1, h]
    · split
      · next h => simp [b3, h]
      · rfl
  distinct := ⟨by decide +kernel, by decide +kernel, by decide +kernel⟩
  indexable h _ _ := toy_indexable _ (by
    unfold blk0
    split
    · decide
    · split <;> simp [b3])

def crit0 : Crit := ⟨none, some 0, none, [Addr.zero], [[Hash.ofNat 2]]⟩

example : crit0.blockHash = none ∧ crit0.topics.length ≤ 4 ∧ meant 3 crit0.fromBlock ≤ meant 3 crit0.toBlock := by decide +kernel

/-- two of the four logs match -/
example : (match getLogs bits0 toy node0 crit0 with | .val l => l.map (fun x => (x.blockNumber, x.txIndex, x.index)) | _ => []) = [(1, 2, 0), (3, 1, 1)] := by decide +kernel

example : (∀ h ∈ [1, 2, 3], ∀ h' ∈ [1, 2, 3], (node0.ix.headers h).map toy.headerHash = (node0.ix.headers h').map toy.headerHash → h = h') ∧
    ((node0.ix.headers 3).map toy.headerHash).isSome ∧ ((node0.ix.headers 3).map toy.headerHash) ≠ some Hash.zero := by decide +kernel

/-- C40 does not hold when a block of the range could not be indexed: the matching logs of all later blocks are left out,
without an error. -/
theorem C40_gap_violated :
    let n : Node UInt8 Unit := ⟨3, 3, fun _ => some (), (), indexAll toy [b1, b2, b3]⟩
    (match getLogs bits0 toy n crit0 with | .val l => l.map (fun x => x.blockNumber) | _ => []) = [1] ∧
    (match getLogs bits0 toy n { crit0 with fromBlock := some 3 } with | .val l => l.map (fun x => x.blockNumber) | _ => []) = [3] := by decide +kernel

/-- C40 does not hold while the newest block is not indexed yet: any range, also one of old blocks, has no logs. -/
theorem C40_lagging_violated (bits : Bytes → List Nat) (env : Env T E) (n : Node E S) (hl : n.ix.headers n.head = none) (c : Crit)
    (hb : c.blockHash = none) (ht : c.topics.length ≤ 4)
    (hr : ¬ (c.fromBlock.getD (-2) > 0 ∧ c.toBlock.getD (-2) > 0 ∧ c.fromBlock.getD (-2) > c.toBlock.getD (-2))) : getLogs bits env n c = .val [] := by
  have hhd : getHeaderByNumber n n (-2) = .null := by
    unfold getHeaderByNumber resolveBlockNr
    rw [if_pos (by omega), hl]
  unfold getLogs
  rw [if_neg (by omega), hb]
  dsimp only
  rw [if_neg hr]
  simp only [logs, rangeLogs, hhd]

example :
    let n : Node UInt8 Unit := { node0 with head := 4 }
    n.ix.headers n.head = none ∧ getLogs bits0 toy n { crit0 with toBlock := some 1 } = .val [] ∧
    getLogs bits0 toy node0 { crit0 with toBlock := some 1 } ≠ .val [] := by decide +kernel

/-- C40 does not hold for the zero hash, which is the hash of no block: block 1 is searched. -/
theorem C40_zero_hash_violated : node0.ix.numOf Hash.zero = none ∧
    (match getLogs bits0 toy node0 { crit0 with blockHash := some Hash.zero } with | .val l => l.map (fun x => x.blockNumber) | _ => []) = [1] := by decide +kernel

end Verif.LogFilter
