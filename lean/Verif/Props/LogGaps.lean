import Verif.Props.LogFilter
import Verif.Props.IndexExact
/-!
C40: what a range query answers on a chain some of whose blocks could not be indexed.
-/
namespace Verif.LogFilter
open Verif Verif.Indexer Verif.BlockTag

variable {T E S : Type}

/-- Walking over the first `k` blocks from `b` on, of which the first `j` could be indexed and, if there are more, the
next one could not. -/
theorem walk_gap (bits : Bytes → List Nat) (env : Env T E) (blk : Nat → Block) (head : Nat) (hh : ∀ h, (blk h).height = h)
    (hd : Distinct env ((List.range' 1 head).map blk)) (n : Node E S)
    (hn : n.ix = indexAll env ((List.range' 1 head).map blk)) (c : Crit) : ∀ (k j b : Nat), 1 ≤ b → b + k ≤ head + 1 → j ≤ k →
    (∀ i, i < j → Indexable env (blk (b + i)).txs) → (j < k → ¬ Indexable env (blk (b + j)).txs) →
    walk bits env n c k b = some ((List.range' b j).flatMap (fun h => blockMatches env n.ix c (blk h)))
  | 0, j, _, _, _, hj, _, _ => by
    have : j = 0 := by omega
    subst this; rfl
  | k + 1, 0, b, h1, h2, _, _, hno => by
    have hno := hno (by omega)
    have g1 : n.ix.headers b = none := by
      cases e : n.ix.headers b with
      | none => rfl
      | some p =>
        exfalso
        have : (n.ix.headers b).isSome = true := by rw [e]; rfl
        rw [hn, C38_answered env _ hd.heights] at this
        obtain ⟨x, hx, hxb, hi⟩ := this
        obtain ⟨h', _, rfl⟩ := List.mem_map.1 hx
        rw [hh] at hxb; subst hxb
        exact hno hi
    simp only [walk]
    rw [header_at n b h1, g1]
    rfl
  | k + 1, j + 1, b, h1, h2, hj, hall, hno => by
    obtain ⟨p, g1, g2, g3⟩ := blockLogs_eq bits env _ hd c (blk b) (chain_mem h1 (by omega)) (hall 0 (by omega))
    rw [hh] at g1
    have g1' : n.ix.headers b = some p := by rw [hn]; exact g1
    simp only [walk]
    rw [header_at n b h1, g1']
    dsimp only
    have g3' : blockLogs bits env n.ix c p = some (blockMatches env n.ix c (blk b)) := by rw [hn]; exact g3
    rw [g3', walk_gap bits env blk head hh hd n hn c k j (b + 1) (by omega) (by omega) (by omega)
      (fun i hi => by have := hall (i + 1) (by omega); rwa [show b + (i + 1) = b + 1 + i by omega] at this)
      (fun hlt => by have := hno (by omega); rwa [show b + (j + 1) = b + 1 + j by omega] at this)]
    simp only [Option.map_some, List.range'_succ, List.flatMap_cons]

/-- **C40 (exact).** A chain of `head` blocks, any of which may have failed to be indexed, except the newest: a range
query answers the matching logs of the blocks of the range, in order, up to the first block that could not be indexed,
and stops there without an error — later matching logs are left out. (`j`: how many blocks of the range come before
that one; all of them if there is none.) If the newest block is not indexed, `C40_lagging_violated`: no logs at all. -/
theorem C40_exact (bits : Bytes → List Nat) (env : Env T E) (blk : Nat → Block) (head : Nat) (hpos : 1 ≤ head)
    (hh : ∀ h, (blk h).height = h) (hd : Distinct env ((List.range' 1 head).map blk)) (hi : Indexable env (blk head).txs)
    (n : Node E S) (hn : n.ix = indexAll env ((List.range' 1 head).map blk)) (hhead : n.head = head) (c : Crit)
    (hb : c.blockHash = none) (ht : c.topics.length ≤ 4) :
    (meant head c.toBlock < meant head c.fromBlock → getLogs bits env n c = .err) ∧
    (meant head c.fromBlock ≤ meant head c.toBlock → ∀ j, j ≤ min (meant head c.toBlock) head + 1 - meant head c.fromBlock →
      (∀ i, i < j → Indexable env (blk (meant head c.fromBlock + i)).txs) →
      (j < min (meant head c.toBlock) head + 1 - meant head c.fromBlock → ¬ Indexable env (blk (meant head c.fromBlock + j)).txs) →
      getLogs bits env n c = .val ((List.range' (meant head c.fromBlock) j).flatMap
        (fun h => blockMatches env n.ix c (blk h)))) := by
  obtain ⟨p, g1, g2, _⟩ := blockLogs_eq bits env _ hd c (blk head) (chain_mem hpos (Nat.le_refl _)) hi
  rw [hh] at g1 g2
  have hhd : getHeaderByNumber n n (-2) = .val p := by
    unfold getHeaderByNumber resolveBlockNr
    rw [if_pos (by omega), hhead, hn]
    rw [g1]
  have hbnd : ∀ k : Option Int, bound (head : Int) (k.getD (-2)) = (meant head k : Nat) ∧ 1 ≤ meant head k := by
    intro k
    cases k with
    | none => exact ⟨rfl, hpos⟩
    | some k =>
      simp only [Option.getD_some, bound, meant]
      split
      · exact ⟨rfl, hpos⟩
      · split
        · exact ⟨rfl, Nat.le_refl _⟩
        · constructor <;> omega
  obtain ⟨hf, hf1⟩ := hbnd c.fromBlock
  obtain ⟨hto, hto1⟩ := hbnd c.toBlock
  have hguard : (c.fromBlock.getD (-2) > 0 ∧ c.toBlock.getD (-2) > 0 ∧ c.fromBlock.getD (-2) > c.toBlock.getD (-2)) → meant head c.toBlock < meant head c.fromBlock := by
    rintro ⟨a1, a2, a3⟩
    have e1 : bound (head : Int) (c.fromBlock.getD (-2)) = c.fromBlock.getD (-2) := by unfold bound; rw [if_neg (by omega), if_neg (by omega)]
    have e2 : bound (head : Int) (c.toBlock.getD (-2)) = c.toBlock.getD (-2) := by unfold bound; rw [if_neg (by omega), if_neg (by omega)]
    omega
  have hrange : rangeLogs bits env n c (c.fromBlock.getD (-2)) (c.toBlock.getD (-2)) =
      if (meant head c.toBlock : Int) < (meant head c.fromBlock : Int) then .err
      else if (meant head c.fromBlock : Int) > (head : Int) then .val []
      else match walk bits env n c ((if (meant head c.toBlock : Int) > (head : Int) then (head : Int) else (meant head c.toBlock : Int)) + 1 - (meant head c.fromBlock : Int)).toNat
        (meant head c.fromBlock : Int).toNat with | none => .err | some l => .val l := by
    unfold rangeLogs
    rw [hhd]
    simp only [g2, hf, hto]
    rfl
  have hget : getLogs bits env n c = if (c.fromBlock.getD (-2) > 0 ∧ c.toBlock.getD (-2) > 0 ∧ c.fromBlock.getD (-2) > c.toBlock.getD (-2)) then .err
      else rangeLogs bits env n c (c.fromBlock.getD (-2)) (c.toBlock.getD (-2)) := by
    unfold getLogs
    rw [if_neg (by omega), hb]
    rfl
  refine ⟨fun hlt => ?_, fun hle j hj hall hno => ?_⟩
  · rw [hget]
    split
    · rfl
    · rw [hrange, if_pos (by omega)]
  · rw [hget, if_neg (fun h => by have := hguard h; omega), hrange, if_neg (by omega)]
    by_cases hgt : meant head c.fromBlock > head
    · rw [if_pos (by omega)]
      have : j = 0 := by omega
      subst this; rfl
    · rw [if_neg (by omega)]
      have e1 : ((if (meant head c.toBlock : Int) > (head : Int) then (head : Int) else (meant head c.toBlock : Int)) + 1 - (meant head c.fromBlock : Int)).toNat =
          min (meant head c.toBlock) head + 1 - meant head c.fromBlock := by
        split <;> omega
      rw [e1, Int.toNat_natCast, walk_gap bits env blk head hh hd n hn c _ j _ hf1 (by omega) hj hall hno]

/-- Three blocks, of which the second cannot be indexed. -/
def blkGap (h : Nat) : Block := if h = 1 then b1 else if h = 2 then b2 else if h = 3 then b3 else ⟨h, []⟩

/-- The hypotheses are met with `j = 1` of 3: the answer stops before block 2. -/
example : ∀ h, (blkGap h).height = h := by
  intro h
  unfold blkGap
  split
  · next e => simp [b1, e]
  · split
    · next e => simp [b2, e]
    · split
      · next e => simp [b3, e]
      · rfl
example : Distinct toy ((List.range' 1 3).map blkGap) := ⟨by decide +kernel, by decide +kernel, by decide +kernel⟩
example : Indexable toy (blkGap 1).txs := toy_indexable _ (by decide)
example : Indexable toy (blkGap 3).txs := toy_indexable _ (by decide)
example : ¬ Indexable toy (blkGap 2).txs := by
  intro h
  obtain ⟨o, ho, _⟩ := h ([0], ⟨true, 1, []⟩) (by simp [blkGap, b2]) [0] rfl
  exact absurd ho (by simp [toy])
example : min (meant 3 crit0.toBlock) 3 + 1 - meant 3 crit0.fromBlock = 3 := by decide +kernel

end Verif.LogFilter
