import Verif.Model.Rollback
import Verif.Props.Indexer
/-
C101: what JSON-RPC answers about the chain after rollbacks.
-/
namespace Verif.Rollback
open Verif Verif.Indexer

variable {T E : Type}

/-! ### Specification -/

/-- A history: blocks are executed on top of each other, and now and then the chain is rolled back. `past`: every block
ever executed, dropped or not. No block fails to be indexed, on no branch does a transaction occur twice, and no two headers
of different heights have the same hash. -/
inductive Reach (env : Env T E) : Chain E → List Block → Prop
  | start : Reach env Chain.start []
  | exec {s : Chain E} {past : List Block} (b : Block) : Reach env s past → b.height = s.blocks.length + 1 →
      Indexable env b.txs → Distinct env (s.blocks ++ [b]) →
      (∀ hd h, (s.exec env b).ix.headers b.height = some hd → s.ix.numOf (env.headerHash hd) = some h → h = b.height) →
      Reach env (s.exec env b) (past ++ [b])
  | rollback {s s' : Chain E} {past : List Block} (h : Int) : Reach env s past → s.rollback h = some s' → Reach env s' past

/-- What is answered about block `b` whatever was dropped: its header (by number and by hash), its Ethereum transactions
and receipts by hash, by Cosmos hash and by position. -/
structure Answered (env : Env T E) (ix : Index E) (b : Block) : Prop where
  header : ∃ hd, ix.headers b.height = some hd ∧ hd.number = b.height ∧ hd.txs = (eths env b.txs).map (fun x => env.hash x.1) ∧
    ix.numOf (env.headerHash hd) = some b.height
  tx : ∀ (i : Nat) e raw res, (eths env b.txs)[i]? = some (e, raw, res) → ∃ t rc hd,
    ix.txByHash (env.hash e) = some t ∧ ix.headers b.height = some hd ∧
    t.tx = e ∧ t.blockNumber = b.height ∧ t.index = 1 + i ∧ t.blockHash = env.headerHash hd ∧
    ix.txByBlockAndIndex b.height (1 + i) = some t ∧
    ix.toCos (env.hash e) = some (env.cosHash raw) ∧ ix.ofCos (env.cosHash raw) = some (env.hash e) ∧
    ix.receipts (env.hash e) = some rc ∧ rc.txIndex = 1 + i ∧ rc.ok = res.ok ∧ rc.gasUsed = res.gasUsed ∧
    rc.cumulative = gasSum ((eths env b.txs).take (i + 1)) % 2 ^ 64 ∧
    (res.ok = true → env.unpack res.data (env.isCreate e) = some (rc.logs, rc.contract)) ∧ (res.ok = false → rc.logs = [])

/-! ### Sorted lists of entries -/

theorem look_append (k : Nat × Nat) : ∀ (a b : List ((Nat × Nat) × Hash)), look k (a ++ b) = (look k a).or (look k b)
  | [], b => by simp [look]
  | (k', v) :: a, b => by
    simp only [List.cons_append, look]
    split
    · rfl
    · exact look_append k a b

theorem look_none (k : Nat × Nat) : ∀ (l : List ((Nat × Nat) × Hash)), (∀ x ∈ l, x.1 ≠ k) → look k l = none
  | [], _ => rfl
  | (k', v) :: l, h => by
    simp only [look]
    rw [if_neg (fun e => h _ (List.mem_cons_self ..) e.symm)]
    exact look_none k l (fun x hx => h x (List.mem_cons_of_mem _ hx))

theorem look_mem {k : Nat × Nat} {v : Hash} : ∀ {l : List ((Nat × Nat) × Hash)}, look k l = some v → (k, v) ∈ l
  | [], h => by cases h
  | (k', w) :: l, h => by
    simp only [look] at h
    split at h
    · next e => cases h; rw [e]; exact List.mem_cons_self ..
    · exact List.mem_cons_of_mem _ (look_mem h)

theorem mem_look {k : Nat × Nat} {v : Hash} : ∀ {l : List ((Nat × Nat) × Hash)}, Sorted l → (k, v) ∈ l → look k l = some v
  | [], _, h => by cases h
  | (k', w) :: l, hs, h => by
    obtain ⟨h1, h2⟩ := List.pairwise_cons.1 hs
    simp only [look]
    rcases List.mem_cons.1 h with e | h
    · cases e; rw [if_pos rfl]
    · have := h1 _ h
      rw [if_neg (fun e => ?_)]
      · exact mem_look h2 h
      · subst e; rw [lt_iff] at this; simp only at this; omega

/-- Sorted lists with the same answers are the same. -/
theorem sorted_ext : ∀ (a b : List ((Nat × Nat) × Hash)), Sorted a → Sorted b → (∀ k, look k a = look k b) → a = b
  | [], [], _, _, _ => rfl
  | [], (k, v) :: b, _, _, h => by have := h k; simp [look] at this
  | (k, v) :: a, [], _, _, h => by have := h k; simp [look] at this
  | (k, v) :: a, (k', v') :: b, ha, hb, h => by
    obtain ⟨a1, a2⟩ := List.pairwise_cons.1 ha
    obtain ⟨b1, b2⟩ := List.pairwise_cons.1 hb
    have e : k = k' := by
      by_cases e : k = k'
      · exact e
      · have m1 : look k ((k', v') :: b) = some v := by rw [← h k]; simp [look]
        have m2 : look k' ((k, v) :: a) = some v' := by rw [h k']; simp [look]
        have q1 := look_mem m1
        have q2 := look_mem m2
        rcases List.mem_cons.1 q1 with q1 | q1
        · cases q1; exact absurd rfl e
        · rcases List.mem_cons.1 q2 with q2 | q2
          · cases q2; exact absurd rfl e
          · have := b1 _ q1
            have := a1 _ q2
            rw [lt_iff] at *
            simp only at *
            omega
    subst e
    have hv : v = v' := by have := h k; simpa [look] using this
    subst hv
    rw [sorted_ext a b a2 b2]
    intro j
    by_cases e : j = k
    · subst e
      rw [look_none j a, look_none j b]
      · intro x hx e; have := b1 x hx; rw [e, lt_iff] at this; simp only at this; omega
      · intro x hx e; have := a1 x hx; rw [e, lt_iff] at this; simp only at this; omega
    · have := h j
      simpa [look, e] using this

/-! ### Indexing over stale entries -/

/-- forget the entries of one height -/
def forget (h : Nat) (ix : Index E) : Index E := { ix with byIndex := ix.byIndex.filter (fun x => !(x.1.1 == h)) }

theorem collect_by (env : Env T E) (L : List ((Nat × Nat) × Hash)) : ∀ (txs : List (Bytes × Result)) (n cum : Nat) (ix : Index E),
    collect env txs n cum { ix with byIndex := L } =
      ((collect env txs n cum ix).1, (collect env txs n cum ix).2.1, { (collect env txs n cum ix).2.2 with byIndex := L })
  | [], _, _, _ => rfl
  | (raw, res) :: rest, n, cum, ix => by
    simp only [collect]
    cases env.decode raw with
    | none => exact collect_by env L rest n cum ix
    | some t =>
      simp only
      cases env.convert t with
      | none => rfl
      | some o =>
        cases o with
        | none => exact collect_by env L rest n cum ix
        | some e =>
          simp only
          cases extractLogs env res.ok res.data (env.isCreate e) with
          | none => rfl
          | some lc =>
            simp only
            rw [collect_by env L rest (n + 1) (add64 cum res.gasUsed)
              { ix with toCos := upd ix.toCos (env.hash e) (env.cosHash raw), ofCos := upd ix.ofCos (env.cosHash raw) (env.hash e) }]

/-- everything but the entries by position -/
structure SameBut (a b : Index E) : Prop where
  txs : a.txs = b.txs
  receipts : a.receipts = b.receipts
  headers : a.headers = b.headers
  numOf : a.numOf = b.numOf
  toCos : a.toCos = b.toCos
  ofCos : a.ofCos = b.ofCos

theorem storeTxs_by (env : Env T E) (bh : Hash) (h : Nat) : ∀ (l : List (E × Receipt)) (a b : Index E), SameBut a b →
    SameBut (storeTxs env bh h l a) (storeTxs env bh h l b)
  | [], _, _, hs => hs
  | (e, rc) :: l, a, b, hs => by
    simp only [storeTxs]
    apply storeTxs_by env bh h l
    exact ⟨by simp only [hs.txs], by simp only [hs.receipts], hs.headers, hs.numOf, hs.toCos, hs.ofCos⟩

/-- What the second loop does to the positions. -/
theorem storeTxs_look (env : Env T E) (bh : Hash) (h : Nat) : ∀ (l : List (E × Receipt)) (ix : Index E) (n j : Nat),
    l.map (·.2.txIndex) = List.range' n l.length →
    look (h, j) (storeTxs env bh h l ix).byIndex =
      if n ≤ j ∧ j < n + l.length then (l[j - n]?).map (fun y => env.hash y.1) else look (h, j) ix.byIndex
  | [], ix, n, j, _ => by simp only [storeTxs, List.length_nil]; rw [if_neg (by omega)]
  | (e, rc) :: l, ix, n, j, hr => by
    simp only [List.map_cons, List.length_cons, List.range'_succ, List.cons.injEq] at hr
    obtain ⟨rfl, hr⟩ := hr
    simp only [storeTxs]
    rw [storeTxs_look env bh h l _ (rc.txIndex + 1) j hr]
    simp only [List.length_cons]
    by_cases h1 : rc.txIndex + 1 ≤ j ∧ j < rc.txIndex + 1 + l.length
    · rw [if_pos h1, if_pos (by omega), show j - rc.txIndex = (j - (rc.txIndex + 1)) + 1 by omega, List.getElem?_cons_succ]
    · rw [if_neg h1, look_ins]
      by_cases h2 : j = rc.txIndex
      · subst h2; rw [if_pos rfl, if_pos (by omega)]; simp
      · rw [if_neg (fun e => h2 (Prod.ext_iff.1 e).2), if_neg (by omega)]

theorem mkHeader_by (env : Env T E) (h : Nat) (l : List (E × Receipt)) {a b : Index E} (hs : a.headers = b.headers) :
    mkHeader env h l a = mkHeader env h l b := by
  unfold mkHeader
  rw [hs]

theorem index_by (env : Env T E) (ix : Index E) (b : Block) (h : Nat) :
    SameBut (index env ix b).2 (index env (forget h ix) b).2 := by
  have hc := collect_by env (ix.byIndex.filter (fun x => !(x.1.1 == h))) b.txs 0 0 ix
  unfold index
  rw [show collect env b.txs 0 0 (forget h ix) = _ from hc]
  generalize collect env b.txs 0 0 ix = C
  generalize ix.byIndex.filter (fun x => !(x.1.1 == h)) = L
  generalize hD : ({ C.2.2 with byIndex := L } : Index E) = D
  have hs : SameBut C.2.2 D := by rw [← hD]; exact ⟨rfl, rfl, rfl, rfl, rfl, rfl⟩
  simp only [hD]
  cases C.1 with
  | true =>
    simp only [if_true]
    rw [mkHeader_by env b.height C.2.1 hs.headers]
    have := storeTxs_by env (env.headerHash (mkHeader env b.height C.2.1 D)) b.height C.2.1 C.2.2 D hs
    exact ⟨this.txs, this.receipts, by simp only [this.headers], by simp only [this.numOf], this.toCos, this.ofCos⟩
  | false => exact hs

/-- Positions after indexing a block: its own, then whatever was there. -/
theorem index_look (env : Env T E) (ix : Index E) (b : Block) (hi : Indexable env b.txs) (j : Nat) :
    look (b.height, j) (index env ix b).2.byIndex =
      if 1 ≤ j ∧ j < 1 + (eths env b.txs).length then ((eths env b.txs)[j - 1]?).map (fun y => env.hash y.1)
      else look (b.height, j) ix.byIndex := by
  have hcol := collect_ok env b.txs 0 0 ix hi
  have h4 := (collect_other env b.txs 0 0 ix).2.2.2.1
  rw [hcol] at h4
  simp only at h4
  simp only [index, hcol, if_true]
  have hmi : (mk env (eths env b.txs) 0 0).map (·.2.txIndex) = List.range' 1 (mk env (eths env b.txs) 0 0).length := by
    rw [mk_indices, mk_length]
  rw [storeTxs_look env _ b.height _ _ 1 j hmi, mk_length, h4]
  have := congrArg (List.map env.hash) (mk_map env (eths env b.txs) 0 0)
  rw [List.map_map, List.map_map] at this
  have hg : ∀ k : Nat, ((mk env (eths env b.txs) 0 0)[k]?).map (fun y => env.hash y.1) =
      ((eths env b.txs)[k]?).map (fun y => env.hash y.1) := by
    intro k
    have e := congrArg (fun l : List Hash => l[k]?) this
    simp only [List.getElem?_map] at e
    exact e
  rw [hg]

/-- Indexing one block, whatever stale entries there are at its height. -/
theorem index_answered (env : Env T E) (ix : Index E) (b : Block) (hi : Indexable env b.txs) (hs : Sorted ix.byIndex)
    (hh : ((eths env b.txs).map (fun y => env.hash y.1)).Nodup) (hc : ((eths env b.txs).map (fun y => env.cosHash y.2.1)).Nodup) :
    Answered env (index env ix b).2 b := by
  have hsf : Sorted (forget b.height ix).byIndex := by
    unfold forget Sorted
    exact hs.filter _
  have hfr : ∀ x ∈ (forget b.height ix).byIndex, x.1.1 ≠ b.height := by
    intro x hx
    simp only [forget, List.mem_filter] at hx
    simpa using hx.2
  have hsv := index_served env (forget b.height ix) b hi hsf hh hc hfr
  have hsb := index_by env ix b b.height
  have hl1 := index_look env ix b hi
  have hl2 := index_look env (forget b.height ix) b hi
  obtain ⟨hd0, g1, g2, _⟩ := index_header env ix b hi
  generalize (index env ix b).2 = J at *
  generalize (index env (forget b.height ix) b).2 = K at *
  refine ⟨?_, ?_⟩
  · obtain ⟨hd, h1, h2, h3⟩ := hsv.header
    rw [← hsb.headers] at h1
    have : hd0 = hd := by rw [g1] at h1; exact Option.some.inj h1
    subst this
    exact ⟨hd0, h1, h2, h3, g2⟩
  · intro i e raw res hie
    obtain ⟨t, rc, hd, a1, a2, a3, a4, a5, a6, a7, a8, a9, a10, rest⟩ := hsv.tx i e raw res hie
    have hlt : i < (eths env b.txs).length := by
      rw [List.getElem?_eq_some_iff] at hie; exact hie.1
    have hlook : look (b.height, 1 + i) J.byIndex = look (b.height, 1 + i) K.byIndex := by
      rw [hl1, hl2, if_pos (by omega), if_pos (by omega)]
    refine ⟨t, rc, hd, ?_, ?_, a3, a4, a5, a6, ?_, ?_, ?_, ?_, rest⟩
    · simp only [Index.txByHash, hsb.txs]; exact a1
    · rw [hsb.headers]; exact a2
    · have e : J.txByHash = K.txByHash := by funext x; simp only [Index.txByHash, hsb.txs]
      simp only [Index.txByBlockAndIndex, hlook, e]; exact a7
    · rw [hsb.toCos]; exact a8
    · rw [hsb.ofCos]; exact a9
    · rw [hsb.receipts]; exact a10

/-- The positions of a block's transactions name them. -/
def Pos (env : Env T E) (ix : Index E) (b : Block) : Prop :=
  ∀ (i : Nat) y, (eths env b.txs)[i]? = some y → look (b.height, 1 + i) ix.byIndex = some (env.hash y.1)

theorem index_pos (env : Env T E) (ix : Index E) (b : Block) (hi : Indexable env b.txs) : Pos env (index env ix b).2 b := by
  intro i y hy
  have hlt : i < (eths env b.txs).length := by rw [List.getElem?_eq_some_iff] at hy; exact hy.1
  rw [index_look env ix b hi, if_pos (by omega), show 1 + i - 1 = i by omega, hy]
  rfl

theorem pos_keep (env : Env T E) (ix : Index E) (b b' : Block) (h : Pos env ix b) (hne : b.height ≠ b'.height) :
    Pos env (index env ix b').2 b := by
  obtain ⟨_, _, o3, _⟩ := index_other env ix b'
  intro i y hy
  rw [look_filter, (o3 b.height hne).2, ← look_filter]
  exact h i y hy

/-- The hash index only gains the new header's hash. -/
theorem index_numOf (env : Env T E) (ix : Index E) (b : Block) (hi : Indexable env b.txs) :
    ∃ hd, (index env ix b).2.headers b.height = some hd ∧
      (index env ix b).2.numOf = upd ix.numOf (env.headerHash hd) b.height := by
  obtain ⟨_, _, h3, _, h5, _⟩ := collect_other env b.txs 0 0 ix
  have hcol := collect_ok env b.txs 0 0 ix hi
  have hok : (collect env b.txs 0 0 ix).1 = true := by rw [hcol]
  generalize hC : collect env b.txs 0 0 ix = C at *
  obtain ⟨s1, s2, _, _⟩ := storeTxs_rest env (env.headerHash (mkHeader env b.height C.2.1 C.2.2)) b.height C.2.1 C.2.2
  refine ⟨mkHeader env b.height C.2.1 C.2.2, ?_, ?_⟩
  · simp only [index, hC, hok, if_true, upd]
  · simp only [index, hC, hok, if_true]
    rw [s2, h5]

/-- A block on top changes no answer about the blocks below. -/
theorem answered_keep (env : Env T E) (ix : Index E) (b b' : Block) (ha : Answered env ix b)
    (hpos : Pos env ix b) (hne : b.height ≠ b'.height) (hdis : ∀ x ∈ eths env b.txs, ∀ y ∈ eths env b'.txs, env.hash y.1 ≠ env.hash x.1)
    (hcdis : ∀ x ∈ eths env b.txs, ∀ y ∈ eths env b'.txs, env.cosHash y.2.1 ≠ env.cosHash x.2.1)
    (hi : Indexable env b'.txs)
    (hcl : ∀ hd h, (index env ix b').2.headers b'.height = some hd → ix.numOf (env.headerHash hd) = some h → h = b'.height) :
    Answered env (index env ix b').2 b := by
  obtain ⟨o1, o2, o3, _⟩ := index_other env ix b'
  obtain ⟨o3h, o3b⟩ := o3 b.height hne
  obtain ⟨hd', n1, n2⟩ := index_numOf env ix b' hi
  have hc := hcl hd'
  generalize hJ : (index env ix b').2 = J at *
  have hlk : ∀ j, look (b.height, j) J.byIndex = look (b.height, j) ix.byIndex := by
    intro j; rw [look_filter, o3b, ← look_filter]
  refine ⟨?_, ?_⟩
  · obtain ⟨hd, h1, h2, h3, h4⟩ := ha.header
    refine ⟨hd, o3h.trans h1, h2, h3, ?_⟩
    rw [n2]
    unfold upd
    by_cases e : env.headerHash hd = env.headerHash hd'
    · rw [e] at h4
      exact absurd (hc _ n1 h4) hne
    · rw [if_neg e]; exact h4
  · intro i e raw res hie
    obtain ⟨t, rc, hd, g1, g2, g3, g4, g5, g6, g7, g8, g9, g10, grest⟩ := ha.tx i e raw res hie
    have hm : (e, raw, res) ∈ eths env b.txs := List.mem_of_getElem? hie
    obtain ⟨a1, a2, a3⟩ := o1 _ (fun z hz => hdis _ hm z hz)
    refine ⟨t, rc, hd, a1.trans g1, o3h.trans g2, g3, g4, g5, g6, ?_, a3.trans g8,
      (o2 _ (fun y hy => hcdis _ hm y hy)).trans g9, a2.trans g10, grest⟩
    have hv := hpos i _ hie
    simp only [Index.txByBlockAndIndex, hlk, hv, Option.bind_some]
    exact a1.trans g1

/-! ### The invariant -/

/-- The previous block's header hash is in a block's header. -/
def Linked (env : Env T E) (ix : Index E) (b : Block) : Prop :=
  ∀ hd, ix.headers b.height = some hd → hd.parent =
    if b.height > 1 then (match ix.headers (b.height - 1) with | some p => env.headerHash p | none => Hash.zero) else Hash.zero

/-- What holds in every state of a history. -/
structure Inv (env : Env T E) (s : Chain E) (past : List Block) : Prop where
  sorted : Sorted s.ix.byIndex
  entries : ∀ x ∈ s.ix.byIndex, ∃ d ∈ past, x.1.1 = d.height ∧ ∃ (i : Nat) (y : E × Bytes × Result),
    (eths env d.txs)[i]? = some y ∧ x.1.2 = 1 + i ∧ x.2 = env.hash y.1
  stored : ∀ d ∈ past, ∀ y ∈ eths env d.txs, (s.ix.txs (env.hash y.1)).isSome ∧ (s.ix.receipts (env.hash y.1)).isSome
  own : ∀ x t, s.ix.txs x = some t → env.hash t.tx = x
  known : ∀ x, (∀ d ∈ past, ∀ y ∈ eths env d.txs, env.hash y.1 ≠ x) → s.ix.txs x = none ∧ s.ix.receipts x = none
  above : ∀ h, (∀ d ∈ past, d.height ≠ h) → s.ix.headers h = none
  heights : s.blocks.map (·.height) = List.range' 1 s.blocks.length
  sub : ∀ b ∈ s.blocks, b ∈ past
  distinct : Distinct env s.blocks
  answered : ∀ b ∈ s.blocks, Answered env s.ix b ∧ Pos env s.ix b ∧ Linked env s.ix b

theorem storeTxs_own (env : Env T E) (bh : Hash) (h : Nat) : ∀ (l : List (E × Receipt)) (ix : Index E),
    (∀ x t, ix.txs x = some t → env.hash t.tx = x) → ∀ x t, (storeTxs env bh h l ix).txs x = some t → env.hash t.tx = x
  | [], _, hs => hs
  | (e, rc) :: l, ix, hs => by
    simp only [storeTxs]
    apply storeTxs_own env bh h l
    intro x t ht
    simp only [upd] at ht
    split at ht
    · next hx => cases ht; exact hx.symm
    · exact hs x t ht

theorem index_own (env : Env T E) (ix : Index E) (b : Block) (hs : ∀ x t, ix.txs x = some t → env.hash t.tx = x) :
    ∀ x t, (index env ix b).2.txs x = some t → env.hash t.tx = x := by
  have h1 := (collect_other env b.txs 0 0 ix).1
  unfold index
  generalize collect env b.txs 0 0 ix = C at *
  simp only
  split
  · exact storeTxs_own env _ _ _ _ (by rw [h1]; exact hs)
  · rw [h1]; exact hs

theorem range_get {α : Type} {f : α → Nat} {l : List α} (h : l.map f = List.range' 1 l.length) {a : α} (ha : a ∈ l) :
    1 ≤ f a ∧ f a ≤ l.length := by
  have : f a ∈ l.map f := List.mem_map.2 ⟨a, ha, rfl⟩
  rw [h, List.mem_range'_1] at this
  omega

theorem inv_start (env : Env T E) : Inv env Chain.start [] where
  sorted := List.Pairwise.nil
  entries := fun x hx => by simp [Chain.start, Index.empty] at hx
  stored := fun d hd => by simp at hd
  own := fun x t h => by simp [Chain.start, Index.empty] at h
  known := fun _ _ => ⟨rfl, rfl⟩
  above := fun _ _ => rfl
  heights := rfl
  sub := fun b hb => by simp [Chain.start] at hb
  distinct := ⟨List.nodup_nil, List.nodup_nil, List.nodup_nil⟩
  answered := fun b hb => by simp [Chain.start] at hb

theorem inv_exec {env : Env T E} {s : Chain E} {past : List Block} (h : Inv env s past) {b : Block}
    (hb : b.height = s.blocks.length + 1) (hi : Indexable env b.txs) (hd : Distinct env (s.blocks ++ [b]))
    (hcl : ∀ hd h, (s.exec env b).ix.headers b.height = some hd → s.ix.numOf (env.headerHash hd) = some h → h = b.height) :
    Inv env (s.exec env b) (past ++ [b]) := by
  obtain ⟨d1, d2, d3⟩ := hd
  have hd' : Distinct env (s.blocks ++ [b]) := ⟨d1, d2, d3⟩
  rw [List.map_append, List.nodup_append] at d1
  rw [List.flatMap_append, List.map_append, List.nodup_append] at d2 d3
  simp only [List.flatMap_cons, List.flatMap_nil, List.append_nil, List.map_cons, List.map_nil] at d1 d2 d3
  obtain ⟨o1, o2, o3, o4⟩ := index_other env s.ix b
  have hans := index_answered env s.ix b hi h.sorted d2.2.1 d3.2.1
  have hown := index_own env s.ix b h.own
  have hpos := index_pos env s.ix b hi
  have hlook := index_look env s.ix b hi
  have hkeep : ∀ c ∈ s.blocks, Answered env (s.exec env b).ix c ∧ Pos env (s.exec env b).ix c := by
    intro c hc
    have hr := range_get h.heights hc
    have hne : c.height ≠ b.height := by omega
    obtain ⟨a1, a2, _⟩ := h.answered c hc
    refine ⟨answered_keep env s.ix c b a1 a2 hne ?_ ?_ hi hcl, pos_keep env s.ix c b a2 hne⟩
    · exact fun x hx y hy heq =>
        d2.2.2 _ (List.mem_map.2 ⟨x, List.mem_flatMap.2 ⟨c, hc, hx⟩, rfl⟩) _ (List.mem_map.2 ⟨y, hy, rfl⟩) heq.symm
    · exact fun x hx y hy heq =>
        d3.2.2 _ (List.mem_map.2 ⟨x, List.mem_flatMap.2 ⟨c, hc, hx⟩, rfl⟩) _ (List.mem_map.2 ⟨y, hy, rfl⟩) heq.symm
  have hlink : Linked env (s.exec env b).ix b := by
    obtain ⟨hd0, g1, _, _, g4⟩ := index_header env s.ix b hi
    intro hd hhd
    simp only [Chain.exec] at hhd
    rw [g1] at hhd
    cases hhd
    rw [g4]
    by_cases hgt : b.height > 1
    · rw [if_pos hgt, if_pos hgt]
      have e := (o3 (b.height - 1) (by omega)).1
      simp only [Chain.exec, e]
      rfl
    · rw [if_neg hgt, if_neg hgt]
  refine ⟨o4 h.sorted, ?_, ?_, hown, ?_, ?_, ?_, ?_, hd', ?_⟩
  · intro x hx
    simp only [Chain.exec] at hx
    by_cases hxh : x.1.1 = b.height
    · have hl : look x.1 (index env s.ix b).2.byIndex = some x.2 := mem_look (o4 h.sorted) hx
      rw [show x.1 = (b.height, x.1.2) from Prod.ext_iff.2 ⟨hxh, rfl⟩, hlook] at hl
      split at hl
      · cases hg : (eths env b.txs)[x.1.2 - 1]? with
        | none => rw [hg] at hl; cases hl
        | some y =>
          rw [hg] at hl
          simp only [Option.map_some, Option.some.injEq] at hl
          exact ⟨b, by simp, hxh, x.1.2 - 1, y, hg, by omega, hl.symm⟩
      · obtain ⟨d, hd, r⟩ := h.entries ((b.height, x.1.2), x.2) (look_mem hl)
        exact ⟨d, List.mem_append_left _ hd, by rw [hxh]; exact r.1, r.2⟩
    · rcases index_heights env s.ix b x hx with hx | hx
      · obtain ⟨d, hd, r⟩ := h.entries x hx
        exact ⟨d, List.mem_append_left _ hd, r⟩
      · exact absurd hx hxh
  · intro d hd y hy
    simp only [Chain.exec]
    by_cases hv : ∀ z ∈ eths env b.txs, env.hash z.1 ≠ env.hash y.1
    · obtain ⟨a1, a2, _⟩ := o1 _ hv
      rw [a1, a2]
      rcases List.mem_append.1 hd with hd | hd
      · exact h.stored d hd y hy
      · rw [List.mem_singleton] at hd
        subst hd
        exact absurd rfl (hv y hy)
    · have : ∃ z ∈ eths env b.txs, env.hash z.1 = env.hash y.1 := by
        apply Classical.byContradiction
        intro hn
        exact hv (fun z hz e => hn ⟨z, hz, e⟩)
      obtain ⟨z, hz, e⟩ := this
      obtain ⟨i, hi'⟩ := List.mem_iff_getElem?.1 hz
      obtain ⟨ze, zraw, zres⟩ := z
      obtain ⟨t, rc, _, g1, _, _, _, _, _, _, _, _, g10, _⟩ := hans.tx i ze zraw zres hi'
      simp only at e
      rw [← e]
      simp only [Index.txByHash] at g1
      rw [g1, g10]
      exact ⟨rfl, rfl⟩
  · intro x hx
    simp only [Chain.exec]
    obtain ⟨a1, a2, _⟩ := o1 x (fun y hy => hx b (by simp) y hy)
    rw [a1, a2]
    exact h.known x (fun d hd y hy => hx d (List.mem_append_left _ hd) y hy)
  · intro k hk
    simp only [Chain.exec]
    rw [(o3 k (fun e => hk b (by simp) e.symm)).1]
    exact h.above k (fun d hd => hk d (List.mem_append_left _ hd))
  · simp only [Chain.exec, List.map_append, List.map_cons, List.map_nil, h.heights, List.length_append, List.length_cons,
      List.length_nil, hb, List.range'_concat]
    rw [Nat.one_mul, Nat.add_comm]
  · intro c hc
    simp only [Chain.exec, List.mem_append] at hc
    rcases hc with hc | hc
    · exact List.mem_append_left _ (h.sub c hc)
    · exact List.mem_append_right _ hc
  · intro c hc
    simp only [Chain.exec, List.mem_append, List.mem_singleton] at hc
    rcases hc with hc | rfl
    · obtain ⟨k1, k2⟩ := hkeep c hc
      refine ⟨k1, k2, ?_⟩
      have hr := range_get h.heights hc
      have hl := (h.answered c hc).2.2
      intro hd hhd
      simp only [Chain.exec] at hhd ⊢
      rw [(o3 c.height (by omega)).1] at hhd
      rw [(o3 (c.height - 1) (by omega)).1]
      exact hl hd hhd
    · exact ⟨hans, hpos, hlink⟩

theorem inv_rollback {env : Env T E} {s s' : Chain E} {past : List Block} (h : Inv env s past) {k : Int}
    (hr : s.rollback k = some s') : Inv env s' past := by
  unfold Chain.rollback at hr
  split at hr
  · cases hr
  · split at hr
    · cases hr
    · cases hr
      have hmem : ∀ b ∈ s.blocks.take k.toNat, b ∈ s.blocks := fun b hb => List.mem_of_mem_take hb
      refine ⟨h.sorted, h.entries, h.stored, h.own, h.known, h.above, ?_, fun b hb => h.sub b (hmem b hb), ?_,
        fun b hb => h.answered b (hmem b hb)⟩
      · simp only [List.map_take, h.heights, List.length_take]
        rw [List.take_range'_of_length_ge (by omega), Nat.min_eq_left (by omega)]
      · obtain ⟨d1, d2, d3⟩ := h.distinct
        have hsplit := List.take_append_drop k.toNat s.blocks
        rw [← hsplit] at d1 d2 d3
        rw [List.map_append, List.nodup_append] at d1
        rw [List.flatMap_append, List.map_append, List.nodup_append] at d2 d3
        exact ⟨d1.1, d2.1, d3.1⟩

theorem reach_inv {env : Env T E} {s : Chain E} {past : List Block} (h : Reach env s past) : Inv env s past := by
  induction h with
  | start => exact inv_start env
  | exec b _ hb hi hd hcl ih => exact inv_exec ih hb hi hd hcl
  | rollback k _ hr ih => exact inv_rollback ih hr

/-! ### The list of a block's transactions -/

/-- a block's own entries -/
def ents (env : Env T E) (h : Nat) : Nat → List (E × Bytes × Result) → List ((Nat × Nat) × Hash)
  | _, [] => []
  | n, y :: l => ((h, n), env.hash y.1) :: ents env h (n + 1) l

theorem ents_mem (env : Env T E) (h : Nat) : ∀ (l : List (E × Bytes × Result)) (n : Nat), ∀ x ∈ ents env h n l,
    x.1.1 = h ∧ n ≤ x.1.2 ∧ x.1.2 < n + l.length
  | [], _, x, hx => by simp [ents] at hx
  | y :: l, n, x, hx => by
    rcases List.mem_cons.1 hx with rfl | hx
    · simp
    · have := ents_mem env h l (n + 1) x hx
      simp only [List.length_cons]
      omega

theorem ents_sorted (env : Env T E) (h : Nat) : ∀ (l : List (E × Bytes × Result)) (n : Nat), Sorted (ents env h n l)
  | [], _ => List.Pairwise.nil
  | y :: l, n => by
    refine List.pairwise_cons.2 ⟨fun x hx => ?_, ents_sorted env h l (n + 1)⟩
    have := ents_mem env h l (n + 1) x hx
    rw [lt_iff]
    simp only
    omega

theorem ents_look (env : Env T E) (h j : Nat) : ∀ (l : List (E × Bytes × Result)) (n : Nat), n ≤ j →
    look (h, j) (ents env h n l) = (l[j - n]?).map (fun y => env.hash y.1)
  | [], _, _ => rfl
  | y :: l, n, hn => by
    simp only [ents, look]
    by_cases e : j = n
    · subst e; simp
    · rw [if_neg (fun h => e (Prod.ext_iff.1 h).2), ents_look env h j l (n + 1) (by omega),
        show j - n = (j - (n + 1)) + 1 by omega, List.getElem?_cons_succ]

theorem ents_hashes (env : Env T E) (h : Nat) : ∀ (l : List (E × Bytes × Result)) (n : Nat),
    (ents env h n l).map (·.2) = l.map (fun y => env.hash y.1)
  | [], _ => rfl
  | y :: l, n => by simp only [ents, List.map_cons, ents_hashes env h l (n + 1)]

/-- A block's entries: its own, then those of dropped blocks with more transactions. -/
theorem walk {env : Env T E} {s : Chain E} {past : List Block} (h : Inv env s past) {b : Block} (hb : b ∈ s.blocks) :
    s.ix.byIndex.filter (fun x => x.1.1 == b.height) = ents env b.height 1 (eths env b.txs) ++
      (s.ix.byIndex.filter (fun x => x.1.1 == b.height)).filter (fun x => decide ((eths env b.txs).length < x.1.2)) := by
  obtain ⟨_, hpos, _⟩ := h.answered b hb
  have hsl : Sorted (s.ix.byIndex.filter (fun x => x.1.1 == b.height)) := h.sorted.filter _
  apply sorted_ext _ _ hsl
  · refine List.pairwise_append.2 ⟨ents_sorted env _ _ _, hsl.filter _, fun x hx y hy => ?_⟩
    have h1 := ents_mem env _ _ _ x hx
    rw [List.mem_filter, List.mem_filter] at hy
    have h2 : y.1.1 = b.height := by simpa using hy.1.2
    have h3 : (eths env b.txs).length < y.1.2 := by simpa using hy.2
    rw [lt_iff]; omega
  · rintro ⟨h', j⟩
    rw [look_append]
    by_cases hh : h' = b.height
    · subst hh
      by_cases h0 : j = 0
      · subst h0
        rw [look_none, look_none, look_none]
        · rfl
        · intro x hx e
          rw [List.mem_filter] at hx
          have h3 : (eths env b.txs).length < x.1.2 := by simpa using hx.2
          rw [e] at h3; omega
        · intro x hx e
          have := ents_mem env _ _ _ x hx
          rw [e] at this; omega
        · intro x hx e
          rw [List.mem_filter] at hx
          obtain ⟨_, _, _, i, y, _, r, _⟩ := h.entries x hx.1
          rw [e] at r; simp only at r; omega
      · rw [ents_look env _ j _ 1 (by omega), ← look_filter]
        by_cases hlt : j - 1 < (eths env b.txs).length
        · have hg := List.getElem?_eq_getElem hlt
          have := hpos (j - 1) _ hg
          rw [show 1 + (j - 1) = j by omega] at this
          rw [this, hg]
          rfl
        · rw [List.getElem?_eq_none (by omega)]
          simp only [Option.map_none, Option.none_or]
          cases hl : look (b.height, j) s.ix.byIndex with
          | none =>
            rw [look_none]
            intro x hx e
            rw [List.mem_filter, List.mem_filter] at hx
            have := mem_look h.sorted (k := x.1) (v := x.2) hx.1.1
            rw [e, hl] at this
            cases this
          | some v =>
            symm
            apply mem_look (hsl.filter _)
            rw [List.mem_filter, List.mem_filter]
            refine ⟨⟨look_mem hl, by simp⟩, ?_⟩
            simp only [decide_eq_true_eq]
            omega
    · rw [look_none, look_none, look_none]
      · rfl
      · intro x hx e
        rw [List.mem_filter, List.mem_filter] at hx
        have h2 : x.1.1 = b.height := by simpa using hx.1.2
        rw [e] at h2; exact hh h2
      · intro x hx e
        have := ents_mem env _ _ _ x hx
        rw [e] at this; exact hh this.1
      · intro x hx e
        rw [List.mem_filter] at hx
        have h2 : x.1.1 = b.height := by simpa using hx.2
        rw [e] at h2; exact hh h2

theorem mapM_append' {α β : Type} (f : α → Option β) : ∀ (a b : List α) (ra rb : List β), a.mapM f = some ra → b.mapM f = some rb →
    (a ++ b).mapM f = some (ra ++ rb)
  | [], b, ra, rb, h1, h2 => by
    simp only [List.mapM_nil] at h1
    cases h1
    exact h2
  | x :: a, b, ra, rb, h1, h2 => by
    rw [List.mapM_cons] at h1
    cases hx : f x with
    | none => rw [hx] at h1; cases h1
    | some y =>
      rw [hx] at h1
      cases ha : a.mapM f with
      | none => rw [ha] at h1; cases h1
      | some r =>
        rw [ha] at h1
        cases h1
        rw [List.cons_append, List.mapM_cons, hx, mapM_append' f a b r rb ha h2]
        rfl

theorem mapM_total {α β : Type} (f : α → Option β) : ∀ (l : List α), (∀ x ∈ l, (f x).isSome) → ∃ r, l.mapM f = some r ∧
    ∀ y ∈ r, ∃ x ∈ l, f x = some y
  | [], _ => ⟨[], rfl, fun y hy => by cases hy⟩
  | x :: l, h => by
    obtain ⟨y, hy⟩ := Option.isSome_iff_exists.1 (h x (List.mem_cons_self ..))
    obtain ⟨r, hr, hm⟩ := mapM_total f l (fun z hz => h z (List.mem_cons_of_mem _ hz))
    refine ⟨y :: r, by rw [List.mapM_cons, hy, hr]; rfl, fun z hz => ?_⟩
    rcases List.mem_cons.1 hz with rfl | hz
    · exact ⟨x, List.mem_cons_self .., hy⟩
    · obtain ⟨w, hw, e⟩ := hm z hz
      exact ⟨w, List.mem_cons_of_mem _ hw, e⟩

/-! ### C101 -/

/-- **C101.** A rollback to `h` leaves the first `h` blocks: at least one is left, at least one goes, and there is one for
every such `h`. -/
theorem C101_rollback (s s' : Chain E) (h : Int) : s.rollback h = some s' ↔
    (1 ≤ s'.blocks.length ∧ s'.blocks.length < s.blocks.length ∧ (s'.blocks.length : Int) = h ∧ s'.blocks <+: s.blocks ∧
      s'.ix = s.ix) := by
  unfold Chain.rollback
  constructor
  · intro e
    split at e
    · cases e
    split at e
    · cases e
    cases e
    have : (s.blocks.take h.toNat).length = h.toNat := by rw [List.length_take]; omega
    refine ⟨?_, ?_, ?_, List.take_prefix .., rfl⟩
    all_goals simp only [this]; omega
  · rintro ⟨a, b, rfl, ⟨t, d⟩, e⟩
    rw [if_neg (by omega), if_neg (by omega)]
    cases s'
    simp only at *
    rw [← d, ← e]
    simp

/-- **C101 (partial).** After any history of blocks and rollbacks, about every block of the chain as it is now: its header
is found by number and by hash, names its transactions and the hash of the block before it; each of its transactions and
receipts is found by hash and by position and says what happened in this block; and the list of its transactions begins
with exactly them. What the list may have besides (`C101_violated`) are transactions of dropped blocks of that height that
had more transactions. -/
theorem C101_partial (env : Env T E) (s : Chain E) (past : List Block) (hr : Reach env s past) (b : Block) (hb : b ∈ s.blocks) :
    Answered env s.ix b ∧
    (∀ a ∈ s.blocks, b.height = a.height + 1 → ∃ p c, s.ix.headers a.height = some p ∧ s.ix.headers b.height = some c ∧
      c.parent = env.headerHash p) ∧
    ∃ own stale, s.ix.blockTxs b.height = some (own ++ stale) ∧ own.map (·.tx) = (eths env b.txs).map (·.1) ∧
      ∀ t ∈ stale, ∃ d ∈ past, d.height = b.height ∧ (eths env b.txs).length < (eths env d.txs).length ∧
        ∃ y ∈ eths env d.txs, env.hash y.1 = env.hash t.tx := by
  have h := reach_inv hr
  obtain ⟨ha, hpos, hl⟩ := h.answered b hb
  refine ⟨ha, ?_, ?_⟩
  · intro a hab hh
    obtain ⟨p, hp, _⟩ := (h.answered a hab).1.header
    obtain ⟨c, hc, _⟩ := ha.header
    have := hl c hc
    have hra := range_get h.heights hab
    refine ⟨p, c, hp, hc, ?_⟩
    rw [this, if_pos (by omega), show b.height - 1 = a.height by omega, hp]
  · have hw := walk h hb
    generalize hB : (s.ix.byIndex.filter (fun x => x.1.1 == b.height)).filter
      (fun x => decide ((eths env b.txs).length < x.1.2)) = B at hw
    have hbm : ∀ x ∈ B, ∃ d ∈ past, d.height = b.height ∧ (eths env b.txs).length < (eths env d.txs).length ∧
        ∃ y ∈ eths env d.txs, x.2 = env.hash y.1 := by
      intro x hx
      rw [← hB, List.mem_filter, List.mem_filter] at hx
      have h2 : x.1.1 = b.height := by simpa using hx.1.2
      have h3 : (eths env b.txs).length < x.1.2 := by simpa using hx.2
      obtain ⟨d, hd, e1, i, y, e2, e3, e4⟩ := h.entries x hx.1.1
      have hlt : i < (eths env d.txs).length := by rw [List.getElem?_eq_some_iff] at e2; exact e2.1
      exact ⟨d, hd, by omega, by omega, y, List.mem_of_getElem? e2, e4⟩
    obtain ⟨st, hst, hsm⟩ := mapM_total s.ix.txByHash (B.map (·.2)) (by
      intro x hx
      obtain ⟨z, hz, rfl⟩ := List.mem_map.1 hx
      obtain ⟨d, hd, _, _, y, hy, e⟩ := hbm z hz
      rw [e]
      exact (h.stored d hd y hy).1)
    obtain ⟨ow, how⟩ : ∃ ow, ((eths env b.txs).map (fun y => env.hash y.1)).mapM s.ix.txByHash = some ow ∧
        ow.map (·.tx) = (eths env b.txs).map (·.1) := by
      have key : ∀ (l : List (E × Bytes × Result)), (∀ y ∈ l, ∃ t, s.ix.txByHash (env.hash y.1) = some t ∧ t.tx = y.1) →
          ∃ ow, (l.map (fun y => env.hash y.1)).mapM s.ix.txByHash = some ow ∧ ow.map (·.tx) = l.map (·.1) := by
        intro l
        induction l with
        | nil => intro _; exact ⟨[], rfl, rfl⟩
        | cons y l ih =>
          intro hl
          obtain ⟨t, ht, hte⟩ := hl y (List.mem_cons_self ..)
          obtain ⟨ow, h1, h2⟩ := ih (fun z hz => hl z (List.mem_cons_of_mem _ hz))
          exact ⟨t :: ow, by rw [List.map_cons, List.mapM_cons, ht, h1]; rfl, by simp [h2, hte]⟩
      apply key
      rintro ⟨e, raw, res⟩ hy
      obtain ⟨i, hi⟩ := List.mem_iff_getElem?.1 hy
      obtain ⟨t, _, _, g1, _, g3, _⟩ := ha.tx i e raw res hi
      exact ⟨t, g1, g3⟩
    refine ⟨ow, st, ?_, how.2, ?_⟩
    · rw [Index.blockTxs, Index.blockHashes, hw, List.map_append, ents_hashes]
      exact mapM_append' _ _ _ _ _ how.1 hst
    · intro t ht
      obtain ⟨x, hx, hxt⟩ := hsm t ht
      obtain ⟨z, hz, rfl⟩ := List.mem_map.1 hx
      obtain ⟨d, hd, e1, e2, y, hy, e⟩ := hbm z hz
      exact ⟨d, hd, e1, e2, y, hy, by rw [← e]; exact (h.own _ _ hxt).symm⟩

/-- **C101.** A block is served exactly, with its lists of transactions, receipts and logs, as if there had been no
rollback, unless a dropped block of its height had more transactions. In particular when the dropped blocks are executed
again. -/
theorem C101_exact (env : Env T E) (s : Chain E) (past : List Block) (hr : Reach env s past) (b : Block) (hb : b ∈ s.blocks)
    (hd : ∀ d ∈ past, d.height = b.height → (eths env d.txs).length ≤ (eths env b.txs).length) :
    Served env s.ix b 1 ∧
    ∃ hd, s.ix.headers b.height = some hd ∧ s.ix.logsByHeight env b.height = some (expectedLogs env (env.headerHash hd) b 1) := by
  have h := reach_inv hr
  obtain ⟨ha, hpos, hl⟩ := h.answered b hb
  have hw := walk h hb
  have hnil : (s.ix.byIndex.filter (fun x => x.1.1 == b.height)).filter
      (fun x => decide ((eths env b.txs).length < x.1.2)) = [] := by
    rw [List.filter_eq_nil_iff]
    intro x hx
    rw [List.mem_filter] at hx
    have h2 : x.1.1 = b.height := by simpa using hx.2
    obtain ⟨d, hd', e1, i, y, e2, e3, _⟩ := h.entries x hx.1
    have hlt : i < (eths env d.txs).length := by rw [List.getElem?_eq_some_iff] at e2; exact e2.1
    have := hd d hd' (by omega)
    simp only [decide_eq_true_eq]
    omega
  rw [hnil, List.append_nil] at hw
  have hsv : Served env s.ix b 1 := by
    refine ⟨?_, ha.tx, ?_, ?_, ?_⟩
    · obtain ⟨hd, h1, h2, h3, _⟩ := ha.header
      exact ⟨hd, h1, h2, h3⟩
    · intro j hj
      rw [Index.txByBlockAndIndex, look_filter, hw]
      rw [look_none]
      · rfl
      · intro x hx e
        have := ents_mem env _ _ _ x hx
        rw [e] at this
        simp only at this
        exact hj (j - 1) (by omega) (by omega)
    · obtain ⟨_, _, own, stale, h1, h2, h3⟩ := C101_partial env s past hr b hb
      have : stale = [] := by
        cases stale with
        | nil => rfl
        | cons t _ =>
          obtain ⟨d, hd', e1, e2, _⟩ := h3 t (List.mem_cons_self ..)
          have := hd d hd' e1
          omega
      rw [h1, this, List.append_nil, ← h2]
      rfl
    · have hb' : s.ix.blockHashes b.height = (eths env b.txs).map (fun y => env.hash y.1) := by
        rw [Index.blockHashes, hw, ents_hashes]
      have hsome : ∀ x ∈ (eths env b.txs).map (fun y => env.hash y.1), (s.ix.receipts x).isSome := by
        intro x hx
        obtain ⟨y, hy, rfl⟩ := List.mem_map.1 hx
        exact (h.stored b (h.sub b hb) y hy).2
      have key : ∀ (l : List (E × Bytes × Result)), (∀ x ∈ l.map (fun y => env.hash y.1), (s.ix.receipts x).isSome) →
          ∃ r, (l.map (fun y => env.hash y.1)).mapM s.ix.receipts = some r ∧ r.length = l.length ∧
            ∀ (i : Nat) y, l[i]? = some y → r[i]? = s.ix.receipts (env.hash y.1) := by
        intro l
        induction l with
        | nil => intro _; exact ⟨[], rfl, rfl, fun i y hy => by simp at hy⟩
        | cons y l ih =>
          intro hl
          obtain ⟨r, h1, h2, h3⟩ := ih (fun z hz => hl z (List.mem_cons_of_mem _ hz))
          obtain ⟨t, ht⟩ := Option.isSome_iff_exists.1 (hl (env.hash y.1) (List.mem_cons_self ..))
          refine ⟨t :: r, by rw [List.map_cons, List.mapM_cons, ht, h1]; rfl, by simp [h2], fun i z hz => ?_⟩
          cases i with
          | zero => simp only [List.getElem?_cons_zero, Option.some.injEq] at hz ⊢; subst hz; exact ht.symm
          | succ i => simp only [List.getElem?_cons_succ] at hz ⊢; exact h3 i z hz
      obtain ⟨r, h1, h2, h3⟩ := key _ hsome
      exact ⟨r, by rw [Index.blockReceipts, hb']; exact h1, h2, fun i e raw res hie => h3 i _ hie⟩
  exact ⟨hsv, served_logs env s.ix b 1 hsv⟩

/-- **C101.** Nothing is made up: what is served was executed once, in a block of the chain or in one that was dropped. -/
theorem C101_executed (env : Env T E) (s : Chain E) (past : List Block) (hr : Reach env s past) :
    (∀ x t, s.ix.txByHash x = some t → env.hash t.tx = x ∧ ∃ d ∈ past, ∃ y ∈ eths env d.txs, env.hash y.1 = x) ∧
    (∀ x, (s.ix.receipts x).isSome → ∃ d ∈ past, ∃ y ∈ eths env d.txs, env.hash y.1 = x) ∧
    (∀ h, (s.ix.headers h).isSome → ∃ d ∈ past, d.height = h) := by
  have h := reach_inv hr
  refine ⟨fun x t ht => ⟨h.own x t ht, ?_⟩, fun x hx => ?_, fun k hk => ?_⟩
  · apply Classical.byContradiction
    intro hn
    have := (h.known x (fun d hd y hy e => hn ⟨d, hd, y, hy, e⟩)).1
    simp only [Index.txByHash, this] at ht
    cases ht
  · apply Classical.byContradiction
    intro hn
    have := (h.known x (fun d hd y hy e => hn ⟨d, hd, y, hy, e⟩)).2
    rw [this] at hx; cases hx
  · apply Classical.byContradiction
    intro hn
    have := h.above k (fun d hd e => hn ⟨d, hd, e⟩)
    rw [this] at hk; cases hk

/-! ### A concrete chain -/

/-- The environment of C38, with header hashes that tell blocks of one height apart. -/
def toyR : Env Bytes UInt8 := { toy with headerHash := fun h => Hash.ofNat (h.number + 100 * h.txs.length) }

/-- block 1 -/
def r1 : Block := ⟨1, [([5], ⟨true, 10, [1]⟩)]⟩
/-- block 2: transactions 8 and 9, the second with a log -/
def r2 : Block := ⟨2, [([8], ⟨true, 10, []⟩), ([9], ⟨true, 20, [4]⟩)]⟩
/-- block 3 -/
def r3 : Block := ⟨3, [([10], ⟨true, 10, []⟩)]⟩
/-- what follows block 1 after the rollback: one transaction -/
def r2' : Block := ⟨2, [([7], ⟨true, 10, []⟩)]⟩

theorem clash {env : Env T E} {s : Chain E} {b : Block}
    (h : ((s.exec env b).ix.headers b.height).bind (fun hd => s.ix.numOf (env.headerHash hd)) = none) :
    ∀ hd h, (s.exec env b).ix.headers b.height = some hd → s.ix.numOf (env.headerHash hd) = some h → h = b.height := by
  intro hd k h1 h2
  rw [h1] at h
  simp only [Option.bind_some, h2] at h
  cases h

theorem clash_same {env : Env T E} {s : Chain E} {b : Block}
    (h : ((s.exec env b).ix.headers b.height).bind (fun hd => s.ix.numOf (env.headerHash hd)) = some b.height) :
    ∀ hd h, (s.exec env b).ix.headers b.height = some hd → s.ix.numOf (env.headerHash hd) = some h → h = b.height := by
  intro hd k h1 h2
  rw [h1] at h
  simp only [Option.bind_some, h2, Option.some.injEq] at h
  exact h

/-- three blocks -/
def s3 : Chain UInt8 := ((Chain.start.exec toyR r1).exec toyR r2).exec toyR r3
/-- rolled back to height 1 -/
def s1 : Chain UInt8 := ⟨s3.blocks.take 1, s3.ix⟩
/-- another block 2 -/
def s2' : Chain UInt8 := s1.exec toyR r2'
/-- or the same one again -/
def s2 : Chain UInt8 := s1.exec toyR r2

theorem reach3 : Reach toyR s3 [r1, r2, r3] := by
  refine .exec (past := [r1, r2]) r3 (.exec (past := [r1]) r2 (.exec (past := []) r1 .start rfl ?_ ?_ (clash ?_)) rfl ?_ ?_ (clash ?_))
    rfl ?_ ?_ (clash ?_)
  · exact toy_indexable r1 (by decide)
  · exact ⟨by decide +kernel, by decide +kernel, by decide +kernel⟩
  · decide +kernel
  · exact toy_indexable r2 (by decide)
  · exact ⟨by decide +kernel, by decide +kernel, by decide +kernel⟩
  · decide +kernel
  · exact toy_indexable r3 (by decide)
  · exact ⟨by decide +kernel, by decide +kernel, by decide +kernel⟩
  · decide +kernel

theorem reach1 : Reach toyR s1 [r1, r2, r3] := .rollback 1 reach3 rfl

theorem reach2' : Reach toyR s2' [r1, r2, r3, r2'] := by
  refine .exec (past := [r1, r2, r3]) r2' reach1 rfl (toy_indexable r2' (by decide)) ?_ (clash ?_)
  · exact ⟨by decide +kernel, by decide +kernel, by decide +kernel⟩
  · decide +kernel

theorem reach2 : Reach toyR s2 [r1, r2, r3, r2] := by
  refine .exec (past := [r1, r2, r3]) r2 reach1 rfl (toy_indexable r2 (by decide)) ?_ (clash_same ?_)
  · exact ⟨by decide +kernel, by decide +kernel, by decide +kernel⟩
  · decide +kernel

/-- The theorems say something about these: the new block 2 and its transaction; the re-executed one exactly. -/
example : (s2'.ix.txByBlockAndIndex 2 1).map (·.tx) = some 7 ∧ (s2'.ix.headers 2).map (·.txs) = some [toyR.hash 7] ∧
    Answered toyR s2'.ix r2' ∧ Served toyR s2.ix r2 1 ∧ Served toyR s2'.ix r1 1 :=
  ⟨by decide +kernel, by decide +kernel, (C101_partial toyR s2' _ reach2' r2' (by simp [s2', Chain.exec])).1,
    (C101_exact toyR s2 _ reach2 r2 (by simp [s2, Chain.exec]) (by decide +kernel)).1,
    (C101_exact toyR s2' _ reach2' r1 (by simp [s2', s1, s3, Chain.exec, Chain.start]) (by decide +kernel)).1⟩

example : (s3.rollback 3).isNone ∧ (s3.rollback 0).isNone ∧ (s3.rollback (-1)).isNone ∧ (s3.rollback 2).isSome := by decide +kernel

/-- C101 does not hold: the index keeps the positions of the dropped block, so the new block 2, with one transaction, is
served with two, the second being one that the chain does not contain; its log is among the block's logs. -/
theorem C101_violated : (¬ ∀ (s : Chain UInt8) past, Reach toyR s past → ∀ b ∈ s.blocks, Served toyR s.ix b 1) ∧
    s2'.blocks = [r1, r2'] ∧ (s2'.ix.blockTxs 2).map (·.map (·.tx)) = some [7, 9] ∧
    (s2'.ix.logsByHeight toyR 2).map (·.map (·.txHash)) = some [toyR.hash 9] := by
  refine ⟨fun h => ?_, rfl, by decide +kernel, by decide +kernel⟩
  have := (h s2' _ reach2' r2' (by simp [s2', Chain.exec])).all
  have e : (s2'.ix.blockTxs r2'.height).map (·.map (·.tx)) = some [7, 9] := by decide +kernel
  rw [e] at this
  revert this
  decide +kernel

/-- C101 does not hold: a transaction of a dropped block, which the chain does not contain, is served with a receipt saying
that it succeeded; nothing removes it. -/
theorem C101_dropped_violated : Reach toyR s2' [r1, r2, r3, r2'] ∧
    (∀ b ∈ s2'.blocks, ∀ y ∈ eths toyR b.txs, y.1 ≠ 10) ∧
    (s2'.ix.txByHash (toyR.hash 10)).map (fun t => (t.tx, t.blockNumber)) = some (10, 3) ∧
    (s2'.ix.receipts (toyR.hash 10)).map (·.ok) = some true :=
  ⟨reach2', by decide +kernel, by decide +kernel, by decide +kernel⟩

/-- C101 does not hold: after the rollback to height 1 blocks 2 and 3 are still served. -/
theorem C101_ahead_violated : Reach toyR s1 [r1, r2, r3] ∧ s1.blocks.length = 1 ∧ (s1.ix.headers 2).isSome ∧
    (s1.ix.headers 3).isSome ∧ (s1.ix.blockTxs 3).map (·.map (·.tx)) = some [10] :=
  ⟨reach1, rfl, by decide +kernel, by decide +kernel, by decide +kernel⟩

/-- C101 does not hold: the hash of a dropped block is resolved to the block that replaced it, whose hash is another. -/
theorem C101_hash_violated : Reach toyR s2' [r1, r2, r3, r2'] ∧
    ((s3.ix.headers 2).bind (fun p => s2'.ix.numOf (toyR.headerHash p))) = some 2 ∧
    (s2'.ix.headers 2).map toyR.headerHash ≠ (s3.ix.headers 2).map toyR.headerHash :=
  ⟨reach2', by decide +kernel, by decide +kernel⟩

end Verif.Rollback
