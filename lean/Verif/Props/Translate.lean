import Verif.Props.Indexer
import Verif.Model.Translate
/-
C149: the two hashes of a transaction lead to each other.
-/
namespace Verif.Props.Translate
open Verif Verif.Indexer Verif.Translate

variable {T E : Type}

/-- The Ethereum transactions of the chain with their raw bytes. -/
def included (env : Env T E) (bs : List Block) : List (E × Bytes) :=
  bs.flatMap fun b => (eths env b.txs).map fun y => (y.1, y.2.1)

/-- What the two collections say about each other and about the chain `l`. -/
structure Inv (env : Env T E) (l : List (E × Bytes)) (ix : Index E) : Prop where
  back : ∀ h c, ix.toCos h = some c → ix.ofCos c = some h
  forth : ∀ h c, ix.ofCos c = some h → ∃ c', ix.toCos h = some c'
  from_ : ∀ h c, ix.ofCos c = some h → ∃ e raw, (e, raw) ∈ l ∧ env.hash e = h ∧ env.cosHash raw = c

/-- A Cosmos hash is the hash of one transaction. -/
def NoCollision (env : Env T E) (l : List (E × Bytes)) : Prop :=
  ∀ x ∈ l, ∀ y ∈ l, env.cosHash x.2 = env.cosHash y.2 → env.hash x.1 = env.hash y.1

/-- The same writes keep the invariant. -/
theorem write_inv {env : Env T E} {l : List (E × Bytes)} {ix : Index E} (hi : Inv env l ix) (hc : NoCollision env l) (e : E)
    (raw : Bytes) (hm : (e, raw) ∈ l) :
    Inv env l { ix with toCos := upd ix.toCos (env.hash e) (env.cosHash raw),
                        ofCos := upd ix.ofCos (env.cosHash raw) (env.hash e) } := by
  constructor
  · intro h c
    simp only [upd]
    by_cases h1 : h = env.hash e
    · simp only [h1, if_true, Option.some.injEq]
      intro h2; simp [h2]
    · simp only [h1, if_false]
      intro h2
      by_cases h3 : c = env.cosHash raw
      · simp only [h3, if_true, Option.some.injEq]
        have h4 := hi.back h c h2
        obtain ⟨e', raw', m, a, b⟩ := hi.from_ h c h4
        have := hc _ m _ hm (by rw [b, h3])
        simp only at this
        rw [← this, a]
      · simp only [h3, if_false]; exact hi.back h c h2
  · intro h c
    simp only [upd]
    by_cases h1 : h = env.hash e
    · simp [h1]
    · simp only [h1, if_false]
      by_cases h3 : c = env.cosHash raw
      · simp only [h3, if_true, Option.some.injEq]; intro h4; exact absurd h4.symm h1
      · simp only [h3, if_false]; exact hi.forth h c
  · intro h c
    simp only [upd]
    by_cases h3 : c = env.cosHash raw
    · simp only [h3, if_true, Option.some.injEq]; intro h4; exact ⟨e, raw, hm, h4, rfl⟩
    · simp only [h3, if_false]; exact hi.from_ h c

theorem collect_inv {env : Env T E} {l : List (E × Bytes)} (hc : NoCollision env l) : ∀ (txs : List (Bytes × Result)) (n cum : Nat)
    (ix : Index E), (∀ y ∈ eths env txs, (y.1, y.2.1) ∈ l) → Inv env l ix → Inv env l (collect env txs n cum ix).2.2
  | [], _, _, _, _, hi => hi
  | (raw, res) :: rest, n, cum, ix, hl, hi => by
    cases hd : env.decode raw with
    | none =>
      have he : eths env ((raw, res) :: rest) = eths env rest := by simp only [eths, List.filterMap_cons, hd]
      rw [he] at hl
      simp only [collect, hd]; exact collect_inv hc rest n cum ix hl hi
    | some t =>
      cases hv : env.convert t with
      | none => simp only [collect, hd, hv]; exact hi
      | some o =>
        cases o with
        | none =>
          have he : eths env ((raw, res) :: rest) = eths env rest := by simp only [eths, List.filterMap_cons, hd, hv]
          rw [he] at hl
          simp only [collect, hd, hv]; exact collect_inv hc rest n cum ix hl hi
        | some e =>
          have he := eths_cons_eth env (res := res) (rest := rest) hd hv
          rw [he] at hl
          have hw := write_inv hi hc e raw (hl (e, raw, res) (by simp))
          cases hx : extractLogs env res.ok res.data (env.isCreate e) with
          | none => simp only [collect, hd, hv, hx]; exact hw
          | some lc =>
            obtain ⟨logs, ct⟩ := lc
            simp only [collect, hd, hv, hx]
            exact collect_inv hc rest _ _ _ (fun y hy => hl y (List.mem_cons_of_mem _ hy)) hw

theorem index_inv {env : Env T E} {l : List (E × Bytes)} (hc : NoCollision env l) (ix : Index E) (b : Block)
    (hl : ∀ y ∈ eths env b.txs, (y.1, y.2.1) ∈ l) (hi : Inv env l ix) : Inv env l (index env ix b).2 := by
  have h := collect_inv hc b.txs 0 0 ix hl hi
  simp only [index]
  split
  · obtain ⟨_, _, s3, s4⟩ := storeTxs_rest env (env.headerHash (mkHeader env b.height (collect env b.txs 0 0 ix).2.1
      (collect env b.txs 0 0 ix).2.2)) b.height (collect env b.txs 0 0 ix).2.1 (collect env b.txs 0 0 ix).2.2
    constructor
    · intro x c; simp only [s3, s4]; exact h.back x c
    · intro x c; simp only [s3, s4]; exact h.forth x c
    · intro x c; simp only [s4]; exact h.from_ x c
  · exact h

theorem all_inv {env : Env T E} {l : List (E × Bytes)} (hc : NoCollision env l) : ∀ (bs : List Block) (ix : Index E),
    (∀ y ∈ included env bs, y ∈ l) → Inv env l ix → Inv env l (bs.foldl (fun ix b => (index env ix b).2) ix)
  | [], _, _, hi => hi
  | b :: bs, ix, hl, hi => by
    refine all_inv hc bs _ (fun y hy => hl y ?_) (index_inv hc ix b (fun y hy => hl _ ?_) hi)
    · simp only [included, List.flatMap_cons, List.mem_append]; exact Or.inr hy
    · simp only [included, List.flatMap_cons, List.mem_append]
      exact Or.inl (List.mem_map.2 ⟨y, hy, rfl⟩)

/-- **C149.** After any blocks, including ones whose indexing failed half way and ones that include a transaction again: if the
Cosmos hash of a transaction is asked for and one is answered, asking back gives the hash one started with. If an Ethereum hash
is answered for a Cosmos hash, that Cosmos transaction is one of the chain's and has that Ethereum hash, and the Ethereum hash
leads to a Cosmos hash of the same Ethereum transaction. -/
theorem C149_translate (env : Env T E) (bs : List Block) (hc : NoCollision env (included env bs)) :
    (∀ h c, (indexAll env bs).toCos h = some c → cosmosTxHashByTxHash (indexAll env bs) h = c ∧
      txHashByCosmosTxHash (indexAll env bs) c = h ∧
      ∃ e raw, (e, raw) ∈ included env bs ∧ env.hash e = h ∧ env.cosHash raw = c) ∧
    (∀ h c, (indexAll env bs).ofCos c = some h → txHashByCosmosTxHash (indexAll env bs) c = h ∧
      (∃ e raw, (e, raw) ∈ included env bs ∧ env.hash e = h ∧ env.cosHash raw = c) ∧
      ∃ e raw, (e, raw) ∈ included env bs ∧ env.hash e = h ∧ cosmosTxHashByTxHash (indexAll env bs) h = env.cosHash raw) := by
  have hi : Inv env (included env bs) (indexAll env bs) :=
    all_inv hc bs Index.empty (fun y hy => hy) ⟨by simp [Index.empty], by simp [Index.empty], by simp [Index.empty]⟩
  have hback : ∀ h c, (indexAll env bs).toCos h = some c →
      ∃ e raw, (e, raw) ∈ included env bs ∧ env.hash e = h ∧ env.cosHash raw = c :=
    fun h c hh => hi.from_ h c (hi.back h c hh)
  refine ⟨fun h c hh => ⟨?_, ?_, hback h c hh⟩, fun h c hh => ⟨?_, hi.from_ h c hh, ?_⟩⟩
  · simp only [cosmosTxHashByTxHash, hh, Option.getD_some]
  · simp only [txHashByCosmosTxHash, hi.back h c hh, Option.getD_some]
  · simp only [txHashByCosmosTxHash, hh, Option.getD_some]
  · obtain ⟨c', h'⟩ := hi.forth h c hh
    obtain ⟨e, raw, m, a, b⟩ := hback h c' h'
    exact ⟨e, raw, m, a, by simp only [cosmosTxHashByTxHash, h', Option.getD_some, b]⟩

/-- An Ethereum transaction of an indexed block is found under both hashes; if it is included once, in both directions exactly. -/
theorem C149_found (env : Env T E) (bs : List Block) (hd : Distinct env bs) (b : Block) (hb : b ∈ bs) (hi : Indexable env b.txs)
    (i : Nat) (e : E) (raw : Bytes) (res : Result) (hx : (eths env b.txs)[i]? = some (e, raw, res)) :
    cosmosTxHashByTxHash (indexAll env bs) (env.hash e) = env.cosHash raw ∧
    txHashByCosmosTxHash (indexAll env bs) (env.cosHash raw) = env.hash e := by
  obtain ⟨_, _, _, _, _, _, _, _, _, _, h1, h2, _⟩ := (C38_partial env bs hd b hb hi).tx i e raw res hx
  simp only [cosmosTxHashByTxHash, txHashByCosmosTxHash, h1, h2, Option.getD_some, and_self]

/-- What is on no block is answered with zeros. -/
theorem C149_unknown (env : Env T E) (bs : List Block) (hc : NoCollision env (included env bs)) :
    (∀ h, (∀ x ∈ included env bs, env.hash x.1 ≠ h) → cosmosTxHashByTxHash (indexAll env bs) h = List.replicate 32 0) ∧
    (∀ c, (∀ x ∈ included env bs, env.cosHash x.2 ≠ c) → txHashByCosmosTxHash (indexAll env bs) c = Hash.zero) := by
  obtain ⟨h1, h2⟩ := C149_translate env bs hc
  constructor
  · intro h hn
    cases hh : (indexAll env bs).toCos h with
    | none => simp only [cosmosTxHashByTxHash, hh, Option.getD_none]
    | some c =>
      obtain ⟨_, _, e, raw, m, a, _⟩ := h1 h c hh
      exact absurd a (hn _ m)
  · intro c hn
    cases hh : (indexAll env bs).ofCos c with
    | none => simp only [txHashByCosmosTxHash, hh, Option.getD_none]
    | some h =>
      obtain ⟨_, ⟨e, raw, m, _, b⟩, _⟩ := h2 h c hh
      exact absurd b (hn _ m)

/-- Hypotheses are met. Two Cosmos transactions with the same Ethereum transaction: both Cosmos hashes lead to it, it leads to
the later one. -/
example : NoCollision toy (included toy [b1, b2, ⟨5, [([6], ⟨false, 1, []⟩)]⟩]) := by
  intro x hx y hy
  have : ∀ x ∈ included toy [b1, b2, ⟨5, [([6], ⟨false, 1, []⟩)]⟩], ∀ y ∈ included toy [b1, b2, ⟨5, [([6], ⟨false, 1, []⟩)]⟩],
      toy.cosHash x.2 = toy.cosHash y.2 → toy.hash x.1 = toy.hash y.1 := by decide +kernel
  exact this x hx y hy
example : txHashByCosmosTxHash (indexAll toy [b1, b2, ⟨5, [([6], ⟨false, 1, []⟩)]⟩]) [6, 6] = toy.hash 6 ∧
    txHashByCosmosTxHash (indexAll toy [b1, b2, ⟨5, [([6], ⟨false, 1, []⟩)]⟩]) [6] = toy.hash 6 ∧
    cosmosTxHashByTxHash (indexAll toy [b1, b2, ⟨5, [([6], ⟨false, 1, []⟩)]⟩]) (toy.hash 6) = [6] := by decide +kernel
/-- A block that is not indexed has left its translations all the same. -/
example : txHashByCosmosTxHash (indexAll toy [b1, b2, b3]) (toy.cosHash [8]) = toy.hash 8 ∧
    ((indexAll toy [b1, b2, b3]).txByHash (toy.hash 8)).isNone = true := by decide +kernel

end Verif.Props.Translate
