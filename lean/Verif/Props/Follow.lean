import Verif.Model.Follow
import Verif.Props.IndexExact
import Verif.Props.TxPool
/-
C168: a transaction can be followed by its hash.
-/
namespace Verif.Props.Follow
open Verif Verif.Indexer Verif.Follow

variable {P T E : Type}

/-! ### Specification -/

/-- A transaction in a block: the block's height, the position (counted from 1 as the index does), the transaction and what its
execution gave. -/
structure Place (E : Type) where
  height : Nat
  index : Nat
  tx : E
  ok : Bool
  gasUsed : Nat
  /-- gas used in the block up to and with this transaction -/
  cumulative : Nat
  logs : List RawLog
  contract : Option Addr

/-- What execution says about logs and the created contract: what is in the response data of a successful transaction. -/
def gave (env : Env T E) (e : E) (res : Result) : List RawLog × Option Addr :=
  if res.ok then (env.unpack res.data (env.isCreate e)).getD ([], none) else ([], none)

/-- The `i`-th Ethereum transaction of a block. -/
def place (env : Env T E) (hgt : Nat) (l : List (E × Bytes × Result)) (y : (E × Bytes × Result) × Nat) : Place E :=
  ⟨hgt, y.2 + 1, y.1.1, y.1.2.2.ok, y.1.2.2.gasUsed, gasSum (l.take (y.2 + 1)) % 18446744073709551616,
    (gave env y.1.1 y.1.2.2).1, (gave env y.1.1 y.1.2.2).2⟩

open Classical in
/-- Every Ethereum transaction of every indexed block, in the order of the chain. -/
noncomputable def places (env : Env T E) (bs : List Block) : List (Place E) :=
  bs.flatMap fun b => if Indexable env b.txs then
    (eths env b.txs).zipIdx.map (place env b.height (eths env b.txs)) else []

/-- The last place of the transaction with a given hash. -/
def lastAt (env : Env T E) (l : List (Place E)) (h : Hash) : Option (Place E) :=
  (l.filter fun p => decide (env.hash p.tx = h)).getLast?

/-! ### Proof -/

/-- what the index keeps about a transaction -/
def info (o : Option (RpcTx E)) (r : Option Receipt) : Option (Place E) :=
  o.bind fun t => r.map fun rc => ⟨t.blockNumber, t.index, t.tx, rc.ok, rc.gasUsed, rc.cumulative, rc.logs, rc.contract⟩

theorem storeTxs_last (env : Env T E) (bh : Hash) (hgt : Nat) (h : Hash) : ∀ (l : List (E × Receipt)) (ix : Index E),
    ((storeTxs env bh hgt l ix).txs h, (storeTxs env bh hgt l ix).receipts h) =
      match (l.filter fun y => decide (env.hash y.1 = h)).getLast? with
      | some y => (some ⟨y.1, bh, hgt, y.2.txIndex⟩, some y.2)
      | none => (ix.txs h, ix.receipts h)
  | [], ix => rfl
  | (e, rc) :: l, ix => by
    rw [storeTxs, storeTxs_last env bh hgt h l]
    by_cases c : env.hash e = h
    · rw [List.filter_cons_of_pos (by simpa using c)]
      cases hf : l.filter (fun y => decide (env.hash y.1 = h)) with
      | nil => subst c; simp [upd]
      | cons z zs =>
        rw [List.getLast?_cons_cons]
        rw [List.getLast?_cons]
    · rw [List.filter_cons_of_neg (by simpa using c)]
      cases hf : (l.filter (fun y => decide (env.hash y.1 = h))).getLast? with
      | none =>
        have : h ≠ env.hash e := fun g => c g.symm
        simp [upd, this]
      | some z => rfl

theorem mk_places (env : Env T E) (hgt : Nat) (l : List (E × Bytes × Result)) :
    (mk env l 0 0).map (fun y => (⟨hgt, y.2.txIndex, y.1, y.2.ok, y.2.gasUsed, y.2.cumulative, y.2.logs, y.2.contract⟩ : Place E)) =
      l.zipIdx.map (place env hgt l) := by
  apply List.ext_getElem?
  intro i
  rw [List.getElem?_map, List.getElem?_map, List.getElem?_zipIdx]
  cases hl : l[i]? with
  | none =>
    have : (mk env l 0 0)[i]? = none := by
      rw [List.getElem?_eq_none_iff, mk_length]; exact List.getElem?_eq_none_iff.1 hl
    rw [this]; rfl
  | some y =>
    obtain ⟨e, raw, res⟩ := y
    obtain ⟨rc, h1, h2, h3, h4, h5, h6⟩ := mk_get env l 0 0 i e raw res hl
    rw [h1]
    have g : (rc.logs, rc.contract) = gave env e res := by
      rw [h6]; unfold extractLogs gave
      cases res.ok <;> rfl
    rw [Prod.ext_iff] at g
    simp only [Option.map_some, place, Option.some.injEq, h2, h3, h4, h5, Nat.zero_add, ← g.1, ← g.2, Place.mk.injEq, and_true, true_and]
    omega

open Classical in
theorem index_info (env : Env T E) (ix : Index E) (b : Block) (h : Hash) :
    info ((index env ix b).2.txs h) ((index env ix b).2.receipts h) =
      (lastAt env (places env [b]) h).or (info (ix.txs h) (ix.receipts h)) := by
  have hp : places env [b] = if Indexable env b.txs then
    (eths env b.txs).zipIdx.map (place env b.height (eths env b.txs)) else [] := by
    simp [places]
  obtain ⟨h1, h2, -⟩ := collect_other env b.txs 0 0 ix
  by_cases hi : Indexable env b.txs
  · have hcol := collect_ok env b.txs 0 0 ix hi
    rw [hp, if_pos hi]
    have hm := mk_places env b.height (eths env b.txs)
    rw [← hm]
    simp only [index, hcol, if_true]
    rw [hcol] at h1 h2
    have := storeTxs_last env (env.headerHash (mkHeader env b.height (mk env (eths env b.txs) 0 0) (cosW env (eths env b.txs) ix))) b.height h
      (mk env (eths env b.txs) 0 0) (cosW env (eths env b.txs) ix)
    rw [Prod.mk.injEq] at this
    obtain ⟨q1, q2⟩ := this
    simp only at h1 h2
    rw [q1, q2, h1, h2]
    unfold lastAt
    rw [List.filter_map, List.getLast?_map]
    simp only [Function.comp_def]
    cases ((mk env (eths env b.txs) 0 0).filter fun y => decide (env.hash y.1 = h)).getLast? with
    | none => simp
    | some y => simp [info]
  · have hf : (collect env b.txs 0 0 ix).1 = false := by
      cases hc : (collect env b.txs 0 0 ix).1 with
      | false => rfl
      | true => exact absurd (collect_indexable env _ _ _ _ hc) hi
    rw [hp, if_neg hi]
    simp [index, hf, lastAt, h1, h2]

theorem lastAt_append (env : Env T E) (a b : List (Place E)) (h : Hash) :
    lastAt env (a ++ b) h = (lastAt env b h).or (lastAt env a h) := by
  unfold lastAt
  rw [List.filter_append, List.getLast?_append]

theorem places_cons (env : Env T E) (b : Block) (bs : List Block) : places env (b :: bs) = places env [b] ++ places env bs := by
  simp [places]

theorem all_info (env : Env T E) (h : Hash) (bs : List Block) : ∀ ix : Index E,
    info ((bs.foldl (fun ix b => (index env ix b).2) ix).txs h) ((bs.foldl (fun ix b => (index env ix b).2) ix).receipts h) =
      (lastAt env (places env bs) h).or (info (ix.txs h) (ix.receipts h)) := by
  induction bs with
  | nil => intro ix; simp [places, lastAt]
  | cons b rest ih =>
    intro ix
    rw [List.foldl_cons, ih, index_info, places_cons env b rest, lastAt_append, Option.or_assoc]

theorem together (env : Env T E) (h : Hash) (ix : Index E) (b : Block) (hk : (ix.txs h).isSome = (ix.receipts h).isSome)
    (hh : ∀ t, ix.txs h = some t → env.hash t.tx = h) :
    ((index env ix b).2.txs h).isSome = ((index env ix b).2.receipts h).isSome ∧
      ∀ t, (index env ix b).2.txs h = some t → env.hash t.tx = h := by
  obtain ⟨h1, h2, -⟩ := collect_other env b.txs 0 0 ix
  by_cases hf : (collect env b.txs 0 0 ix).1 = true
  · have := storeTxs_last env (env.headerHash (mkHeader env b.height (collect env b.txs 0 0 ix).2.1 (collect env b.txs 0 0 ix).2.2)) b.height h
      (collect env b.txs 0 0 ix).2.1 (collect env b.txs 0 0 ix).2.2
    rw [Prod.mk.injEq] at this
    obtain ⟨q1, q2⟩ := this
    simp only [index, hf, if_true]
    rw [q1, q2, h1, h2]
    cases hl : ((collect env b.txs 0 0 ix).2.1.filter fun y => decide (env.hash y.1 = h)).getLast? with
    | none => exact ⟨hk, hh⟩
    | some y =>
      refine ⟨rfl, fun t ht => ?_⟩
      have hy := List.mem_of_getLast? hl
      simp only [Option.some.injEq] at ht
      rw [← ht]
      simpa using (List.mem_filter.1 hy).2
  · simp only [index, hf, Bool.false_eq_true, if_false, h1, h2]
    exact ⟨hk, hh⟩

theorem all_together (env : Env T E) (h : Hash) (bs : List Block) : ∀ ix : Index E, (ix.txs h).isSome = (ix.receipts h).isSome →
    (∀ t, ix.txs h = some t → env.hash t.tx = h) →
    ((bs.foldl (fun ix b => (index env ix b).2) ix).txs h).isSome = ((bs.foldl (fun ix b => (index env ix b).2) ix).receipts h).isSome ∧
      ∀ t, (bs.foldl (fun ix b => (index env ix b).2) ix).txs h = some t → env.hash t.tx = h := by
  induction bs with
  | nil => intro ix hk hh; exact ⟨hk, hh⟩
  | cons b rest ih =>
    intro ix hk hh
    obtain ⟨g1, g2⟩ := together env h ix b hk hh
    exact ih _ g1 g2

/-! ### C168 -/

/-- **C168** (the transaction, exactly): asked for a hash, a node answers the last transaction with that hash in the indexed
blocks, with its block and position, and null iff there is none, whatever is in its pool and queue. -/
theorem C168_transaction (env : Env T E) (bs : List Block) (pool queued : List P) (h : Hash) :
    (transactionByHash (⟨pool, queued, indexAll env bs⟩ : Node P E) h).map (fun t => (t.blockNumber, t.index, t.tx)) =
      (lastAt env (places env bs) h).map (fun p => (p.height, p.index, p.tx)) := by
  have hi := all_info env h bs Index.empty
  obtain ⟨hk, _⟩ := all_together env h bs Index.empty rfl (fun t ht => by cases ht)
  have e0 : info ((Index.empty : Index E).txs h) ((Index.empty : Index E).receipts h) = none := rfl
  rw [e0, Option.or_none] at hi
  rw [← hi]
  show Option.map _ ((indexAll env bs).txs h) = _
  unfold indexAll info
  cases ht : (bs.foldl (fun ix b => (index env ix b).2) Index.empty).txs h with
  | none => rfl
  | some t =>
    rw [ht] at hk
    cases hr : (bs.foldl (fun ix b => (index env ix b).2) Index.empty).receipts h with
    | none => rw [hr] at hk; cases hk
    | some rc => rfl

/-- **C168** (the receipt, exactly): the receipt served for a hash is about that transaction: its hash, block and position are the
transaction's, the status, the gas and the logs are what execution gave, and a contract address is served iff execution created a contract
(at an address other than zero). A receipt is served iff the transaction is. -/
theorem C168_receipt (env : Env T E) (bs : List Block) (pool queued : List P) (h : Hash) :
    (transactionReceipt env (⟨pool, queued, indexAll env bs⟩ : Node P E) h).map
        (fun s => (s.txHash, s.blockNumber, s.txIndex, s.status, s.gasUsed, s.cumulative, s.logs.map (·.raw), s.contract)) =
      (lastAt env (places env bs) h).map
        (fun p => (h, p.height, p.index, p.ok, p.gasUsed, p.cumulative, p.logs, p.contract.filter (fun a => decide (a ≠ Addr.zero)))) := by
  have hi := all_info env h bs Index.empty
  obtain ⟨hk, hh⟩ := all_together env h bs Index.empty rfl (fun t ht => by cases ht)
  have e0 : info ((Index.empty : Index E).txs h) ((Index.empty : Index E).receipts h) = none := rfl
  rw [e0, Option.or_none] at hi
  rw [← hi]
  unfold transactionReceipt Index.txByHash indexAll info
  simp only
  cases ht : (bs.foldl (fun ix b => (index env ix b).2) Index.empty).txs h with
  | none => rfl
  | some t =>
    simp only
    cases hr : (bs.foldl (fun ix b => (index env ix b).2) Index.empty).receipts h with
    | none => rfl
    | some rc =>
      have e : (receiptLogs (env.hash t.tx) t rc).map (·.raw) = rc.logs := by
        unfold receiptLogs
        rw [List.map_map]
        have : ((fun l : Log => l.raw) ∘ fun y : RawLog × Nat => (⟨y.1, t.blockHash, t.blockNumber, env.hash t.tx, t.index, y.2⟩ : Log)) = Prod.fst := rfl
        rw [this, List.zipIdx_map_fst]
      simp [marshalReceipt, hh t ht] at e ⊢
      exact e

/-- **C168** (the logs of the receipt): every log served with a receipt carries the hash, block and position of its transaction, and
the logs are numbered from 0 in the receipt. -/
theorem C168_logs (env : Env T E) (n : Node P E) (h : Hash) (s : Served) (hs : transactionReceipt env n h = some s) (i : Nat) (l : Log)
    (hl : s.logs[i]? = some l) :
    l.txHash = s.txHash ∧ l.blockHash = s.blockHash ∧ l.blockNumber = s.blockNumber ∧ l.txIndex = s.txIndex ∧ l.index = i := by
  unfold transactionReceipt at hs
  split at hs
  · cases hs
  · split at hs
    · cases hs
    · cases hs
      simp only [marshalReceipt, receiptLogs, List.getElem?_map, Option.map_eq_some_iff, List.getElem?_zipIdx] at hl
      obtain ⟨y, ⟨z, _, rfl⟩, rfl⟩ := hl
      simp [marshalReceipt]

/-- **C168 (violated: what is pending is not found).** As long as a transaction waits, in the pool or in the queue, asking for it by
hash is answered as if it did not exist, although (with at most 30 transactions in the pool) the node lists it as pending. -/
theorem C168_pending_violated {K : Type} (e : TxUtils.Env K) (env : Env T TxUtils.EthTx) (bs : List Block)
    (pool queued : List (TxUtils.CosmosTx K)) (x : TxUtils.EthTx) (a : Addr)
    (hx : (x, a) ∈ TxPool.ethTxs e pool ∨ (x, a) ∈ TxPool.ethTxs e queued) (hn : ∀ p ∈ places env bs, env.hash p.tx ≠ env.hash x) :
    transactionByHash ⟨pool, queued, indexAll env bs⟩ (env.hash x) = none ∧
    transactionReceipt env ⟨pool, queued, indexAll env bs⟩ (env.hash x) = none ∧
    ((x, a) ∈ TxPool.ethTxs e pool → pool.length ≤ 30 → (∀ t ∈ pool, TxUtils.cosmosToEth e t ≠ none) →
      ∃ l, TxPool.pendingTransactions e pool = some l ∧ x ∈ l) := by
  have hl : lastAt env (places env bs) (env.hash x) = none := by
    unfold lastAt
    rw [List.getLast?_eq_none_iff, List.filter_eq_nil_iff]
    intro p hp; simpa using hn p hp
  have h1 := C168_transaction env bs pool queued (env.hash x)
  have h2 := C168_receipt env bs pool queued (env.hash x)
  rw [hl] at h1 h2
  refine ⟨by simpa using h1, by simpa using h2, fun hp h30 hc => ⟨_, TxPool.C65_pending_partial e pool h30 hc, ?_⟩⟩
  exact List.mem_map.2 ⟨(x, a), hp, rfl⟩

/-! ### Concrete nodes -/

def show4 (n : Node Bytes UInt8) (h : Hash) : Option (List Nat) :=
  (transactionReceipt toy n h).map fun s => [s.blockNumber, s.txIndex, s.gasUsed, s.cumulative, if s.status then 1 else 0, s.logs.length]

/-- The second and the failed transaction of block 1; the transaction of a block that could not be indexed; a transaction that was
included again in block 2 is answered with its second place. -/
example : show4 ⟨[], [], indexAll toy [b1, b2, b3]⟩ (toy.hash 6) = some [1, 2, 20, 30, 1, 1] ∧
    show4 ⟨[], [], indexAll toy [b1, b2, b3]⟩ (toy.hash 7) = some [1, 3, 30, 60, 0, 0] ∧
    show4 ⟨[], [], indexAll toy [b1, b2, b3]⟩ (toy.hash 8) = none ∧
    show4 ⟨[], [], indexAll toy [d1, d2]⟩ (toy.hash 5) = some [2, 1, 11, 11, 1, 1] := by decide +kernel

/-- An index of Ethereum transactions for which the hypotheses of `C168_pending_violated` are met: nothing is in a block yet. -/
def toyIx : Env (TxUtils.CosmosTx Unit) TxUtils.EthTx where
  decode := fun _ => none
  convert := fun _ => none
  hash := fun x => Hash.ofNat x.nonce
  isCreate := fun _ => false
  cosHash := id
  unpack := fun _ _ => none
  headerHash := fun _ => Hash.zero

example : ∃ x a, (x, a) ∈ TxPool.ethTxs (Props.TxUtils.toyEnv 18) [TxPool.tx0] ∧
    transactionByHash ⟨[TxPool.tx0], [], indexAll toyIx []⟩ (toyIx.hash x) = none ∧
    TxPool.pendingTransactions (Props.TxUtils.toyEnv 18) [TxPool.tx0] = some [x] := by
  have h : TxPool.ethTxs (Props.TxUtils.toyEnv 18) [TxPool.tx0] = [(.legacy 0 9 0 none 0 [] 45 5 6, TxPool.me)] := by decide +kernel
  refine ⟨_, _, by rw [h]; exact List.mem_singleton.2 rfl, ?_, by decide +kernel⟩
  exact (C168_pending_violated (Props.TxUtils.toyEnv 18) toyIx [] [TxPool.tx0] [] _ TxPool.me
    (.inl (by rw [h]; exact List.mem_singleton.2 rfl)) (fun p hp => by simp [places] at hp)).1

end Verif.Props.Follow
