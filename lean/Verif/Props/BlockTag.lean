import Verif.Model.BlockTag
import Verif.Props.Indexer
/-
C51: which block a block-parametrised JSON-RPC method answers about.
-/
namespace Verif.BlockTag
open Verif Verif.Indexer

variable {T E S A : Type}

/-! ### Specification -/

/-- What a user writes for a block. -/
inductive Tag where
  | earliest | latest | safe | finalized | pending
  | number (n : Nat)
  | hash (h : Hash)

/-- The block a tag means on a node: `earliest` is block 1, the other names the head. `none`: no block with that hash. -/
def Tag.block (n : Node E S) : Tag → Option Nat
  | .earliest => some 1
  | .number k => some k
  | .hash h => n.ix.numOf h
  | _ => some n.head

/-- How a tag reaches the server (go-ethereum, rpc/types.go). -/
def Tag.req : Tag → Req
  | .earliest => .num 0
  | .pending => .num (-1)
  | .latest => .num (-2)
  | .finalized => .num (-3)
  | .safe => .num (-4)
  | .number k => .num k
  | .hash h => .hash h

/-- The same for the methods that take a number only. -/
def Tag.num : Tag → Option Int
  | .earliest => some 0
  | .pending => some (-1)
  | .latest => some (-2)
  | .finalized => some (-3)
  | .safe => some (-4)
  | .number k => some k
  | .hash _ => none

/-- Numbers are written from 1 (`0x0` and `earliest` are the same request) and heads are positive. -/
def Tag.Wf : Tag → Prop
  | .number k => 1 ≤ k
  | _ => True

/-- The application and CometBFT agree and keep the state of block `b`. -/
def Settled (n : Node E S) : Prop := n.appHead = n.head ∧ 1 ≤ n.head

/-! ### Lemmas -/

theorem resolve_tag (n : Node E S) (t : Tag) (k : Int) (ht : t.Wf) (hk : t.num = some k) : some (resolveBlockNr n k) = t.block n := by
  cases t with
  | number m =>
    simp only [Tag.num, Option.some.injEq] at hk
    simp only [Tag.Wf] at ht
    subst hk
    simp only [Tag.block, resolveBlockNr]
    rw [if_neg (by omega), if_neg (by omega)]; simp
  | hash h => simp [Tag.num] at hk
  | _ => simp only [Tag.num, Option.some.injEq] at hk; subst hk; simp [Tag.block, resolveBlockNr]

theorem resolveOr_tag (n : Node E S) (t : Tag) (ht : t.Wf) : resolveBlockNrOrHash n t.req = t.block n := by
  cases t with
  | hash h => rfl
  | number m => exact resolve_tag n (.number m) m ht rfl
  | earliest => rfl
  | latest => exact resolve_tag n .latest _ trivial rfl
  | safe => exact resolve_tag n .safe _ trivial rfl
  | finalized => exact resolve_tag n .finalized _ trivial rfl
  | pending => exact resolve_tag n .pending _ trivial rfl

theorem ctx_settled (n : Node E S) (hs : Settled n) (b : Nat) (h1 : 1 ≤ b) (h2 : b ≤ n.head) : getQueryCtxWithHeight n n b = n.states b := by
  unfold getQueryCtxWithHeight createQueryCtx
  have := hs.1
  by_cases h : b ≥ n.head
  · have hb : b = n.head := by omega
    rw [if_pos h, if_pos rfl, hs.1, hb]
  · rw [if_neg h, if_neg (by omega), if_neg (by omega)]

/-- The state for a tag is the state of the block the tag means. -/
theorem stateFor_settled (n : Node E S) (hs : Settled n) (t : Tag) (ht : t.Wf) (b : Nat) (hb : t.block n = some b) (h1 : 1 ≤ b) (h2 : b ≤ n.head) :
    stateFor n n n t.req = n.states b := by
  unfold stateFor
  rw [resolveOr_tag n t ht, hb]
  exact ctx_settled n hs b h1 h2

/-! ### C51 -/

/-- The methods about blocks answer about the block the tag means when the request arrives (`n0`), whatever is committed before the
index is read (`n`): header, block, number of transactions, receipts. -/
theorem C51_blocks (n0 n : Node E S) (t : Tag) (ht : t.Wf) (b : Nat) (hb : t.block n0 = some b) :
    (∀ k, t.num = some k →
      getHeaderByNumber n0 n k = (match n.ix.headers b with | some h => .val h | none => .null) ∧
      getBlockByNumber n0 n k = (match n.ix.headers b with
        | some h => (match n.ix.blockTxs b with | some l => .val (h, l) | none => .err)
        | none => .null) ∧
      getBlockTransactionCountByNumber n0 n k = (match n.ix.headers b with
        | some _ => (match n.ix.blockTxs b with | some l => .val l.length | none => .err)
        | none => .null)) ∧
    getBlockReceipts n0 n t.req = (match n.ix.blockTxs b, n.ix.blockReceipts b with
      | some l, some r => if l.length = r.length then .val (r.zip l) else .err
      | _, _ => .err) := by
  refine ⟨fun k hk => ?_, ?_⟩
  · have hr : resolveBlockNr n0 k = b := by
      have := resolve_tag n0 t k ht hk
      rw [hb] at this; exact Option.some.inj this
    unfold getBlockTransactionCountByNumber getHeaderByNumber getBlockByNumber
    simp only [hr]
    refine ⟨?_, ?_, ?_⟩
    · cases n.ix.headers b <;> rfl
    · cases n.ix.headers b with
      | none => rfl
      | some h => cases n.ix.blockTxs b <;> rfl
    · cases n.ix.headers b with
      | none => rfl
      | some h => cases n.ix.blockTxs b <;> rfl
  · unfold getBlockReceipts
    rw [resolveOr_tag n0 t ht, hb]
    dsimp only
    cases n.ix.blockTxs b <;> cases n.ix.blockReceipts b <;> rfl

/-- A block asked for by its hash is the block with that hash. -/
theorem C51_by_hash (n : Node E S) (h : Hash) (b : Nat) (hb : n.ix.numOf h = some b) (h1 : 1 ≤ b) :
    getBlockByHash n n h = getBlockByNumber n n b ∧
    (∀ i, getTransactionByBlockHashAndIndex n h i = (match n.ix.txByBlockAndIndex b i with | some t => .val t | none => .null)) := by
  refine ⟨?_, fun i => ?_⟩
  · unfold getBlockByHash; rw [hb]
  · unfold getTransactionByBlockHashAndIndex; rw [hb]
    cases h : n.ix.txByBlockAndIndex b i <;> simp [h]

/-- **C51** (a hash, while blocks are committed). A block whose hash the node knows when it looks the hash up is answered as it is indexed
then, whatever is committed meanwhile (the index keeps what it has); a hash it does not know then is an error, even if the block is
indexed a moment later. -/
theorem C51_by_hash_moving (n0 n1 : Node E S) (h : Hash)
    (keepsHeader : ∀ b x, n0.ix.headers b = some x → n1.ix.headers b = some x)
    (keepsTxs : ∀ b x, n0.ix.blockTxs b = some x → n1.ix.blockTxs b = some x) :
    (∀ b hd txs, n0.ix.numOf h = some b → 1 ≤ b → n0.ix.headers b = some hd → n0.ix.blockTxs b = some txs →
      getBlockByHash n0 n1 h = .val (hd, txs)) ∧
    (n0.ix.numOf h = none → getBlockByHash n0 n1 h = .err) := by
  refine ⟨fun b hd txs hb h1 hh ht => ?_, fun hb => ?_⟩
  · unfold getBlockByHash
    rw [hb]
    have hr : resolveBlockNr n0 (b : Int) = b := by
      unfold resolveBlockNr
      split <;> first | omega | (simp; omega)
    simp only [getBlockByNumber, hr, keepsHeader b hd hh, keepsTxs b txs ht]
  · unfold getBlockByHash; rw [hb]

/-- The methods about accounts and contracts answer from the state after the block the tag means, when that block is not in the
future. For `GetTransactionCount` the tags `earliest` and `pending` are excepted. -/
theorem C51_state_partial (R : Reads S A) (n : Node E S) (hs : Settled n) (t : Tag) (ht : t.Wf) (b : Nat) (hb : t.block n = some b)
    (h1 : 1 ≤ b) (h2 : b ≤ n.head) (s : S) (hst : n.states b = some s) :
    (∀ a k, getStorageAt R n n n a k t.req = .val (R.storage s a k)) ∧
    (∀ a, getCode R n n n a t.req = .val (R.code s a)) ∧
    (∀ x, call R n n n x (some t.req) = (match R.call s x with | some o => .val o | none => .err)) ∧
    (∀ a l, n.states n.head = some l → R.feeDenom l = R.feeDenom s → R.decimals l (R.feeDenom s) = R.decimals s (R.feeDenom s) →
      getBalance R n n n n a t.req = .val (Fees.toEthers (R.decimals s (R.feeDenom s)) (R.balance s a (R.feeDenom s)))) ∧
    (t ≠ .earliest → t ≠ .pending → ∀ a, getTransactionCount R n n n a t.req = .val (R.sequence s a)) := by
  have hst' : stateFor n n n t.req = some s := (stateFor_settled n hs t ht b hb h1 h2).trans hst
  refine ⟨fun a k => ?_, fun a => ?_, fun x => ?_, fun a l hl hf hd => ?_, fun he hp a => ?_⟩
  · unfold getStorageAt; rw [hst']; rfl
  · unfold getCode; rw [hst']; rfl
  · unfold call; rw [Option.getD_some, hst']
    dsimp only
    cases R.call s x <;> rfl
  · unfold getBalance
    rw [hst']
    have : createQueryCtx n 0 = some l := by unfold createQueryCtx; rw [if_pos rfl, hs.1]; exact hl
    rw [this]
    simp only [hf, hd]
  · have hz : getQueryCtxWithHeight n n 0 = n.states n.head := by
      unfold getQueryCtxWithHeight createQueryCtx
      rw [ite_self, if_pos rfl, hs.1]
    have hneg : ∀ k : Int, k < 0 → k ≠ -1 → b = n.head → getTransactionCount R n n n a (.num k) = .val (R.sequence s a) := by
      intro k hk hk1 hbh
      simp only [getTransactionCount]
      rw [if_neg hk1, if_pos hk, hz, ← hbh, hst]; rfl
    cases t with
    | earliest => exact absurd rfl he
    | pending => exact absurd rfl hp
    | hash h =>
      have hb' : n.ix.numOf h = some b := hb
      show (match n.ix.numOf h with | none => _ | some b => _) = _
      rw [hb']
      show ans (getQueryCtxWithHeight n n b) _ = _
      rw [ctx_settled n hs b h1 h2, hst]; rfl
    | number m =>
      simp only [Tag.block, Option.some.injEq] at hb
      subst hb
      simp only [Tag.req, getTransactionCount]
      rw [if_neg (by omega), if_neg (by omega), Int.toNat_natCast, ctx_settled n hs m h1 h2, hst]; rfl
    | latest => exact hneg _ (by omega) (by omega) (Option.some.inj hb).symm
    | safe => exact hneg _ (by omega) (by omega) (Option.some.inj hb).symm
    | finalized => exact hneg _ (by omega) (by omega) (Option.some.inj hb).symm

/-- A later moment of the same node: heads do not go back and committed states stay (unless pruned, excluded). -/
structure Later (n n' : Node E S) : Prop where
  head : n.head ≤ n'.head
  appHead : n.appHead ≤ n'.appHead
  states : ∀ h s, n.states h = some s → n'.states h = some s

/-- A number strictly below the head is answered from the state of that block, however far the node moves on while the method
runs. -/
theorem C51_past_number (R : Reads S A) (n0 n1 n2 : Node E S) (_h01 : Later n0 n1) (h12 : Later n1 n2) (b : Nat) (h1 : 1 ≤ b)
    (h2 : b < n1.head) (h3 : b ≤ n1.appHead) (s : S) (hst : n1.states b = some s) :
    (∀ a k, getStorageAt R n0 n1 n2 a k (.num b) = .val (R.storage s a k)) ∧
    (∀ a, getCode R n0 n1 n2 a (.num b) = .val (R.code s a)) ∧
    (∀ x, call R n0 n1 n2 x (some (.num b)) = (match R.call s x with | some o => .val o | none => .err)) ∧
    (∀ a, getTransactionCount R n0 n1 n2 a (.num b) = .val (R.sequence s a)) := by
  have hc : getQueryCtxWithHeight n1 n2 b = some s := by
    unfold getQueryCtxWithHeight createQueryCtx
    have := h12.appHead
    have he : (if b ≥ n1.head then 0 else b) = b := if_neg (by omega)
    rw [he, if_neg (by omega), if_neg (by omega)]
    exact h12.states _ _ hst
  have hr : resolveBlockNr n0 (b : Int) = b := by
    unfold resolveBlockNr; rw [if_neg (by omega), if_neg (by omega)]; simp
  have hs : stateFor n0 n1 n2 (.num b) = some s := by
    simp only [stateFor, resolveBlockNrOrHash, hr, hc]
  refine ⟨fun a k => ?_, fun a => ?_, fun x => ?_, fun a => ?_⟩
  · unfold getStorageAt; rw [hs]; rfl
  · unfold getCode; rw [hs]; rfl
  · unfold call; rw [Option.getD_some, hs]
    dsimp only
    cases R.call s x <;> rfl
  · simp only [getTransactionCount]
    rw [if_neg (by omega), if_neg (by omega), Int.toNat_natCast, hc]; rfl

/-- `latest` and every other name never find a transaction by its index, on any node, whatever the blocks contain: the number of
the tag is used as a height. -/
theorem C51_index_violated (n : Node E S) (hix : ∀ x ∈ n.ix.byIndex, 1 ≤ x.1.1 ∧ x.1.1 < 9223372036854775808) (t : Tag) (k : Int)
    (hk : t.num = some k) (ht : ∀ m, t ≠ .number m) (i : Nat) : getTransactionByBlockNumberAndIndex n k i = .null := by
  have hu : u64 k = 0 ∨ 9223372036854775808 ≤ u64 k := by
    cases t with
    | number m => exact absurd rfl (ht m)
    | hash h => cases hk
    | _ => simp only [Tag.num, Option.some.injEq] at hk; subst hk; decide +kernel
  have hl : look (u64 k, i) n.ix.byIndex = none := by
    generalize n.ix.byIndex = l at hix
    induction l with
    | nil => rfl
    | cons x r ih =>
      obtain ⟨⟨a, c⟩, v⟩ := x
      simp only [look]
      have := hix ((a, c), v) (by simp)
      rw [if_neg (by intro he; simp only [Prod.mk.injEq] at he; simp only at this; omega)]
      exact ih (fun y hy => hix y (by simp [hy]))
  unfold getTransactionByBlockNumberAndIndex Index.txByBlockAndIndex
  rw [hl]; rfl

/-- For numbers the two-parameter lookup reads the block with that number. -/
theorem C51_index_partial (n : Node E S) (m i : Nat) (hm : m < 9223372036854775808) :
    getTransactionByBlockNumberAndIndex n m i = (match n.ix.txByBlockAndIndex m i with | some t => .val t | none => .null) := by
  have : u64 (m : Int) = m := by unfold u64; omega
  unfold getTransactionByBlockNumberAndIndex
  rw [this]
  cases h : n.ix.txByBlockAndIndex m i <;> simp [h]

/-- `eth_call` without a block means the latest one. -/
theorem C51_default (R : Reads S A) (n : Node E S) (x : A) : call R n n n x none = call R n n n x (some (Tag.req .latest)) := rfl

/-- A request that names neither a number nor a hash means the latest block, for every method. -/
theorem C51_neither (R : Reads S A) (n : Node E S) (hh : 1 ≤ n.head) :
    stateFor n n n .neither = stateFor n n n (Tag.req .latest) ∧
    getBlockReceipts n n .neither = getBlockReceipts n n (Tag.req .latest) ∧
    ∀ a, getTransactionCount R n n n a .neither = getTransactionCount R n n n a (Tag.req .latest) := by
  have hr : resolveBlockNrOrHash n .neither = resolveBlockNrOrHash n (Tag.req .latest) := (resolveOr_tag n .latest trivial).symm
  refine ⟨?_, ?_, fun a => ?_⟩
  · unfold stateFor; rw [hr]
  · unfold getBlockReceipts; rw [hr]
  · simp [Tag.req, getTransactionCount]

/-- A gas estimate is one for the latest state whenever no transaction has been checked since the last block; the block named is not
looked at. -/
theorem C51_estimate_partial (R : Reads S A) (n : Node E S) (hc : n.states n.head = some n.check) (x : A) (r : Option Req) :
    some (estimateGas R n x r) = (n.states n.head).map fun s => .val (R.simulate s x) := by
  rw [hc]; rfl

/-! ### A chain -/

/-- States are heights; the fee token changes at height 3. -/
def R0 : Reads Nat Unit where
  feeDenom s := if s < 3 then 0 else 1
  decimals _ _ := 18
  balance s _ d := if d = 0 then 100 + s else 7
  sequence s _ := s
  storage _ _ _ := Hash.zero
  code s _ := [UInt8.ofNat s]
  call s _ := some [UInt8.ofNat s]
  simulate s _ := 21000 + s

/-- Three blocks. -/
def ix0 : Index UInt8 := indexAll toy [b1, ⟨2, [([8], ⟨true, 1, []⟩)]⟩, b3]

def node (h : Nat) : Node UInt8 Nat := ⟨h, h, fun k => if 1 ≤ k ∧ k ≤ h then some k else none, h + 100, ix0⟩

def a0 : Addr := Addr.zero

example : Settled (node 3) ∧ (Tag.number 2).Wf ∧ (Tag.number 2).block (node 3) = some 2 ∧ (node 3).states 2 = some 2 :=
  ⟨⟨rfl, by decide⟩, by simp [Tag.Wf], rfl, rfl⟩

example : Later (node 3) (node 4) := ⟨by decide, by decide, fun h s => by
  simp only [node]
  intro hs
  by_cases hh : 1 ≤ h ∧ h ≤ 3
  · rw [if_pos hh] at hs; rw [if_pos ⟨hh.1, by omega⟩]; exact hs
  · rw [if_neg hh] at hs; cases hs⟩

example : getCode R0 (node 3) (node 3) (node 4) a0 (.num 2) = .val [2] := rfl

example : getBlockTransactionCountByNumber (node 3) (node 3) (-2) = .val 1 ∧ getBlockTransactionCountByNumber (node 3) (node 3) 0 = .val 3 := by decide +kernel

/-- The node before its third block was indexed: the hypotheses of `C51_by_hash_moving` for block 1, and a hash that is indexed a moment
too late. -/
def node2 : Node UInt8 Nat := { node 2 with ix := indexAll toy [b1, ⟨2, [([8], ⟨true, 1, []⟩)]⟩] }

/-- The hash of a block of the longer chain. -/
def hashOf (b : Nat) : Hash := (((node 3).ix.headers b).map toy.headerHash).getD Hash.zero

example : [1, 2, 3].map (fun b => ((node2.ix.blockTxs b).map List.length, ((node 3).ix.blockTxs b).map List.length)) =
      [(some 3, some 3), (some 1, some 1), (some 0, some 1)] ∧
    [1, 2, 3].map (fun b => (node2.ix.numOf (hashOf b), (node 3).ix.numOf (hashOf b))) =
      [(some 1, some 1), (some 2, some 2), (none, some 3)] := by decide +kernel

/-- On this chain `latest` has a transaction, `eth_getBlockByNumber` shows it, and no index finds it. -/
example : (∀ x ∈ (node 3).ix.byIndex, 1 ≤ x.1.1 ∧ x.1.1 < 9223372036854775808) ∧
    getBlockTransactionCountByNumber (node 3) (node 3) (-2) = .val 1 ∧ ((node 3).ix.txByBlockAndIndex 3 1).isSome := by decide +kernel

/-- `earliest` is block 1 for the balance and the code, and the latest block for the transaction count. -/
theorem C51_earliest_violated : getCode R0 (node 3) (node 3) (node 3) a0 (Tag.req .earliest) = .val [1] ∧
    getTransactionCount R0 (node 3) (node 3) (node 3) a0 (Tag.req .earliest) = .val 3 ∧
    getTransactionCount R0 (node 3) (node 3) (node 3) a0 (Tag.req (.number 1)) = .val 1 := ⟨rfl, rfl, rfl⟩

/-- The same for every chain with more than one block: the transaction count at `earliest` is the one at the head. -/
theorem C51_earliest_count_violated (R : Reads S A) (n : Node E S) (hs : Settled n) (a : Addr) :
    getTransactionCount R n n n a (Tag.req .earliest) = getTransactionCount R n n n a (Tag.req .latest) := by
  simp [Tag.req, getTransactionCount]

/-- A block that does not exist yet: the state methods answer with the latest state, the block methods say `null`. -/
theorem C51_future_violated (R : Reads S A) (n : Node E S) (hs : Settled n) (m : Nat) (hm : n.head < m) (l : S) (hl : n.states n.head = some l)
    (hx : n.ix.headers m = none) (a : Addr) :
    getCode R n n n a (Tag.req (.number m)) = .val (R.code l a) ∧ getTransactionCount R n n n a (Tag.req (.number m)) = .val (R.sequence l a) ∧
    getBlockByNumber n n m = .null := by
  have h1 := hs.2
  have hr : resolveBlockNr n (m : Int) = m := by
    unfold resolveBlockNr; rw [if_neg (by omega), if_neg (by omega)]; simp
  have hc : getQueryCtxWithHeight n n m = some l := by
    unfold getQueryCtxWithHeight createQueryCtx
    have he : (if m ≥ n.head then 0 else m) = 0 := if_pos (by omega)
    rw [he, if_pos rfl, hs.1]; exact hl
  refine ⟨?_, ?_, ?_⟩
  · unfold getCode stateFor Tag.req resolveBlockNrOrHash
    simp only [hr, hc]; rfl
  · simp only [Tag.req, getTransactionCount]
    rw [if_neg (by omega), if_neg (by omega), Int.toNat_natCast, hc]; rfl
  · unfold getBlockByNumber; simp only [hr, hx]

example : Settled (node 3) ∧ (node 3).head < 9 ∧ (node 3).states 3 = some 3 ∧ (node 3).ix.headers 9 = none := ⟨⟨rfl, by decide⟩, by decide, rfl, rfl⟩

/-- A hash of no block: an error from most methods, `null` from two, never the same answer. -/
theorem C51_unknown_hash_violated (R : Reads S A) (n : Node E S) (h : Hash) (hh : n.ix.numOf h = none) (a : Addr) (i : Nat) :
    getCode R n n n a (.hash h) = .err ∧ getBlockByHash n n h = .err ∧ getTransactionCount R n n n a (.hash h) = .null ∧
    getTransactionByBlockHashAndIndex n h i = .null := by
  refine ⟨?_, ?_, ?_, ?_⟩
  · unfold getCode stateFor resolveBlockNrOrHash; simp only [hh]; rfl
  · unfold getBlockByHash; simp only [hh]
  · simp only [getTransactionCount, hh]
  · unfold getTransactionByBlockHashAndIndex; simp only [hh]

example : (node 3).ix.numOf Hash.zero = none := by decide +kernel

/-- The block a user names by number is not the block answered about, if it is the head when the request arrives and a block is
committed before the state is opened. -/
theorem C51_race_violated : Later (node 3) (node 4) ∧ getCode R0 (node 3) (node 3) (node 4) a0 (Tag.req (.number 3)) = .val [4] ∧
    getCode R0 (node 4) (node 4) (node 4) a0 (Tag.req (.number 3)) = .val [3] :=
  ⟨⟨by decide, by decide, fun h s => by
    simp only [node]
    intro hs
    by_cases hh : 1 ≤ h ∧ h ≤ 3
    · rw [if_pos hh] at hs; rw [if_pos ⟨hh.1, by omega⟩]; exact hs
    · rw [if_neg hh] at hs; cases hs⟩, rfl, rfl⟩

/-- The balance at a past block is that of today's fee token, not of the fee token of that block. -/
theorem C51_balance_violated : getBalance R0 (node 2) (node 2) (node 2) (node 2) a0 (Tag.req (.number 2)) = .val 102 ∧
    getBalance R0 (node 3) (node 3) (node 3) (node 3) a0 (Tag.req (.number 2)) = .val 7 := by decide +kernel

/-- Gas estimation ignores the block. -/
theorem C51_estimate_violated (R : Reads S A) (n : Node E S) (x : A) (r r' : Option Req) : estimateGas R n x r = estimateGas R n x r' ∧
    estimateGas R0 (node 3) () (some (Tag.req (.number 1))) ≠ .val (R0.simulate 1 ()) := ⟨rfl, by decide⟩

end Verif.BlockTag
