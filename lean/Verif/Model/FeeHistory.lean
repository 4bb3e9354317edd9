/-
eth_feeHistory (jsonrpc/backend/feehistory.go; jsonrpc/namespaces/eth/api.go:331-363 only copies the arrays).

Percentiles are floats in the code. Here they are elements of any type with a comparison `le`; the threshold
`uint64(float64(gasUsed) * p / 100)` (line 279) is a parameter `threshold`, by contract monotone in the percentile (products with a
non-negative number, division by 100 and truncation of floats are monotone). The ratio `gasUsed / gasLimit` is kept as the pair. The
blob columns are constant zero (lines 242-243) and left out. Outside the repository: `eip1559.CalcBaseFee` and
`Transaction.EffectiveGasTip` of go-ethereum, modelled from their specification.
-/
namespace Verif.FeeHistory

/-- The fields of a stored header that are read. indexer/abci.go:119-127 always sets the base fee. -/
structure Hdr where
  number : Nat
  baseFee : Nat
  gasUsed : Nat
  gasLimit : Nat
  deriving DecidableEq

/-- The fields of a transaction that are read. -/
structure Tx where
  tipCap : Nat
  feeCap : Nat
  deriving DecidableEq

/-- What the index holds; `gasOf n`: the `GasUsed` of the receipts of block `n`. -/
structure Db where
  headers : Nat → Option Hdr
  txs : Nat → List Tx
  gasOf : Nat → List Nat

/-- `processedFees`, feehistory.go:46-52 -/
structure Proc where
  reward : List Int
  baseFee : Nat
  nextBaseFee : Nat
  ratio : Nat × Nat
  deriving DecidableEq

/-- What a worker puts on the channel. -/
inductive Res where
  | err
  /-- no header and no error -/
  | missing
  | ok (p : Proc)
  deriving DecidableEq

/-- go-ethereum `eip1559.CalcBaseFee` with elasticity 2 and denominator 8 (outside the repository) -/
def calcBaseFee (h : Hdr) : Nat :=
  let target := h.gasLimit / 2
  if h.gasUsed = target then h.baseFee
  else if h.gasUsed > target then h.baseFee + max 1 (h.baseFee * (h.gasUsed - target) / target / 8)
  else h.baseFee - h.baseFee * (target - h.gasUsed) / target / 8

/-- go-ethereum `Transaction.EffectiveGasTip`: `min(tipCap, feeCap - baseFee)`, returned also when it is negative -/
def effectiveTip (t : Tx) (base : Nat) : Int := min (t.tipCap : Int) ((t.feeCap : Int) - (base : Int))

/-- feehistory.go:266-270: gas and reward of each transaction; `none`: index out of range -/
def mkSorter (h : Hdr) : List Tx → List Nat → Option (List (Nat × Int))
  | [], _ => some []
  | _ :: _, [] => none
  | t :: ts, g :: gs => (mkSorter h ts gs).map ((g, effectiveTip t h.baseFee) :: ·)

/-- feehistory.go:280-283: advance while the sum is below the threshold; the rest of the list are the transactions after `txIndex` -/
def advance (thr : Nat) : (Nat × Int) → List (Nat × Int) → Nat → (Nat × Int) × List (Nat × Int) × Nat
  | cur, [], sum => (cur, [], sum)
  | cur, t :: ts, sum => if sum < thr then advance thr t ts ((sum + t.1) % 18446744073709551616) else (cur, t :: ts, sum)

/-- feehistory.go:278-285 -/
def rewardLoop {P : Type} (threshold : Nat → P → Nat) (gasUsed : Nat) : List P → (Nat × Int) → List (Nat × Int) → Nat → List Int
  | [], _, _, _ => []
  | p :: ps, cur, rest, sum =>
    let a := advance (threshold gasUsed p) cur rest sum
    a.1.2 :: rewardLoop threshold gasUsed ps a.1 a.2.1 a.2.2

/-- feehistory.go:271-273: stable sort by reward -/
def sortTxs (l : List (Nat × Int)) : List (Nat × Int) := l.mergeSort (fun a b => decide (a.2 ≤ b.2))

/-- feehistory.go:248-285; `none`: the goroutine panics -/
def rewards {P : Type} (threshold : Nat → P → Nat) (h : Hdr) (txs : List Tx) (gas : List Nat) (ps : List P) : Option (List Int) :=
  if ps.isEmpty then some []
  else match mkSorter h txs gas with
    | none => none
    | some l => match sortTxs l with
      | [] => some (ps.map (fun _ => 0))
      | t :: ts => some (rewardLoop threshold h.gasUsed ps t ts t.1)

/-- feehistory.go:228-286 (`processBlock`); the query context of lines 229-233 is assumed to be there -/
def processBlock {P : Type} (threshold : Nat → P → Nat) (h : Hdr) (txs : List Tx) (gas : List Nat) (ps : List P) : Option Proc :=
  (rewards threshold h txs gas ps).map (fun r => ⟨r, h.baseFee, calcBaseFee h, (h.gasUsed, h.gasLimit)⟩)

/-- jsonrpc/backend/block.go:46-60 for a block number that is not negative -/
def headerNr (n : Nat) : Nat := if n = 0 then 1 else n

/-- feehistory.go:122-150, the body of a worker: `cache`: what `historyCache` has for this block and these percentiles. Receipts and
transactions are read under the number asked for, the header under `headerNr`. `none`: panic. -/
def fetch {P : Type} (threshold : Nat → P → Nat) (db : Db) (cache : Option Proc) (ps : List P) (n : Nat) : Option Res :=
  match cache with
  | some p => some (.ok p)
  | none => match db.headers (headerNr n) with
    | none => some .missing
    | some h => (processBlock threshold h (db.txs n) (db.gasOf n) ps).map .ok

/-- feehistory.go:91-98: percentiles in range and strictly increasing. `inRange`: between 0 and 100 -/
def validPercentiles {P : Type} (inRange : P → Bool) (lt : P → P → Bool) : List P → Bool
  | [] => true
  | [p] => inRange p
  | p :: q :: ps => inRange p && lt p q && validPercentiles inRange lt (q :: ps)

/-- Outcome of `resolveBlockRange` and of the checks before it. -/
inductive Range where
  | err
  /-- nothing to return: `0` and empty arrays -/
  | empty
  | range (last blocks : Nat)
  deriving DecidableEq

/-- feehistory.go:192-223 (`resolveBlockRange`); `head`: the header of the latest block, `none`: not indexed yet (a nil pointer is
used in line 202; the RPC server answers with an error) -/
def resolveBlockRange (head : Option Hdr) (reqEnd : Int) (blocks : Nat) : Range :=
  match head with
  | none => .err
  | some h =>
    if (h.number : Int) < reqEnd then .err
    else
      let e := if reqEnd < 0 then h.number else reqEnd.toNat
      if blocks = 0 then .empty
      else .range e (if e + 1 < blocks then e + 1 else blocks)

/-- feehistory.go:76-102 -/
def prepare {P : Type} (inRange : P → Bool) (lt : P → P → Bool) (maxHeaders maxBlocks : Nat) (head : Option Hdr)
    (blocks : Nat) (reqEnd : Int) (ps : List P) : Range :=
  if blocks < 1 then .empty
  else
    let m := if ps.length ≠ 0 then maxBlocks else maxHeaders
    if ps.length > 100 then .err
    else if validPercentiles inRange lt ps then resolveBlockRange head reqEnd (if blocks > m then m else blocks)
    else .err

/-! ### Workers -/

/-- A worker goroutine, feehistory.go:114-153. -/
inductive Worker where
  | idle
  /-- has taken a number, fetching -/
  | busy (n : Nat)
  | stopped
  deriving DecidableEq

structure State where
  next : Nat
  workers : List Worker
  chan : List (Nat × Res)
  got : List (Nat × Res)

/-- feehistory.go:103-113: at most four workers -/
def State.init (last blocks : Nat) : State := ⟨last + 1 - blocks, List.replicate (min 4 blocks) .idle, [], []⟩

inductive Label where
  /-- `next.Add(1) - 1`, lines 117-120 -/
  | take (w : Nat)
  /-- the worker sends a result; the channel has room for all of them (line 107) -/
  | finish (w : Nat) (r : Res)
  /-- the collecting loop receives, lines 163-164 -/
  | recv

/-- The collecting loop is still running: no error seen and results outstanding. -/
def collecting (blocks : Nat) (s : State) : Bool := decide (s.got.length < blocks) && s.got.all (fun x => x.2 ≠ .err)

/-- One step. `possible n r`: fetching block `n` can give `r` (the index changes while the request runs). -/
inductive Step (possible : Nat → Res → Prop) (last blocks : Nat) : State → Label → State → Prop
  | take {s : State} {w : Nat} : s.workers[w]? = some .idle →
      Step possible last blocks s (.take w) { s with next := s.next + 1, workers := s.workers.set w (if s.next > last then .stopped else .busy s.next) }
  | finish {s : State} {w n : Nat} {r : Res} : s.workers[w]? = some (.busy n) → possible n r →
      Step possible last blocks s (.finish w r) { s with workers := s.workers.set w .idle, chan := s.chan ++ [(n, r)] }
  | recv {s : State} {x : Nat × Res} {rest : List (Nat × Res)} : s.chan = x :: rest → collecting blocks s = true →
      Step possible last blocks s .recv { s with chan := rest, got := s.got ++ [x] }

inductive Reach (possible : Nat → Res → Prop) (last blocks : Nat) : State → Prop
  | init : Reach possible last blocks (State.init last blocks)
  | next {s s' : State} {l : Label} : Reach possible last blocks s → Step possible last blocks s l s' → Reach possible last blocks s'

/-! ### Collecting -/

/-- The arrays of lines 155-162; `none`/empty is the zero value. -/
structure Arr where
  reward : Nat → List Int
  baseFee : Nat → Option Nat
  ratio : Nat → Option (Nat × Nat)
  firstMissing : Nat

/-- Set one element. -/
def put {α : Type} (f : Nat → α) (i : Nat) (x : α) : Nat → α := fun j => if j = i then x else f j

/-- feehistory.go:168-177 for one result -/
def collect1 (oldest : Nat) (a : Arr) : Nat × Res → Arr
  | (n, .ok p) =>
    let i := n - oldest
    { a with reward := put a.reward i p.reward, baseFee := put (put a.baseFee i (some p.baseFee)) (i + 1) (some p.nextBaseFee)
             ratio := put a.ratio i (some p.ratio) }
  | (n, .missing) => if n - oldest < a.firstMissing then { a with firstMissing := n - oldest } else a
  | (_, .err) => a

def collect (oldest blocks : Nat) (got : List (Nat × Res)) : Arr :=
  got.foldl (collect1 oldest) ⟨fun _ => [], fun _ => none, fun _ => none, blocks⟩

/-- What the caller gets. -/
inductive Out where
  | err
  /-- `0` and empty arrays -/
  | empty
  | val (oldest : Nat) (reward : Option (List (List Int))) (baseFee : List (Option Nat)) (ratio : List (Option (Nat × Nat)))
  deriving DecidableEq

/-- feehistory.go:163-189; `withRewards`: percentiles were asked for -/
def finalOut (withRewards : Bool) (last blocks : Nat) (got : List (Nat × Res)) : Out :=
  if got.any (fun x => x.2 = .err) then .err
  else
    let oldest := last + 1 - blocks
    let a := collect oldest blocks got
    if a.firstMissing = 0 then .empty
    else .val oldest (if withRewards then some ((List.range a.firstMissing).map a.reward) else none)
      ((List.range (a.firstMissing + 1)).map a.baseFee) ((List.range a.firstMissing).map a.ratio)

end Verif.FeeHistory
