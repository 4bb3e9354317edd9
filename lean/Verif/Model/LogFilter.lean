import Verif.Model.BlockTag
/-
eth_getLogs and eth_getFilterLogs (jsonrpc/namespaces/eth/filters/{filter,api}.go) over the index of Model/Indexer.

Outside the model, by contract: the bloom of go-ethereum (core/types/bloom9.go), a bit vector to which a value adds the bits
`bits value` (three positions computed with keccak; any function here); a value is found when all its bits are set. The goroutine
of `rangeLogsAsync` and the two unbuffered channels are run sequentially and the whole query reads one node: Model/LogStream has the
goroutines, the changing index and cancellation, and C99 shows that the answer is this one.
-/
namespace Verif.LogFilter
open Verif Verif.Indexer Verif.BlockTag

/-- `coretypes.Bloom` -/
abbrev Bloom := Nat → Bool

/-- go-ethereum `Bloom.add` -/
def Bloom.add (bits : Bytes → List Nat) (b : Bloom) (v : Bytes) : Bloom := fun i => b i || (bits v).contains i

/-- go-ethereum `BloomLookup` -/
def Bloom.has (bits : Bytes → List Nat) (b : Bloom) (v : Bytes) : Bool := (bits v).all (fun i => b i)

/-- one log of go-ethereum `CreateBloom` -/
def addLog (bits : Bytes → List Nat) (b : Bloom) (l : RawLog) : Bloom :=
  l.topics.foldl (fun b t => b.add bits t.bytes) (b.add bits l.addr.bytes)

/-- go-ethereum `CreateBloom(receipts)`, the header field set at indexer/abci.go:122 -/
def createBloom (bits : Bytes → List Nat) (rs : List Receipt) : Bloom :=
  rs.foldl (fun b r => r.logs.foldl (addLog bits) b) (fun _ => false)

/-- `ethfilters.FilterCriteria` -/
structure Crit where
  blockHash : Option Hash
  fromBlock : Option Int
  toBlock : Option Int
  addresses : List Addr
  topics : List (List Hash)

/-- jsonrpc/namespaces/eth/filters/filter.go:243-250 (`includes`) -/
def includes {α : Type} [DecidableEq α] : List α → α → Bool
  | [], _ => false
  | x :: l, e => if x = e then true else includes l e

/-- the loop over the topics in `filterLogs`, filter.go:223-230; `log.Topics[i]` exists by the length check before it -/
def topicsOk : List (List Hash) → List Hash → Bool
  | [], _ => true
  | sub :: ts, lt => match lt with
    | [] => if sub.isEmpty then topicsOk ts [] else false
    | t :: lts => if sub.isEmpty then topicsOk ts lts else if includes sub t then topicsOk ts lts else false

/-- `check` in `filterLogs`, filter.go:209-232 -/
def check (fromBlock toBlock : Option Int) (addresses : List Addr) (topics : List (List Hash)) (l : Log) : Bool :=
  if (match fromBlock with | some f => decide (f ≥ 0) && decide (f.toNat > l.blockNumber) | none => false) then false
  else if (match toBlock with | some t => decide (t ≥ 0) && decide (t.toNat < l.blockNumber) | none => false) then false
  else if addresses.length > 0 && !includes addresses l.raw.addr then false
  else if topics.length > l.raw.topics.length then false
  else topicsOk topics l.raw.topics

/-- filter.go:208-240 (`filterLogs`) -/
def filterLogs (logs : List Log) (fromBlock toBlock : Option Int) (addresses : List Addr) (topics : List (List Hash)) : List Log :=
  logs.filter (check fromBlock toBlock addresses topics)

/-- filter.go:252-279 (`bloomFilter`) -/
def bloomFilter (bits : Bytes → List Nat) (b : Bloom) (addresses : List Addr) (topics : List (List Hash)) : Bool :=
  (addresses.isEmpty || addresses.any (fun a => b.has bits a.bytes)) &&
  topics.all (fun sub => sub.isEmpty || sub.any (fun t => b.has bits t.bytes))

variable {T E S : Type}

/-- filter.go:188-205 (`blockLogs`, `checkMatches`); `none`: error -/
def blockLogs (bits : Bytes → List Nat) (env : Env T E) (ix : Index E) (c : Crit) (hd : Header) : Option (List Log) :=
  if bloomFilter bits (createBloom bits hd.receipts) c.addresses c.topics then
    (ix.logsByHeight env hd.number).map (fun l => filterLogs l none none c.addresses c.topics)
  else some []

/-- filter.go:166-185 (`unindexedLogs`): `k` rounds left, block `b` -/
def walk (bits : Bytes → List Nat) (env : Env T E) (n : Node E S) (c : Crit) : Nat → Nat → Option (List Log)
  | 0, _ => some []
  | k + 1, b => match getHeaderByNumber n n b with
    | .err => none
    | .null => some []
    | .val hd => match blockLogs bits env n.ix c hd with
      | none => none
      | some l => (walk bits env n c k (b + 1)).map (l ++ ·)

/-- filter.go:101-110: a bound of the range -/
def bound (head : Int) (k : Int) : Int := if k < 0 then head else if k = 0 then 1 else k

/-- filter.go:88-136, the range query -/
def rangeLogs (bits : Bytes → List Nat) (env : Env T E) (n : Node E S) (c : Crit) (begin_ end_ : Int) : Ans (List Log) :=
  match getHeaderByNumber n n (-2) with
  | .err => .err
  | .null => .val []
  | .val hd =>
    let head : Int := hd.number
    let b := bound head begin_
    let e := bound head end_
    if e < b then .err
    else if b > head then .val []
    else
      let e := if e > head then head else e
      match walk bits env n c (e + 1 - b).toNat b.toNat with
      | none => .err
      | some l => .val l

/-- indexer/reader.go `BlockHeaderByHash`, jsonrpc/backend/block.go:83-98 (`GetHeaderByHash`) -/
def getHeaderByHash (n : Node E S) (h : Hash) : Ans Header :=
  match n.ix.numOf h with
  | none => .null
  | some b => match n.ix.headers b with
    | none => .null
    | some hd => .val hd

/-- filter.go:73-136 (`Filter.Logs`) -/
def logs (bits : Bytes → List Nat) (env : Env T E) (n : Node E S) (c : Crit) (block : Option Hash) (begin_ end_ : Int) : Ans (List Log) :=
  match block with
  | some h =>
    if h ≠ Hash.zero then
      match getHeaderByHash n h with
      | .err => .err
      | .null => .err
      | .val hd => match blockLogs bits env n.ix c hd with
        | none => .err
        | some l => .val l
    else rangeLogs bits env n c begin_ end_
  | none => rangeLogs bits env n c begin_ end_

/-- api.go:346-377 (`GetLogs`) -/
def getLogs (bits : Bytes → List Nat) (env : Env T E) (n : Node E S) (c : Crit) : Ans (List Log) :=
  if c.topics.length > 4 then .err
  else match c.blockHash with
    | some h => logs bits env n c (some h) 0 0
    | none =>
      let b := c.fromBlock.getD (-2)
      let e := c.toBlock.getD (-2)
      if b > 0 ∧ e > 0 ∧ b > e then .err else logs bits env n c none b e

/-- api.go:396-430 (`GetFilterLogs`), for an installed log filter with criteria `c` -/
def getFilterLogs (bits : Bytes → List Nat) (env : Env T E) (n : Node E S) (c : Crit) : Ans (List Log) :=
  match c.blockHash with
  | some h => logs bits env n c (some h) 0 0
  | none => logs bits env n c none (c.fromBlock.getD (-2)) (c.toBlock.getD (-2))

end Verif.LogFilter
