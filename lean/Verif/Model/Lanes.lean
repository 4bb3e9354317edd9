/-
How the transactions of the mempool become a proposed block.

Modelled: app/blocksdk.go:28-152 (`setupBlockSDK`): the four lanes, their order, shares and matchers, and what the laned mempool
and the proposal handler are made of.

By contract (outside /repo): skip-mev/block-sdk v2.1.2 (`NewLanedMempool` with `ValidateBasic`, `LanedMempool.Insert`,
`GetBlockLimits`, `GetLaneLimits`, `UpdateProposal`, `PrepareProposalHandler`), cosmos-sdk's `SetUpContextDecorator` (the gas
check), CometBFT's mempool (the size check). What a lane *selects* — the order of its pool, which transactions it tries, the ante
handler and the auction's bundles — is arbitrary: the proposal only keeps a selection that respects the limits. Left out:
`ProcessProposal`.
-/
namespace Verif.Lanes

/-- A transaction as the proposal sees it. -/
structure Tx where
  hash : Nat
  size : Nat
  gas : Nat
deriving DecidableEq

/-- `LaneConfig` (app/blocksdk.go:45-80): `space` in units of 10^-18 (`LegacyDec`). -/
structure Lane where
  name : String
  space : Nat
  maxTxs : Int

/-- app/blocksdk.go:45-52 -/
def systemLane : Lane := ⟨"system", 100000000000000000, 1⟩
/-- app/blocksdk.go:55-62 -/
def mevLane : Lane := ⟨"mev", 100000000000000000, 100⟩
/-- app/blocksdk.go:64-71 -/
def freeLane : Lane := ⟨"free", 100000000000000000, 100⟩
/-- app/blocksdk.go:73-80 -/
def defaultLane (mempoolMaxTxs : Int) : Lane := ⟨"default", 700000000000000000, mempoolMaxTxs⟩

/-- app/blocksdk.go:82 -/
def lanes (mempoolMaxTxs : Int) : List Lane := [systemLane, mevLane, freeLane, defaultLane mempoolMaxTxs]

/-- block-sdk `LanedMempool.ValidateBasic`: distinct names, no more than the whole block, and nothing of it unassigned. -/
def validate (ls : List Lane) : Bool :=
  let total := (ls.map (·.space)).foldr (· + ·) 0
  !ls.isEmpty && decide (ls.map (·.name)).Nodup && decide (total ≤ 1000000000000000000) &&
    (decide (total = 1000000000000000000) || ls.any fun l => l.space == 0)

/-- The matchers (app/blocksdk.go:52, 62, 71; the default lane's matches everything), in the order of the lanes. -/
structure Matchers where
  oracle : Tx → Bool
  bid : Tx → Bool
  free : Tx → Bool

/-- block-sdk `LanedMempool.Insert` over app/blocksdk.go:82: the first lane that matches takes the transaction. -/
def laneOf (m : Matchers) (t : Tx) : String :=
  if m.oracle t then "system" else if m.bid t then "mev" else if m.free t then "free" else "default"

/-- The mempool: what each lane keeps. -/
abbrev Pool := String → List Tx

/-- cosmos-sdk `PriorityNonceMempool.Insert` behind a lane of block-sdk: a lane whose `MaxTxs` is positive takes no more than
so many, one with 0 takes any number, and one with a negative number takes the transaction without keeping it. `none`: refused
(the lane is full). Simplified: a transaction of a sender and nonce already there replaces the older one (a full lane refuses it
all the same); here it is kept beside it. -/
def insertLane (l : Lane) (kept : List Tx) (t : Tx) : Option (List Tx) :=
  if 0 < l.maxTxs ∧ l.maxTxs ≤ kept.length then none
  else if l.maxTxs < 0 then some kept
  else some (kept ++ [t])

/-- block-sdk `LanedMempool.Insert` over app/blocksdk.go:82-90. -/
def offer (mempoolMaxTxs : Int) (m : Matchers) (p : Pool) (t : Tx) : Option Pool :=
  match (lanes mempoolMaxTxs).find? (fun l => l.name == laneOf m t) with
  | none => none
  | some l => (insertLane l (p l.name) t).map fun kept n => if n = l.name then kept else p n

/-- The mempool after a node was offered transactions one after the other, starting empty. -/
def pool (mempoolMaxTxs : Int) (m : Matchers) (ts : List Tx) : Pool :=
  ts.foldl (fun p t => (offer mempoolMaxTxs m p t).getD p) (fun _ => [])

/-- The consensus parameters of a block (`maxGas`: none for -1 or 0). -/
structure Block where
  maxBytes : Nat
  maxGas : Option Nat

/-- block-sdk `GetBlockLimits`: without a gas limit the greatest number. -/
def Block.gasLimit (b : Block) : Nat := b.maxGas.getD 18446744073709551615

/-- A proposal under construction: what the lanes before put into it. -/
structure Proposal where
  txs : List Tx

def Proposal.size (p : Proposal) : Nat := (p.txs.map (·.size)).foldr (· + ·) 0
def Proposal.gas (p : Proposal) : Nat := (p.txs.map (·.gas)).foldr (· + ·) 0

/-- block-sdk `GetLaneLimits`: bytes and gas the lane may use. -/
def limits (b : Block) (p : Proposal) (l : Lane) : Nat × Nat :=
  if l.space = 0 then (b.maxBytes - p.size, b.gasLimit - p.gas)
  else (l.space * b.maxBytes / 1000000000000000000, l.space * b.gasLimit / 1000000000000000000)

/-- block-sdk `UpdateProposal`: a selection with a transaction that is already there, or beyond the lane's or the block's limits,
is dropped as a whole. -/
def update (b : Block) (l : Lane) (p : Proposal) (sel : List Tx) : Proposal :=
  let s := (sel.map (·.size)).foldr (· + ·) 0
  let g := (sel.map (·.gas)).foldr (· + ·) 0
  if sel.any (fun t => p.txs.any fun u => u.hash == t.hash) then p
  else if (limits b p l).1 < s ∨ (limits b p l).2 < g then p
  else if b.maxBytes < p.size + s ∨ b.gasLimit < p.gas + g then p
  else ⟨p.txs ++ sel⟩

/-- block-sdk `PrepareProposalHandler` (app/blocksdk.go:140-147): the lanes in turn, each with what it selects in view of the
proposal so far. -/
def prepare (b : Block) (select : Lane → Proposal → List Tx) : List Lane → Proposal → Proposal
  | [], p => p
  | l :: ls, p => prepare b select ls (update b l p (select l p))

/-- A block of the node, app/blocksdk.go:82, 140-147. -/
def propose (b : Block) (mempoolMaxTxs : Int) (select : Lane → Proposal → List Tx) : List Tx :=
  (prepare b select (lanes mempoolMaxTxs) ⟨[]⟩).txs

/-- What a transaction must satisfy in size and gas to be admitted to the mempool: CometBFT's bytes of a block, and cosmos-sdk's
`SetUpContextDecorator` (in the chain at app/ante/ante.go:90). -/
def admitted (b : Block) (t : Tx) : Bool :=
  decide (t.size ≤ b.maxBytes) && match b.maxGas with
    | none => true
    | some g => decide (t.gas ≤ g)

end Verif.Lanes
