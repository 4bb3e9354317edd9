import Verif.Model.World
/-
Model of what a node keeps only in memory while it executes blocks, and of what else it does meanwhile: the counter of
executions (x/evm/keeper/keeper.go:47-49, 103, 123), which block execution shares with queries, simulations and the checking of
incoming transactions, and which starts from nothing when the node does.

The EVM, the message server and the rest of the application are a `Program`: any function from what can be read to
the next operation. Queries, simulations and the checking of transactions run on stores of their own (cosmos-sdk: a branch of the
committed state, which is thrown away); all that remains of them is the counter. The 64-bit wrap of the counter is not
modelled. The counter is used in store keys only (x/evm/state/statedb.go, every use of `s.execIndex`). The other thing kept in memory, the objects of
`query_cosmos`, is in Model/NodesOracle.lean.
-/
namespace Verif.Nodes
open Verif Verif.World

/-- A node in the middle of a block. -/
structure Local where
  /-- x/evm/keeper/keeper.go:49 (`execIndex`) -/
  ctr : Nat
  /-- what the current context shows -/
  w : World
  /-- the states kept by snapshots and by the transaction runner, oldest first -/
  kept : List World
  /-- the index of every execution of this block, oldest first (x/evm/state/statedb.go:82, 111) -/
  idx : List Nat
  /-- did the last operation panic? -/
  failed : Bool

/-- What the execution of a block does. Executions are named by their position in the block. -/
inductive Act
  /-- a new EVM execution, top-level or nested: x/evm/state/statedb.go:63-119 (`NewStateDB`) -/
  | start
  /-- an operation of the `i`-th execution -/
  | perform (i : Nat) (op : StateOp)
  /-- the clean-up at the end of the `i`-th execution: x/evm/state/statedb.go:629-647 -/
  | finish (i : Nat)
  /-- keep the current state: x/evm/state/statedb.go:561-574 (`Snapshot`), the transaction runner's branch -/
  | keep
  /-- return to the `j`-th kept state: x/evm/state/statedb.go:577-590 (`RevertToSnapshot`), a failed transaction -/
  | back (j : Nat)

/-- One operation; `none` is a panic. `start` is x/evm/state/statedb.go:82-95. -/
def act (keccak : Bytes → Hash) (s : Local) : Act → Option Local
  | .start => some { s with ctr := s.ctr + 1, w := s.w.newStateDB (s.ctr + 1), idx := s.idx ++ [s.ctr + 1] }
  | .perform i op => (s.idx[i]?).bind fun e => (s.w.step keccak e op).map fun w => { s with w := w }
  | .finish i => (s.idx[i]?).map fun e => { s with w := s.w.commitDestructs e }
  | .keep => some { s with kept := s.kept ++ [s.w] }
  | .back j => (s.kept[j]?).map fun w => { s with w := w, kept := s.kept.take j }

/-- The state as the executions of a block see it: the transient data of the `i`-th execution are those under its index. -/
def named (idx : List Nat) (w : World) : World :=
  { w with
    tstate := fun i k => (idx[i]?).bind fun e => w.tstate e k
    created := fun i a => (idx[i]?).any fun e => w.created e a
    destructed := fun i a => (idx[i]?).any fun e => w.destructed e a
    logs := fun i n => (idx[i]?).bind fun e => w.logs e n
    logSize := fun i => (idx[i]?).bind fun e => w.logSize e
    access := fun i b => (idx[i]?).any fun e => w.access e b
    refund := fun i => (idx[i]?).bind fun e => w.refund e }

/-- Everything the code that executes the block can read. -/
structure Seen where
  w : World
  kept : List World
  started : Nat
  failed : Bool

/-- What can be read on this node. -/
def Local.seen (s : Local) : Seen := ⟨named s.idx s.w, s.kept.map (named s.idx), s.idx.length, s.failed⟩

/-- The transactions of a block with all the code they run: what to do next, given what can be read. -/
abbrev Program := Seen → Act

/-- One step of a block on a node that has just begun `others` executions elsewhere. -/
def step (keccak : Bytes → Hash) (prog : Program) (others : Nat) (s : Local) : Local :=
  match act keccak { s with ctr := s.ctr + others } (prog s.seen) with
  | some s' => { s' with failed := false }
  | none => { s with ctr := s.ctr + others, failed := true }

/-- `n` steps; `load k` executions are begun elsewhere on the node before the `k`-th last one. -/
def steps (keccak : Bytes → Hash) (prog : Program) (load : Nat → Nat) : Nat → Local → Local
  | 0, s => s
  | n + 1, s => steps keccak prog load n (step keccak prog (load n) s)

/-- What is on disk: accounts, the next account number, `vmStore`, fee token balances (the fields of `World` that are not
transient, x/evm/keeper/keeper.go:125-152). -/
structure Store where
  acct : Addr → Option Account
  nextNum : Nat
  vm : Bytes → Option Bytes
  bal : Addr → Nat

/-- Commit keeps what is not transient (cosmos-sdk transient stores are emptied by the commit). -/
def _root_.Verif.World.World.store (w : World) : Store := ⟨w.acct, w.nextNum, w.vm, w.bal⟩

/-- The state at the start of a block. -/
def Store.world (d : Store) : World :=
  { acct := d.acct, nextNum := d.nextNum, vm := d.vm, bal := d.bal, tstate := fun _ _ => none,
    created := fun _ _ => false, destructed := fun _ _ => false, logs := fun _ _ => none, logSize := fun _ => none,
    access := fun _ _ => false, refund := fun _ => none }

/-- The start of a block on a node. -/
def begin_ (ctr : Nat) (d : Store) : Local := ⟨ctr, d.world, [], [], false⟩

/-- What may happen on a node before it executes a block that is kept. -/
inductive Happening
  /-- `n` executions for queries, simulations or the checking of transactions -/
  | others (n : Nat)
  /-- `k` steps of the block are executed and thrown away (optimistic execution of a proposal that was not chosen) -/
  | discarded (prog : Program) (load : Nat → Nat) (k : Nat)
  /-- the node stops, having executed part of a block or not, and starts again from disk: x/evm/keeper/keeper.go:103 -/
  | restart

/-- What a happening does to the counter; it does nothing to the store. -/
def happen (keccak : Bytes → Hash) (d : Store) (ctr : Nat) : Happening → Nat
  | .others n => ctr + n
  | .discarded prog load k => (steps keccak prog load k (begin_ ctr d)).ctr
  | .restart => 0

/-- A block as decided by consensus: its transactions and how many steps they take (any number). -/
structure Block where
  prog : Program
  len : Nat

/-- How one node lives through one block: what happens before, and what it begins elsewhere meanwhile. -/
structure Life where
  before : List Happening
  load : Nat → Nat

/-- One block on one node: the store after it and what could be read at its end (logs, results). -/
def block (keccak : Bytes → Hash) (d : Store) (ctr : Nat) (l : Life) (b : Block) : Store × Nat × Seen :=
  let s := steps keccak b.prog l.load b.len (begin_ (l.before.foldl (happen keccak d) ctr) d)
  (s.w.store, s.ctr, s.seen)

/-- A chain on one node: the store and what could be read, after every block. -/
def chain (keccak : Bytes → Hash) : Store → Nat → List (Life × Block) → List (Store × Seen)
  | _, _, [] => []
  | d, ctr, (l, b) :: rest =>
    let r := block keccak d ctr l b
    (r.1, r.2.2) :: chain keccak r.1 r.2.1 rest

end Verif.Nodes
