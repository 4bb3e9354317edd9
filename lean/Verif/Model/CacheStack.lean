/-
Model of the stack of cache contexts behind the EVM state database.

Source: x/evm/state/snapshot.go, x/evm/state/statedb.go (Snapshot, RevertToSnapshot, Commit).

What is outside /repo and modelled by contract: `sdk.Context.CacheContext` (cosmos-sdk) returns a
context whose store is a write-back cache over the parent store: a read looks in the cache first and
then in the parent, a write stays in the cache, and `commit` copies the cached writes into the parent
and empties the cache.  Events are not modelled here.
-/
namespace Verif.CacheStack

/-- What a reader sees: a partial map from keys to values. Models the visible content of the stores
reachable from one `sdk.Context`. -/
abbrev View (K V : Type) := K → Option V

/-- A set of pending writes: `none` = untouched, `some none` = deleted, `some (some v)` = set to `v`.
Models the dirty entries of one cache store (cosmos-sdk cachekv, by contract). -/
abbrev Delta (K V : Type) := K → Option (Option V)

/-- Pending writes laid over what is underneath. -/
def overlay {K V : Type} (d : Delta K V) (v : View K V) : View K V :=
  fun k => match d k with
    | some o => o
    | none => v k

/-- Later pending writes laid over earlier pending writes. -/
def Delta.over {K V : Type} (d e : Delta K V) : Delta K V :=
  fun k => match d k with
    | some o => some o
    | none => e k

/-- The empty set of pending writes (a fresh cache). -/
def Delta.empty {K V : Type} : Delta K V := fun _ => none

/-- x/evm/state/statedb.go:35-57 (`ctx`, `initialCtx`, `snaps` of `StateDB`) and snapshot.go:9-12.
A context is represented by the list of cache layers between it and the initial context, innermost
first; `[]` is `initialCtx`.  Layers live in a heap because the code keeps a context alive after its
snapshot has been dropped from `snaps`. -/
structure DB (K V : Type) where
  /-- content of the store behind `initialCtx` -/
  base : View K V
  /-- pending writes of every cache layer ever created -/
  heap : Nat → Delta K V
  /-- next unused layer number -/
  next : Nat
  /-- `s.ctx` -/
  ctx : List Nat
  /-- `s.snaps`: the context of every snapshot, oldest first -/
  snaps : List (List Nat)

/-- Read through a context: top layer first, then its parents, finally the base store. -/
def readAt {K V : Type} (base : View K V) (heap : Nat → Delta K V) : List Nat → View K V
  | [] => base
  | l :: c => overlay (heap l) (readAt base heap c)

/-- Everything visible through `s.ctx`. -/
def DB.view {K V : Type} (db : DB K V) : View K V := readAt db.base db.heap db.ctx

/-- x/evm/state/statedb.go:97-119 (`NewStateDB`): start with `ctx = initialCtx` and no snapshots. -/
def DB.new {K V : Type} (base : View K V) : DB K V :=
  { base := base, heap := fun _ => Delta.empty, next := 0, ctx := [], snaps := [] }

/-- A write through `s.ctx` of everything in `d` (every setter of statedb.go passes `s.ctx` to the
store it writes, e.g. statedb.go:531). -/
def DB.put {K V : Type} (db : DB K V) (d : Delta K V) : DB K V :=
  match db.ctx with
  | [] => { db with base := overlay d db.base }
  | l :: _ => { db with heap := fun j => if j = l then d.over (db.heap l) else db.heap j }

/-- x/evm/state/statedb.go:561-574 (`Snapshot`) with snapshot.go:14-21 (`NewSnapshot`). Returns the new
state and the snapshot id `len(snaps)-1` (so the first snapshot has id -1). -/
def DB.snapshot {K V : Type} (db : DB K V) : DB K V × Int :=
  let c := db.next :: db.ctx
  ({ db with
      heap := fun j => if j = db.next then Delta.empty else db.heap j
      next := db.next + 1
      ctx := c
      snaps := db.snaps ++ [c] },
   (db.snaps.length : Int) - 1)

/-- x/evm/state/statedb.go:577-590 (`RevertToSnapshot`). `none` is the Go run-time panic for an index
out of range. The slice expression is `s.snaps[:i]` as written at line 589. -/
def DB.revertToSnapshot {K V : Type} (db : DB K V) (i : Int) : Option (DB K V) :=
  if i = -1 then
    some { db with ctx := [], snaps := [] }
  else if i < 0 then none
  else
    match db.snaps[i.toNat]? with
    | none => none
    | some c => some { db with ctx := c, snaps := db.snaps.take i.toNat }

/-- NOT the code: the same function with the slice bound `s.snaps[:i+1]`. Used only to show that the
specification is met by the one-character repair. -/
def DB.revertToSnapshotRepaired {K V : Type} (db : DB K V) (i : Int) : Option (DB K V) :=
  if i = -1 then
    some { db with ctx := [], snaps := [] }
  else if i < 0 then none
  else
    match db.snaps[i.toNat]? with
    | none => none
    | some c => some { db with ctx := c, snaps := db.snaps.take (i.toNat + 1) }

/-- x/evm/state/snapshot.go:23-25 (`Commit` of one snapshot): write the layer into its parent and empty
it (cosmos-sdk cachekv `Write`, by contract). -/
def DB.commitSnap {K V : Type} (db : DB K V) (c : List Nat) : DB K V :=
  match c with
  | [] => db
  | l :: [] =>
    { db with
      base := overlay (db.heap l) db.base
      heap := fun j => if j = l then Delta.empty else db.heap j }
  | l :: p :: _ =>
    { db with
      heap := fun j =>
        if j = l then Delta.empty
        else if j = p then (db.heap l).over (db.heap p)
        else db.heap j }

/-- x/evm/state/statedb.go:649-658 (the part of `Commit` after self-destruct clean-up): commit all
snapshots from last to first, then return to the initial context. -/
def DB.commit {K V : Type} (db : DB K V) : DB K V :=
  { db.snaps.reverse.foldl DB.commitSnap db with ctx := [] }

/-- One step of a history. `exec f` is any computation that reads the current state and writes the
result `f` computes from it; `revert j` undoes everything since the `j`-th (0-based, oldest first) live
snapshot was taken. -/
inductive Op (K V : Type)
  | exec (f : View K V → Delta K V)
  | snapshot
  | revert (j : Nat)

/-- A call tree: what one EVM call frame does, in order. `call body ok` is an inner call whose frame
performs `body` and then either returns normally (`ok = true`) or reverts (`ok = false`). -/
inductive Act (K V : Type)
  | exec (f : View K V → Delta K V)
  | call (body : List (Act K V)) (ok : Bool)

variable {K V : Type}

/-- One step of the implementation; the snapshot id of the `j`-th live snapshot is `j - 1`
(statedb.go:563). `rev` is the revert function under test. -/
def DB.stepWith (rev : DB K V → Int → Option (DB K V)) (db : DB K V) : Op K V → Option (DB K V)
  | .exec f => some (db.put (f db.view))
  | .snapshot => some db.snapshot.1
  | .revert j => rev db ((j : Int) - 1)

/-- Run a history on the implementation. -/
def DB.runWith (rev : DB K V → Int → Option (DB K V)) (db : DB K V) : List (Op K V) → Option (DB K V)
  | [] => some db
  | op :: ops => match db.stepWith rev op with
    | none => none
    | some db' => db'.runWith rev ops

/-- The code. -/
abbrev DB.run (db : DB K V) := db.runWith DB.revertToSnapshot
/-- The repaired variant. -/
abbrev DB.runRepaired (db : DB K V) := db.runWith DB.revertToSnapshotRepaired

/-- A step given by the raw snapshot id the caller passes to `RevertToSnapshot`. -/
inductive RawOp (K V : Type)
  | exec (f : View K V → Delta K V)
  | snapshot
  | revert (id : Int)

/-- One raw step of the code (statedb.go:561-590). -/
def DB.rawStep (db : DB K V) : RawOp K V → Option (DB K V)
  | .exec f => some (db.put (f db.view))
  | .snapshot => some db.snapshot.1
  | .revert i => db.revertToSnapshot i

/-- Any sequence of raw steps of the code. -/
def DB.rawRun (db : DB K V) : List (RawOp K V) → Option (DB K V)
  | [] => some db
  | op :: ops => match db.rawStep op with
    | none => none
    | some db' => db'.rawRun ops

mutual
/-- How go-ethereum's `Call`/`Create` drives the state database for one action (core/vm/evm.go of
go-ethereum 1.14.9, outside /repo, by contract): take a snapshot, run the callee, revert to the
snapshot if it failed. -/
def Act.drive (rev : DB K V → Int → Option (DB K V)) : Act K V → DB K V → Option (DB K V)
  | .exec f, db => some (db.put (f db.view))
  | .call body ok, db =>
    match Act.driveAll rev body db.snapshot.1 with
    | none => none
    | some db' => if ok then some db' else rev db' db.snapshot.2
def Act.driveAll (rev : DB K V → Int → Option (DB K V)) : List (Act K V) → DB K V → Option (DB K V)
  | [], db => some db
  | a :: as, db => match Act.drive rev a db with
    | none => none
    | some db' => Act.driveAll rev as db'
end

end Verif.CacheStack
