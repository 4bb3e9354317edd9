import Verif.Model.Bytes
/-
Model of indexer/store.go: a write-through cache (bigcache) over a buffered store (cachekv over the index database).

bigcache may drop any entry at any time (expiry every second, capacity), and refuses entries that do not fit; both are
operations of the model. `AssertValidKey`/`AssertValidValue` panic on empty keys and nil values; the collections never
pass them.
-/
namespace Verif.IndexStore
open Verif

/-- indexer/store.go:16-19. `buf`: the cachekv buffer (`some none` is a pending deletion); `db`: the database. -/
structure CS where
  cache : Bytes → Option Bytes
  buf : Bytes → Option (Option Bytes)
  db : Bytes → Option Bytes

/-- Assignment in a map. -/
def upd {α : Type} (f : Bytes → α) (k : Bytes) (v : α) : Bytes → α := fun x => if x = k then v else f x

/-- cachekv `Get` -/
def CS.storeGet (c : CS) (k : Bytes) : Option Bytes :=
  match c.buf k with
  | some o => o
  | none => c.db k

/-- indexer/store.go:39-56 (`Get`); `fit`: whether the cache accepted the entry. -/
def CS.read (c : CS) (k : Bytes) (fit : Bool) : Option Bytes × CS :=
  match c.cache k with
  | some v => (some v, c)
  | none => match c.storeGet k with
    | none => (none, c)
    | some v => (some v, if fit then { c with cache := upd c.cache k (some v) } else c)

/-- indexer/store.go:59-74 (`Has`) -/
def CS.has (c : CS) (k : Bytes) (fit : Bool) : Bool × CS :=
  match c.cache k with
  | some _ => (true, c)
  | none => match c.storeGet k with
    | none => (false, c)
    | some v => (true, if fit then { c with cache := upd c.cache k (some v) } else c)

/-- indexer/store.go:77-88 (`Set`); `fit = false`: bigcache refused the entry (it drops a previous entry of the key before
it refuses). `true`: no error. -/
def CS.put (c : CS) (k v : Bytes) (fit : Bool) : Bool × CS :=
  if fit then (true, { c with cache := upd c.cache k (some v), buf := upd c.buf k (some (some v)) })
  else (false, { c with cache := upd c.cache k none })

/-- indexer/store.go:91-101 (`Delete`): when the key is not in the cache, bigcache reports `ErrEntryNotFound` and the function
returns before it deletes from the store. -/
def CS.del (c : CS) (k : Bytes) : Bool × CS :=
  match c.cache k with
  | none => (false, c)
  | some _ => (true, { c with cache := upd c.cache k none, buf := upd c.buf k (some none) })

/-- indexer/store.go:122-124 (`Write`) -/
def CS.flush (c : CS) : CS :=
  { c with buf := fun _ => none, db := fun k => match c.buf k with | some o => o | none => c.db k }

/-- bigcache drops entries. -/
def CS.evict (c : CS) (gone : Bytes → Bool) : CS := { c with cache := fun k => if gone k then none else c.cache k }

/-- A new store on a database (indexer/store.go:21-36). -/
def fresh (db : Bytes → Option Bytes) : CS := ⟨fun _ => none, fun _ => none, db⟩

/-- Operations. -/
inductive Op where
  | read (k : Bytes) (fit : Bool)
  | has (k : Bytes) (fit : Bool)
  | put (k v : Bytes) (fit : Bool)
  | del (k : Bytes)
  | flush
  | evict (gone : Bytes → Bool)

/-- What an operation answered. -/
inductive Ans where
  | value (v : Option Bytes)
  | present (b : Bool)
  | ok (b : Bool)
  | unit

def step (c : CS) : Op → Ans × CS
  | .read k f => (.value (c.read k f).1, (c.read k f).2)
  | .has k f => (.present (c.has k f).1, (c.has k f).2)
  | .put k v f => (.ok (c.put k v f).1, (c.put k v f).2)
  | .del k => (.ok (c.del k).1, (c.del k).2)
  | .flush => (.unit, c.flush)
  | .evict g => (.unit, c.evict g)

/-- A history: the operations, what they answered, and the final state. -/
def run (c : CS) : List Op → List (Op × Ans) × CS
  | [] => ([], c)
  | o :: os => ((o, (step c o).1) :: (run (step c o).2 os).1, (run (step c o).2 os).2)

/-- The non-atomic read of indexer/store.go:47-55: a reader that missed the cache takes the value from the store … -/
def CS.readBegin (c : CS) (k : Bytes) : Option Bytes := if (c.cache k).isNone then c.storeGet k else none

/-- … and puts it into the cache later. -/
def CS.readEnd (c : CS) (k v : Bytes) : CS := { c with cache := upd c.cache k (some v) }

end Verif.IndexStore
