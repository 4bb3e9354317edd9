import Verif.Model.LockTable
/-
`SendTx` of the JSON-RPC backend (jsonrpc/backend/tx.go:39-112): the queue of transactions that wait for earlier nonces.

Any number of goroutines, one per submission, interleaved at every access to shared state: the sender's lock (Model/LockTable,
C60), the account sequence in the CheckTx state, the queue, the broadcast. Decoding and conversion of the transaction happen
before (Model/TxUtils). Outside the model, by contract: the queue is hashicorp/golang-lru (an entry that is added or read
becomes the most recent; adding to a full queue drops the oldest); `BroadcastTxSync` runs CheckTx, which accepts a
transaction only when its nonce is the account's sequence in the CheckTx state, and then increases it (x/auth ante handler).
-/
namespace Verif.SendQueue
open Verif

/-- A submission: its number (in order of arrival), sender, nonce. The number stands for the transaction. -/
structure Sub where
  id : Nat
  sender : Nat
  nonce : Nat
  deriving DecidableEq

/-- Queue: most recent first; the key `"%s-%d"` is the pair (sender, nonce). -/
abbrev Queue := List ((Nat × Nat) × Sub)

/-- the key of an entry -/
def has (q : Queue) (k : Nat × Nat) : Option Sub := (q.find? (fun x => x.1 == k)).map (·.2)

/-- `Remove` -/
def drop (q : Queue) (k : Nat × Nat) : Queue := q.filter (fun x => x.1 != k)

/-- `Add` -/
def add (cap : Nat) (q : Queue) (k : Nat × Nat) (v : Sub) : Queue := ((k, v) :: drop q k).take cap

/-- `Get`: makes the entry the most recent -/
def touch (q : Queue) (k : Nat × Nat) : Queue :=
  match has q k with
  | some v => (k, v) :: drop q k
  | none => q

/-- Result of a submission. -/
inductive Res where
  | ok
  | nonceTooLow
  /-- a broadcast was refused -/
  | refused
  deriving DecidableEq

/-- Where a goroutine is. -/
inductive Pc where
  | idle
  /-- tx.go:74 -/
  | waiting (x : Sub)
  /-- tx.go:77-80 -/
  | reading (x : Sub)
  /-- tx.go:88, sequence read -/
  | adding (x : Sub) (acc : Nat)
  /-- tx.go:92, next sequence; `base`: the sequence read, `k`: rounds done -/
  | looping (x : Sub) (base k : Nat)
  /-- tx.go:94, entry found -/
  | removing (x : Sub) (base k : Nat) (e : Sub)
  /-- tx.go:97 -/
  | sending (x : Sub) (base k : Nat) (e : Sub)
  deriving DecidableEq

/-- A broadcast: on behalf of which submission, the transaction of which submission, outcome, and the sequence in the CheckTx state. -/
structure Sent where
  by_ : Sub
  tx : Sub
  ok : Bool
  seq : Nat
  deriving DecidableEq

/-- State. -/
structure State where
  cap : Nat
  seq : Nat → Nat
  queue : Queue
  holder : Nat → Option Nat
  threads : Nat → Pc
  /-- newest first -/
  sent : List Sent
  /-- newest first -/
  results : List (Sub × Res)
  /-- the sequence each submission read (for statements only) -/
  reads : List (Sub × Nat)
  fresh : Nat

/-- New backend on an account state. -/
def State.init (cap : Nat) (seq : Nat → Nat) : State := ⟨cap, seq, [], fun _ => none, fun _ => .idle, [], [], [], 0⟩

/-- What can happen. -/
inductive Act where
  /-- a request arrives on goroutine `t` -/
  | submit (t sender nonce : Nat)
  /-- goroutine `t` makes its next step; `ok`: answer of the node to a broadcast -/
  | step (t : Nat) (ok : Bool)
  /-- the account's sequence changes otherwise: a block, a transaction sent by another way -/
  | chain (sender seq : Nat)

open Verif.LockTable (put)

/-- uint64 increment, tx.go:108 -/
def at_ (base k : Nat) : Nat := (base + k) % 18446744073709551616

/-- return from `SendTx`: result, deferred release of the lock (tx.go:74) -/
def State.finish (s : State) (t : Nat) (x : Sub) (r : Res) : State :=
  { s with threads := put s.threads t .idle, holder := put s.holder x.sender none, results := (x, r) :: s.results }

/-- One step; `none`: not possible now. -/
def State.act (s : State) : Act → Option State
  | .submit t sender nonce =>
    if s.threads t = .idle then some { s with threads := put s.threads t (.waiting ⟨s.fresh, sender, nonce⟩), fresh := s.fresh + 1 } else none
  | .chain a n => some { s with seq := put s.seq a (n % 18446744073709551616) }
  | .step t ok => match s.threads t with
    | .idle => none
    -- tx.go:74
    | .waiting x => match s.holder x.sender with
      | none => some { s with holder := put s.holder x.sender (some t), threads := put s.threads t (.reading x) }
      | some _ => none
    -- tx.go:76-83
    | .reading x =>
      if s.seq x.sender > x.nonce then some (s.finish t x .nonceTooLow)
      else some { s with threads := put s.threads t (.adding x (s.seq x.sender)), reads := (x, s.seq x.sender) :: s.reads }
    -- tx.go:86-87
    | .adding x acc => some { s with queue := add s.cap s.queue (x.sender, x.nonce) x, threads := put s.threads t (.looping x acc 0) }
    -- tx.go:91-92, 104
    | .looping x base k => match has s.queue (x.sender, at_ base k) with
      | some e => some { s with queue := touch s.queue (x.sender, at_ base k), threads := put s.threads t (.removing x base k e) }
      | none => some (s.finish t x .ok)
    -- tx.go:94
    | .removing x base k e => some { s with queue := drop s.queue (x.sender, at_ base k), threads := put s.threads t (.sending x base k e) }
    -- tx.go:96-103, 108
    | .sending x base k e =>
      if ok then
        if s.seq x.sender = e.nonce then
          some { s with threads := put s.threads t (.looping x base (k + 1)), seq := put s.seq x.sender ((s.seq x.sender + 1) % 18446744073709551616),
                        sent := ⟨x, e, true, s.seq x.sender⟩ :: s.sent }
        else none
      else some { s.finish t x .refused with sent := ⟨x, e, false, s.seq x.sender⟩ :: s.sent }

/-- A run. -/
def State.run (s : State) : List Act → Option State
  | [] => some s
  | a :: l => (s.act a).bind (fun s' => s'.run l)

end Verif.SendQueue
