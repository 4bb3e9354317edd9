import Verif.Model.LogFilter
import Verif.Model.LockTable
/-
Polling filters and websocket subscriptions (jsonrpc/namespaces/eth/filters/{api,subscriptions}.go) and the goroutines that feed
them (indexer/indexer.go:131-166, indexer/abci.go:196-205, indexer/mempool.go:32-54).

Interleaving semantics: one event loop, one emitter goroutine per finalized block (and per transaction entering the mempool),
for each filter or subscription its creating goroutine, its listening goroutine and the goroutine that removes it (eth_uninstallFilter
or the ticker), and polls. Channels are unbuffered: a send and the receive are one step. What happens under `filtersMut` is
one step. Identifiers are never reused (`rpc.NewID`, by contract); an identifier stands for the subscription it was made for.
Simplified: filters found expired by one tick are removed from the event loop concurrently instead of one after the other; the
format of pending transactions (`fullTx`) is part of the item.
-/
namespace Verif.Filters
open Verif Verif.Indexer Verif.LogFilter
open Verif.LockTable (put)

/-- `ethfilters.Type` -/
inductive Ty where
  | blocks | logs | pending
  deriving DecidableEq

/-- What the event loop receives: `blockChan`, `logsChan`, `pendingChan`. -/
inductive Ev where
  | block (hash : Hash)
  | logs (l : List Log)
  | pending (tx : Hash)
  deriving DecidableEq

/-- What a client gets. -/
inductive Item where
  | hash (h : Hash)
  | log (l : Log)
  | tx (h : Hash)
  deriving DecidableEq

/-- `subscription` (subscriptions.go:15-31) with its criteria; `ws`: made by eth_subscribe, no polling filter. -/
structure Sub where
  ty : Ty
  fullTx : Bool
  crit : Crit
  ws : Bool

/-- eventLoop, api.go:124-150: is the event sent to the subscription? -/
def wants (s : Sub) : Ev → Bool
  | .block _ => s.ty == .blocks
  | .logs l => s.ty == .logs && !l.isEmpty
  | .pending _ => s.ty == .pending

/-- What the listening goroutine keeps of an event: api.go:200-211, 252-257, 329-335; subscriptions.go:65-66, 130-135, 182-185. -/
def items (s : Sub) : Ev → List Item
  | .block h => [.hash h]
  | .logs l => (filterLogs l s.crit.fromBlock s.crit.toBlock s.crit.addresses s.crit.topics).map .log
  | .pending h => if s.fullTx then [.tx h] else [.hash h]

/-- `filter` (api.go:30-41): collected items; `lastUsed` is `none` for the zero time. -/
structure Filter where
  buf : List Item
  lastUsed : Option Nat

/-- The creating goroutine. -/
inductive Api where
  /-- not called yet -/
  | fresh
  /-- `installSubscription` returned -/
  | installed
  /-- entered in `filters` -/
  | added
  /-- listening goroutine started -/
  | live
  deriving DecidableEq

/-- The listening goroutine. -/
inductive Go where
  | none
  | listening
  | holding (e : Ev)
  | exited
  deriving DecidableEq

/-- The removing goroutine (`uninstallSubscription`). -/
inductive Rem where
  | none
  /-- in the loop of subscriptions.go:202-216 -/
  | draining
  | done
  deriving DecidableEq

structure State where
  now : Nat
  /-- emitter goroutines: what each still has to send -/
  emitters : List (List Ev)
  /-- `subscriptions` -/
  subs : List Nat
  /-- the event being broadcast and the subscriptions still to be served -/
  loop : Option (Ev × List Nat)
  /-- `filters` -/
  filt : Nat → Option Filter
  go_ : Nat → Go
  api : Nat → Api
  rem : Nat → Rem
  /-- history: events received by the event loop -/
  recvd : List Ev
  /-- history: how many of them before the subscription was installed -/
  start : Nat → Nat
  /-- history: items returned to the client -/
  out : Nat → List Item
  /-- history: time of creation or of the last poll -/
  touched : Nat → Nat
  /-- history: was the filter polled? -/
  polled : Nat → Bool
  /-- history: all events handed to emitters, in the order of the blocks -/
  emitted : List Ev

def State.init : State :=
  ⟨0, [], [], none, fun _ => none, fun _ => .none, fun _ => .fresh, fun _ => .none, [], fun _ => 0, fun _ => [], fun _ => 0, fun _ => false, []⟩

/-- What can happen. -/
inductive Label where
  /-- a block is finalized, its events are handed to a new emitter goroutine (abci.go:196-198); or a transaction enters the mempool -/
  | emit (evs : List Ev)
  /-- the event loop receives from emitter `i` -/
  | recv (i : Nat)
  /-- the event loop hands the event to the listening goroutine of `id` -/
  | send (id : Nat)
  /-- the event is taken by the loop in `uninstallSubscription` -/
  | drain (id : Nat)
  /-- every subscription was served -/
  | loopDone
  /-- the listening goroutine processes the event it holds -/
  | process (id : Nat)
  /-- `installSubscription`, subscriptions.go:195-198, and api.go:152-154 -/
  | install (id : Nat)
  /-- `filters[id] = ...`, api.go:189-195, 242-247, 318-324 -/
  | add (id : Nat)
  /-- the `go` statement -/
  | spawn (id : Nat)
  /-- `GetFilterChanges`, api.go:437-474 -/
  | poll (id : Nat)
  /-- `UninstallFilter`, api.go:380-386 -/
  | uninstall (id : Nat)
  /-- websocket client leaves, subscriptions.go:67-68 and the deferred call -/
  | close (id : Nat)
  /-- the ticker fires, api.go:101-109 -/
  | tick
  /-- the event loop removes the subscription, api.go:155-157 -/
  | unsub (id : Nat)
  /-- the listening goroutine sees `s.err` closed -/
  | exit (id : Nat)
  /-- time passes -/
  | wait (d : Nat)

/-- api.go:104: `time.Since(f.lastUsed) > timeout` -/
def expired (timeout now : Nat) (f : Filter) : Bool :=
  match f.lastUsed with
  | none => true
  | some t => decide (now > t + timeout)

/-- api.go:102-109: filters that stay -/
def sweepFilt (timeout : Nat) (s : State) (id : Nat) : Option Filter :=
  match s.filt id with | some f => if expired timeout s.now f then none else some f | none => none

/-- api.go:105: filters to be removed from the event loop -/
def sweepRem (timeout : Nat) (s : State) (id : Nat) : Rem :=
  match s.filt id with | some f => if expired timeout s.now f then .draining else s.rem id | none => s.rem id

/-- One step; `none`: not possible. `info`: the subscription of an identifier; `timeout`: of `clearUnusedFilters`. -/
def step (info : Nat → Sub) (timeout : Nat) (s : State) : Label → Option State
  | .emit evs => some { s with emitters := s.emitters ++ [evs], emitted := s.emitted ++ evs }
  | .recv i => match s.loop, s.emitters[i]? with
    | none, some (e :: rest) => some { s with
        emitters := s.emitters.set i rest
        loop := some (e, s.subs.filter (fun id => wants (info id) e))
        recvd := s.recvd ++ [e] }
    | _, _ => none
  | .send id => match s.loop with
    | some (e, r) => if id ∈ r ∧ s.go_ id = .listening then
        some { s with loop := some (e, r.erase id), go_ := put s.go_ id (.holding e) } else none
    | none => none
  | .drain id => match s.loop with
    | some (e, r) => if id ∈ r ∧ s.rem id = .draining then some { s with loop := some (e, r.erase id) } else none
    | none => none
  | .loopDone => match s.loop with
    | some (_, []) => some { s with loop := none }
    | _ => none
  | .process id => match s.go_ id with
    | .holding e =>
      if (info id).ws then some { s with go_ := put s.go_ id .listening, out := put s.out id (s.out id ++ items (info id) e) }
      else match s.filt id with
        | some f => some { s with go_ := put s.go_ id .listening, filt := put s.filt id (some { f with buf := f.buf ++ items (info id) e }) }
        | none => some { s with go_ := put s.go_ id .listening }
    | _ => none
  | .install id => if s.api id = .fresh ∧ s.loop = none then
      some { s with api := put s.api id .installed, subs := s.subs ++ [id], start := put s.start id s.recvd.length } else none
  | .add id => if s.api id = .installed ∧ (info id).ws = false then
      some { s with api := put s.api id .added, touched := put s.touched id s.now,
                    filt := put s.filt id (some ⟨[], if (info id).ty = .logs then some s.now else none⟩) } else none
  | .spawn id => if s.api id = (if (info id).ws then .installed else .added) then
      some { s with api := put s.api id .live, go_ := put s.go_ id .listening } else none
  | .poll id => match s.filt id with
    | some f => some { s with filt := put s.filt id (some ⟨[], some s.now⟩), out := put s.out id (s.out id ++ f.buf), touched := put s.touched id s.now, polled := put s.polled id true }
    | none => none
  | .uninstall id => match s.filt id with
    | some _ => some { s with filt := put s.filt id none, rem := put s.rem id .draining }
    | none => none
  | .close id => if (info id).ws = true ∧ s.go_ id = .listening then
      some { s with go_ := put s.go_ id .exited, rem := put s.rem id .draining } else none
  | .tick => some { s with filt := sweepFilt timeout s, rem := sweepRem timeout s }
  | .unsub id => if s.rem id = .draining ∧ s.loop = none then some { s with subs := s.subs.erase id, rem := put s.rem id .done } else none
  | .exit id => if s.rem id = .done ∧ s.go_ id = .listening then some { s with go_ := put s.go_ id .exited } else none
  | .wait d => some { s with now := s.now + d }

/-- States after some labels. -/
inductive Reach (info : Nat → Sub) (timeout : Nat) : State → Prop
  | init : Reach info timeout State.init
  | next {s s' : State} (l : Label) : Reach info timeout s → step info timeout s l = some s' → Reach info timeout s'

end Verif.Filters
