import Verif.Model.NodeConfig
/-
How a node starts, and which of its blocks its Ethereum index gets to see.

Modelled: app/indexer.go:22-97 (`setupIndexer`), app/app.go:251-263 (what becomes of its results), 300-303 (the mempool is wrapped),
609-611 (`EVMIndexer`), jsonrpc/jsonrpc.go:46-83 (`StartJSONRPC` up to the services), jsonrpc/namespaces/eth/filters/api.go:66-88
(`NewFilterAPI`), cmd/minitiad/root.go:171-195 (`PostSetup`).

By contract (outside /repo): `kvindexer.NewIndexer` is nil exactly if the other indexer is disabled in app.toml (that this can happen
is why app/indexer.go:69 tests for it); baseapp calls its listeners for every block it finalizes; a call on a nil interface panics,
and a panic in `PostSetup` ends the process. Opening databases and preparing the other indexer succeed.
-/
namespace Verif.Startup
open Verif.NodeConfig

/-- What listens to the blocks. -/
inductive Listener
  | evm
  | kv
deriving DecidableEq

/-- The results of `setupIndexer`: `kvModule` is the pointer app/indexer.go:68, 85-87. -/
structure Indexers where
  evm : Bool
  kvKeeper : Bool
  kvModule : Bool
  listeners : List Listener
deriving DecidableEq

/-- app/indexer.go:22-97 -/
def setupIndexer (kvEnabled : Bool) : Indexers :=
  { evm := true, kvKeeper := true, kvModule := kvEnabled
    listeners := if kvEnabled then [.evm, .kv] else [.evm] }

/-- The parts of the application that depend on it. -/
structure App where
  /-- app/app.go:609-611 is not nil -/
  evmIndexer : Bool
  /-- the streaming manager's listeners; none by default -/
  listeners : List Listener
  /-- pending transactions are announced -/
  mempoolWrapped : Bool
deriving DecidableEq

/-- app/app.go:251-263, 300-303 -/
def newApp (kvEnabled : Bool) : App :=
  let i := setupIndexer kvEnabled
  if i.kvKeeper && i.kvModule then { evmIndexer := i.evm, listeners := i.listeners, mempoolWrapped := i.evm }
  else { evmIndexer := false, listeners := [], mempoolWrapped := false }

/-- What a start of one JSON-RPC server comes to. -/
inductive Started
  | off
  | serving
  | error
  | panic
deriving DecidableEq

/-- jsonrpc/jsonrpc.go:46-83: after the backend, all services are made, whatever namespaces are configured; the filters' service
subscribes to the index (filters/api.go:83). -/
def startJSONRPC (a : App) (g : Cfg) (ws : Bool) : Started :=
  if !ws && !g.enable then .off
  else if ws && !g.enableWS then .off
  else if g.queuedCap ≤ 0 then .error
  else if !a.evmIndexer then .panic
  else .serving

/-- cmd/minitiad/root.go:171-195: HTTP, then WebSocket. Does the node run? -/
def postSetup (a : App) (g : Cfg) : Bool :=
  match startJSONRPC a g false with
  | .error | .panic => false
  | _ => match startJSONRPC a g true with
    | .error | .panic => false
    | _ => true

/-- One run of a node, with its configuration and the number of blocks it finalizes. -/
structure Run where
  kvEnabled : Bool
  cfg : Cfg
  blocks : Nat

/-- A node: its height and the heights its Ethereum index has been given. -/
structure Node where
  height : Nat
  indexed : List Nat
deriving DecidableEq

/-- Finalizing one block (baseapp, by contract). -/
def finalize (a : App) (n : Node) : Node :=
  { height := n.height + 1
    indexed := if a.listeners.contains .evm then n.indexed ++ [n.height + 1] else n.indexed }

def finalizeN (a : App) : Nat → Node → Node
  | 0, n => n
  | k + 1, n => finalizeN a k (finalize a n)

/-- One run: nothing happens unless the node starts. -/
def runNode (r : Run) (n : Node) : Node :=
  let a := newApp r.kvEnabled
  if postSetup a r.cfg then finalizeN a r.blocks n else n

/-- The life of a node. -/
def live : List Run → Node → Node
  | [], n => n
  | r :: rs, n => live rs (runNode r n)

end Verif.Startup
