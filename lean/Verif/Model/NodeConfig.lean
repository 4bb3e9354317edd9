import Verif.Model.TxPool
/-
What a node answers about itself and its pool, and how its JSON-RPC servers are configured.

Modelled: jsonrpc/backend/txpool.go:121-156 (`TxPoolInspect`), jsonrpc/backend/eth.go:161-193 (`Syncing`),
jsonrpc/config/config.go:52-54, 74-170 (`JSONRPCConfig`, `DefaultJSONRPCConfig`, `GetConfig`, the template's `apis` line),
jsonrpc/jsonrpc.go:48-155 (`StartJSONRPC`: which namespaces are served), jsonrpc/backend/backend.go:36-46 (the queue's size),
x/evm/config/config.go:28-44 with x/evm/keeper/keeper.go:99-101 and indexer/indexer.go:87-89 (defaults).

By contract (outside /repo): viper (an environment variable wins over the file; there are no flags for these keys, because
`AddConfigFlags` of jsonrpc/config/config.go:139-154 and x/evm/config/config.go:47-50 is called nowhere; cmd/minitiad/root.go:213-215
adds the flags of x/crisis only), spf13/cast, go-ethereum's `hexutil` texts and `RegisterName`, the LRU cache's constructor, Go's
`strings.Split`.
-/
namespace Verif.NodeConfig
open Verif Verif.Text Verif.TxUtils

/-! ### Texts -/

/-- Hexadecimal digits without leading zeros (`strconv.AppendUint(…, 16)`, `big.Int.Text(16)`). -/
def hexNat (n : Nat) : Str := if _h : n < 16 then [hexDigit n] else hexNat (n / 16) ++ [hexDigit (n % 16)]
decreasing_by omega

/-- go-ethereum `hexutil.Uint64.String` -/
def quantity (n : Nat) : Str := '0' :: 'x' :: hexNat n

/-- go-ethereum `hexutil.Big.String` (`EncodeBig`) -/
def bigText : Int → Str
  | .ofNat n => quantity n
  | .negSucc n => '-' :: quantity (n + 1)

/-! ### The pool, line by line -/

/-- jsonrpc/backend/txpool.go:134-140: the formatter. `%v` of the fields of the answer, which are `hexutil` numbers, is their
`String`; the gas price of a transaction in the pool is its fee cap (`RpcTx`). -/
def line (mask : Str → List Bool) (t : EthTx) : Str :=
  (match t.to with
    | some a => addrHex mask a
    | none => "contract creation".toList) ++
  ": ".toList ++ bigText t.value ++ " wei + ".toList ++ quantity t.gas ++ " gas × ".toList ++ bigText t.feeCap ++ " wei".toList

/-- jsonrpc/backend/txpool.go:121-156 (`TxPoolInspect`): pending and queued, sender, nonce ↦ line -/
def inspect {K : Type} (e : Env K) (pool queued : List (CosmosTx K)) :
    Option ((Addr → Nat → Option Str) × (Addr → Nat → Option Str)) :=
  (TxPool.content e pool queued).map fun c =>
    (fun a n => (c.1 a n).map (line e.mask), fun a n => (c.2 a n).map (line e.mask))

/-! ### Progress -/

/-- CometBFT `SyncInfo` -/
structure SyncInfo where
  catchingUp : Bool
  earliest : Nat
  latest : Nat

/-- The answer of `eth_syncing` while the node catches up. -/
structure Progress where
  startingBlock : Nat
  currentBlock : Nat
  highestBlock : Nat
  txIndexFinishedBlocks : Nat
  txIndexRemainingBlocks : Nat
deriving DecidableEq

/-- jsonrpc/backend/eth.go:161-193 (`Syncing`); `none`: false. The fields about accounts, byte codes, storage and healing, all
equal to the height as well, are left out. -/
def syncing (s : SyncInfo) : Option Progress :=
  if !s.catchingUp then none else some ⟨s.earliest, s.latest, s.latest, s.latest, s.latest⟩

/-! ### Options -/

/-- A value of app.toml. -/
inductive Val
  | str (s : Str)
  | int (i : Int)
  | bool (b : Bool)
  | list (l : List Str)
deriving DecidableEq

/-- Where options come from: environment variables (as text) and app.toml. -/
structure Opts where
  env : String → Option Str
  file : String → Option Val

/-- `appOpts.Get`: viper without a flag for the key. -/
def Opts.look (o : Opts) (k : String) : Option Val :=
  match o.env k with
  | some s => some (.str s)
  | none => o.file k

/-- Text conversions of Go that cast uses: `strconv.ParseBool`, `strconv.ParseInt(…, 0, 0)`, `time.ParseDuration` (as cast
calls it), and `time.Duration.String`. -/
structure Conv where
  parseBool : Str → Option Bool
  parseInt : Str → Option Int
  parseDur : Str → Option Int
  durStr : Int → Str

/-- spf13/cast `ToBool` -/
def Conv.toBool (c : Conv) : Option Val → Bool
  | some (.bool b) => b
  | some (.int i) => decide (i ≠ 0)
  | some (.str s) => (c.parseBool s).getD false
  | _ => false

/-- spf13/cast `ToString`: a list has no text. -/
def toStr : Option Val → Str
  | some (.str s) => s
  | some (.int i) => intStr i
  | some (.bool b) => if b then "true".toList else "false".toList
  | _ => []

/-- spf13/cast `ToInt` -/
def Conv.toInt (c : Conv) : Option Val → Int
  | some (.int i) => i
  | some (.str s) => (c.parseInt s).getD 0
  | some (.bool b) => if b then 1 else 0
  | _ => 0

/-- spf13/cast `ToDuration` -/
def Conv.toDur (c : Conv) : Option Val → Int
  | some (.int i) => i
  | some (.str s) => (c.parseDur s).getD 0
  | _ => 0

/-- `strings.Split(s, ",")` -/
def splitComma : Str → List Str
  | [] => [[]]
  | ch :: cs => if ch = ',' then [] :: splitComma cs else
    match splitComma cs with
    | [] => [[ch]]
    | w :: ws => (ch :: w) :: ws

/-- jsonrpc/config/config.go:76-111 (`JSONRPCConfig`) -/
structure Cfg where
  enable : Bool
  address : Str
  enableWS : Bool
  addressWS : Str
  unsafeCors : Bool
  apis : List Str
  httpTimeout : Int
  httpIdleTimeout : Int
  maxOpen : Int
  batchLimit : Int
  batchSize : Int
  queuedCap : Int
  maxHeaders : Int
  maxBlocks : Int
  filterTimeout : Int
deriving DecidableEq

/-- jsonrpc/config/config.go:157-175 (`GetConfig`) -/
def getConfig (c : Conv) (o : Opts) : Cfg where
  enable := c.toBool (o.look "json-rpc.enable")
  address := toStr (o.look "json-rpc.address")
  enableWS := c.toBool (o.look "json-rpc.enable-ws")
  addressWS := toStr (o.look "json-rpc.address-ws")
  unsafeCors := c.toBool (o.look "json-rpc.enable-unsafe-cors")
  apis := splitComma (toStr (o.look "json-rpc.apis"))
  httpTimeout := c.toDur (o.look "json-rpc.http-timeout")
  httpIdleTimeout := c.toDur (o.look "json-rpc.http-idle-timeout")
  maxOpen := c.toInt (o.look "json-rpc.max-open-connections")
  batchLimit := c.toInt (o.look "json-rpc.batch-request-limit")
  batchSize := c.toInt (o.look "json-rpc.batch-response-max-size")
  queuedCap := c.toInt (o.look "json-rpc.queued-transaction-cap")
  maxHeaders := c.toInt (o.look "json-rpc.fee-history-max-headers")
  maxBlocks := c.toInt (o.look "json-rpc.fee-history-max-blocks")
  filterTimeout := c.toDur (o.look "json-rpc.filter-timeout")

/-- jsonrpc/config/config.go:203: the elements with commas between them. -/
def joinComma : List Str → Str
  | [] => []
  | [w] => w
  | w :: ws => w ++ ',' :: joinComma ws

/-- jsonrpc/config/config.go:177-233 (`DefaultConfigTemplate`): the section of app.toml that `init` writes for a configuration
(cmd/minitiad/config.go:57-75), as it is read back. -/
def written (c : Conv) (g : Cfg) (k : String) : Option Val :=
  if k = "json-rpc.enable" then some (.bool g.enable)
  else if k = "json-rpc.address" then some (.str g.address)
  else if k = "json-rpc.enable-ws" then some (.bool g.enableWS)
  else if k = "json-rpc.address-ws" then some (.str g.addressWS)
  else if k = "json-rpc.enable-unsafe-cors" then some (.bool g.unsafeCors)
  else if k = "json-rpc.apis" then some (.str (joinComma g.apis))
  else if k = "json-rpc.http-timeout" then some (.str (c.durStr g.httpTimeout))
  else if k = "json-rpc.http-idle-timeout" then some (.str (c.durStr g.httpIdleTimeout))
  else if k = "json-rpc.max-open-connections" then some (.int g.maxOpen)
  else if k = "json-rpc.batch-request-limit" then some (.int g.batchLimit)
  else if k = "json-rpc.batch-response-max-size" then some (.int g.batchSize)
  else if k = "json-rpc.queued-transaction-cap" then some (.int g.queuedCap)
  else if k = "json-rpc.fee-history-max-headers" then some (.int g.maxHeaders)
  else if k = "json-rpc.fee-history-max-blocks" then some (.int g.maxBlocks)
  else if k = "json-rpc.filter-timeout" then some (.str (c.durStr g.filterTimeout))
  else none

/-- jsonrpc/config/config.go:14-54, 114-136 (`DefaultJSONRPCConfig`) with the addresses of cmd/minitiad/config.go:64-65. -/
def defaults : Cfg where
  enable := true
  address := "0.0.0.0:8545".toList
  enableWS := true
  addressWS := "0.0.0.0:8546".toList
  unsafeCors := false
  apis := ["eth".toList, "net".toList, "txpool".toList, "web3".toList, "personal".toList, "debug".toList, "miner".toList,
    "cosmos".toList]
  httpTimeout := 10000000000
  httpIdleTimeout := 120000000000
  maxOpen := 100
  batchLimit := 1000
  batchSize := 25000000
  queuedCap := 1000
  maxHeaders := 1024
  maxBlocks := 1024
  filterTimeout := 300000000000

/-! ### The servers -/

/-- What becomes of one server. -/
inductive Server (M : Type)
  | off
  /-- the node does not start -/
  | failed
  /-- it answers these methods -/
  | serving (methods : List (Str × M))

/-- jsonrpc/jsonrpc.go:107-122: the loop over the services in the order of jsonrpc.go:71-105; one whose namespace is not
configured is skipped. -/
def register {M : Type} (apis : List Str) : List (Str × List M) → List (Str × M)
  | [] => []
  | (ns, ms) :: rest => if ns ∈ apis then ms.map (fun m => (ns, m)) ++ register apis rest else register apis rest

/-- jsonrpc/jsonrpc.go:48-155 (`StartJSONRPC`) up to listening, which by contract succeeds. The LRU cache refuses a size that
is not positive (jsonrpc/backend/backend.go:43-46). The goroutine that drops
filters is in `boot`. -/
def start {M : Type} (g : Cfg) (ws : Bool) (services : List (Str × List M)) : Server M :=
  if !ws && !g.enable then .off
  else if ws && !g.enableWS then .off
  else if g.queuedCap ≤ 0 then .failed
  else .serving (register g.apis services)

/-- jsonrpc/namespaces/eth/filters/api.go:90-97 (`clearUnusedFilters`): after how long an unused filter is dropped. `none`:
`time.NewTicker` panics on a negative time. -/
def filterLife (g : Cfg) : Option Int :=
  let t := if g.filterTimeout = 0 then 300000000000 else g.filterTimeout
  if t ≤ 0 then none else some t

/-- cmd/minitiad/root.go:165-197 (`PostSetup`): both servers. Starting one creates its filters (jsonrpc/jsonrpc.go:82), whatever
the enabled namespaces, and their goroutine: `none` if that panics, which ends the process. -/
def boot {M : Type} (g : Cfg) (services : List (Str × List M)) : Option (Server M × Server M) :=
  match start g false services, start g true services with
  | .serving a, s => (filterLife g).map fun _ => (.serving a, s)
  | s, .serving b => (filterLife g).map fun _ => (s, .serving b)
  | s, t => some (s, t)

/-- rs/cors (by contract): what a policy allows pages of other sites. -/
structure Cors where
  allOrigins : Bool
  methods : List String
deriving DecidableEq

/-- rs/cors `cors.Default()` (by contract): the empty options, whose default is every origin and the methods HEAD, GET, POST -/
def corsDefault : Cors := ⟨true, ["HEAD", "GET", "POST"]⟩

/-- rs/cors `cors.AllowAll()` (by contract) -/
def corsAllowAll : Cors := ⟨true, ["HEAD", "GET", "POST", "PUT", "PATCH", "DELETE"]⟩

/-- jsonrpc/jsonrpc.go:142-145 -/
def corsOf (g : Cfg) : Cors := if g.unsafeCors then corsAllowAll else corsDefault

/-- jsonrpc/jsonrpc.go:128-132, 147-149: is a request to the HTTP server answered, so that the page that sent it can read the answer?
`origin`: that page's site; `none`: no browser. The one route takes POST only; a browser obeys the policy. -/
def httpAnswers (g : Cfg) (origin : Option Str) (method : String) : Bool :=
  method == "POST" && (origin.isNone || (corsOf g).allOrigins && (corsOf g).methods.contains method)

/-- jsonrpc/jsonrpc.go:133-140 with go-ethereum's `WebsocketHandler` (by contract: without rules `http://localhost` and `http://` and the
host's name are allowed; no `Origin` header is allowed): is a WebSocket connection accepted? `allows`: go-ethereum's `ruleAllowsOrigin`. -/
def wsAccepts (allows : Str → Str → Bool) (host : Str) (g : Cfg) : Option Str → Bool
  | none => true
  | some o => g.unsafeCors || allows "http://localhost".toList o || allows ("http://".toList ++ host) o

/-- jsonrpc/jsonrpc.go:65 (`SetBatchLimits`) with go-ethereum rpc/handler.go (`handleBatch`, by contract: a limit of zero is none, a
batch of more requests than the limit is answered with one error): is a batch of `n` requests answered? -/
def answersBatch (g : Cfg) (n : Nat) : Bool := decide (g.batchLimit = 0) || decide ((n : Int) ≤ g.batchLimit)

/-- jsonrpc/jsonrpc.go:214-216 with golang.org/x/net `LimitListener` (by contract: accepts while fewer than the limit are open): is a
further connection accepted while `n` are open? -/
def accepts (g : Cfg) (n : Nat) : Bool := if 0 < g.maxOpen then decide ((n : Int) < g.maxOpen) else true

/-! ### The options of x/evm -/

/-- x/evm/config/config.go:36-41 (`GetConfig`) with x/evm/keeper/keeper.go:99-101: the simulation gas limit in force. -/
def simGasLimit (c : Conv) (o : Opts) : Nat :=
  let v := (c.toInt (o.look "evm.contract-simulation-gas-limit")).toNat
  if v = 0 then 3000000 else v

/-- The same with indexer/indexer.go:87-89: the size of the indexer's cache. -/
def cacheSize (c : Conv) (o : Opts) : Int :=
  let v := c.toInt (o.look "evm.indexer-cache-size")
  if v = 0 then 100 else v

end Verif.NodeConfig
