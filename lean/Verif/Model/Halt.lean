import Verif.Model.SigAnte
/-
What the indexer's block listener does with the transactions of a block as far as stopping goes: it converts every
transaction, on the node's consensus path. Transactions are those of Verif.Model.SigAnte, whose signatures may come without
a public key.
-/
namespace Verif.Halt
open Verif Verif.TxUtils Verif.SigAnte

/-- Outcome of `ConvertCosmosTxToEthereumTx`. -/
inductive Conv
  | panic
  | err
  | notEth
  | eth (x : EthTx) (a : Addr)

/-- The outcome of a conversion that does not panic. -/
def Conv.of : Option (Option (EthTx × Addr)) → Conv
  | none => .err
  | some none => .notEth
  | some (some (x, a)) => .eth x a

/-- x/evm/keeper/txutils.go:192-371 (`ConvertCosmosTxToEthereumTx`) on a transaction whose signature may lack a public key:
`sig.PubKey.Address()` at 239 is called on the nil interface, a panic. Up to there the code looks at the number of messages,
the memo, the number of signatures and the denom of the fee. -/
def convert {K : Type} (e : Env K) (t : ATx K) : Conv :=
  match t.msgs with
  | [msg] =>
    if t.memo = [] then .notEth else
    match e.memoDec t.memo with
    | none => .notEth
    | some _ =>
      match t.sigs with
      | [sig] =>
        if wrongFeeDenom e t.fee then .notEth else
        match sig.pubKey with
        | none => .panic
        | some k => .of (cosmosToEth e ⟨[msg], t.memo, t.fee, t.gas, [⟨k, sig.data, sig.sequence⟩]⟩)
      | _ => .notEth
  | _ => .notEth

/-- The kinds of message responses the indexer tells apart. -/
inductive Resp
  | call | create | other
deriving DecidableEq

/-- The response a message answers with (proto/minievm/evm/v1/tx.proto; the first of the transaction's data). -/
def respOf : Msg → Resp
  | .call .. => .call
  | .create .. => .create
  | .create2 .. => .other
  | .other _ => .other

/-- indexer/utils.go:18-69 (`extractLogsAndContractAddr`, `unpackData`): is there an error? A successful transaction must
have answered with the response of a creation or of a call, as the Ethereum transaction says. (By contract the response
data of a message decodes.) -/
def extractFails (ok : Bool) (create : Bool) (msgs : List Msg) : Bool :=
  ok && decide (msgs.head?.map respOf ≠ some (if create then .create else .call))

/-- Outcome of the listener. -/
inductive Out
  | done | error | panic
deriving DecidableEq

/-- One transaction in the loop of `ListenFinalizeBlock`, indexer/abci.go:44-112. `none`: the bytes do not decode (47-49). -/
def listenTx {K : Type} (e : Env K) (t : Option (ATx K)) (ok : Bool) : Out :=
  match t with
  | none => .done
  | some t => match convert e t with
    | .panic => .panic
    | .err => .error
    | .notEth => .done
    | .eth x _ => if extractFails ok x.to.isNone t.msgs then .error else .done

/-- The loop, indexer/abci.go:44-112. -/
def listen {K : Type} (e : Env K) : List (Option (ATx K) × Bool) → Out
  | [] => .done
  | (t, ok) :: rest => match listenTx e t ok with
    | .done => listen e rest
    | o => o

/-- A node: the number of blocks it has committed, and whether it runs. -/
structure Node where
  height : Nat
  running : Bool
deriving DecidableEq, Repr

/-- What happens to a node: the next block of the chain is finalized, or an operator starts it again. -/
inductive Event
  | block
  | restart
deriving DecidableEq, Repr

/-- baseapp `FinalizeBlock` (cosmos-sdk, by contract): the listeners run before the block is committed and nothing recovers a
panic of theirs, so CometBFT stops and the block is finalized again after a restart. app/indexer.go:74-80: the EVM indexer is
a listener on every node whose other indexer is enabled (`Startup`), and `StopNodeOnErr` is set; `stopOnErr` says whether baseapp obeys it when a block is finalized.
`chain h` is block `h` of the chain (decoded transactions and whether they succeeded). -/
def step {K : Type} (e : Env K) (stopOnErr : Bool) (chain : Nat → List (Option (ATx K) × Bool)) (n : Node) : Event → Node
  | .restart => { n with running := true }
  | .block =>
    if n.running then
      match listen e (chain (n.height + 1)) with
      | .panic => { n with running := false }
      | .error => if stopOnErr then { n with running := false } else { n with height := n.height + 1 }
      | .done => { n with height := n.height + 1 }
    else n

/-- A history of a node. -/
def runNode {K : Type} (e : Env K) (stopOnErr : Bool) (chain : Nat → List (Option (ATx K) × Bool)) (n : Node) :
    List Event → Node
  | [] => n
  | ev :: evs => runNode e stopOnErr chain (step e stopOnErr chain n ev) evs

/-- indexer/mempool.go:32-54 (`Insert`), run inside CheckTx where a panic is recovered (baseapp, by contract): does the node
take the transaction into its mempool? `watched`: somebody subscribed, which a node that serves JSON-RPC does by itself. -/
def admits {K : Type} (e : Env K) (watched : Bool) (t : ATx K) : Bool :=
  if watched then
    match convert e t with
    | .panic => false
    | .err => false
    | _ => true
  else true

end Verif.Halt
