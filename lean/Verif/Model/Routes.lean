/-
Which messages this chain executes, for whom, and the genesis a new chain starts with.

Modelled: app/modules.go:84-116 (the modules whose services are registered), app/const.go:16-43 and app/genesis.go
(the default genesis), cmd/minitiad/launch.go:49-64, the way app/keepers/keepers.go:286-293 and 491-504 connect authz and
the interchain account host to the application's one message router, and the rate limiting middleware of
app/keepers/keepers.go:407-424.

By contract (outside /repo): cosmos-sdk's message router and authz `DispatchActions`, ibc-go's interchain account host
(`authenticateTx`, `executeTx`), ibc-apps' rate limiting (`CheckRateLimitAndUpdateFlow`), connect's oracle genesis.
-/
namespace Verif.Routes

/-! ### Type URLs -/

/-- app/const.go:16-43, the type URLs used in the default genesis. -/
def authzMsgExec : String := "/cosmos.authz.v1beta1.MsgExec"
def authzMsgGrant : String := "/cosmos.authz.v1beta1.MsgGrant"
def authzMsgRevoke : String := "/cosmos.authz.v1beta1.MsgRevoke"
def bankMsgSend : String := "/cosmos.bank.v1beta1.MsgSend"
def bankMsgMultiSend : String := "/cosmos.bank.v1beta1.MsgMultiSend"
def feegrantMsgGrantAllowance : String := "/cosmos.feegrant.v1beta1.MsgGrantAllowance"
def feegrantMsgRevokeAllowance : String := "/cosmos.feegrant.v1beta1.MsgRevokeAllowance"
def groupCreateGroup : String := "/cosmos.group.v1.MsgCreateGroup"
def groupUpdateGroupMember : String := "/cosmos.group.v1.MsgUpdateGroupMember"
def groupUpdateGroupAdmin : String := "/cosmos.group.v1.MsgUpdateGroupAdmin"
def groupCreateGroupPolicy : String := "/cosmos.group.v1.MsgCreateGroupPolicy"
def groupUpdateGroupPolicyAdmin : String := "/cosmos.group.v1.MsgUpdateGroupPolicyAdmin"
def groupUpdateGroupPolicyDecisionPolicy : String := "/cosmos.group.v1.MsgUpdateGroupPolicyDecisionPolicy"
def groupSubmitProposal : String := "/cosmos.group.v1.MsgSubmitProposal"
def groupWithdrawProposal : String := "/cosmos.group.v1.MsgWithdrawProposal"
def groupVote : String := "/cosmos.group.v1.MsgVote"
def groupExec : String := "/cosmos.group.v1.MsgExec"
def groupLeaveGroup : String := "/cosmos.group.v1.MsgLeaveGroup"
def transferMsgTransfer : String := "/ibc.applications.transfer.v1.MsgTransfer"
def nftTransferMsgTransfer : String := "/ibc.applications.nft_transfer.v1.MsgNftTransfer"
def sftTransferMsgTransfer : String := "/ibc.applications.sft_transfer.v1.MsgSftTransfer"
def moveMsgPublishModuleBundle : String := "/initia.move.v1.MsgPublish"
def moveMsgExecuteEntryFunction : String := "/initia.move.v1.MsgExecute"
def moveMsgExecuteScript : String := "/initia.move.v1.MsgScript"

/-- app/genesis.go:142-171: the messages an interchain account may send by default. -/
def icaAllow : List String :=
  [authzMsgExec, authzMsgGrant, authzMsgRevoke, bankMsgSend, bankMsgMultiSend, feegrantMsgGrantAllowance,
    feegrantMsgRevokeAllowance, groupCreateGroup, groupCreateGroupPolicy, groupExec, groupLeaveGroup, groupSubmitProposal,
    groupUpdateGroupAdmin, groupUpdateGroupMember, groupUpdateGroupPolicyAdmin, groupUpdateGroupPolicyDecisionPolicy,
    groupVote, groupWithdrawProposal, transferMsgTransfer, nftTransferMsgTransfer, sftTransferMsgTransfer,
    moveMsgPublishModuleBundle, moveMsgExecuteEntryFunction, moveMsgExecuteScript]

/-- proto/minievm/evm/v1/tx.proto: the messages of x/evm that users send. -/
def evmMsgCreate : String := "/minievm.evm.v1.MsgCreate"
def evmMsgCreate2 : String := "/minievm.evm.v1.MsgCreate2"
def evmMsgCall : String := "/minievm.evm.v1.MsgCall"

/-- The package of a type URL: without the leading slash and the last part. -/
def package (u : String) : List Char := (((u.toList.drop 1).reverse.dropWhile (· ≠ '.')).drop 1).reverse

/-- app/modules.go:84-116 (`appModules`): the packages of the message services that `RegisterServices` (app/app.go:246)
installs. Modules without messages (capability, packet forwarding, light clients) are left out. -/
def packages : List String :=
  ["cosmos.auth.v1beta1", "cosmos.bank.v1beta1", "opinit.opchild.v1", "cosmos.feegrant.v1beta1", "cosmos.crisis.v1beta1",
    "cosmos.upgrade.v1beta1", "cosmos.authz.v1beta1", "cosmos.group.v1", "cosmos.consensus.v1", "minievm.evm.v1",
    "sdk.auction.v1", "ibc.core.client.v1", "ibc.core.connection.v1", "ibc.core.channel.v1",
    "ibc.applications.transfer.v1", "ibc.applications.nft_transfer.v1",
    "ibc.applications.interchain_accounts.controller.v1", "ibc.applications.interchain_accounts.host.v1",
    "initia.intertx.v1", "ibc.applications.fee.v1", "initia.ibchooks.v1", "noble.forwarding.v1", "connect.oracle.v2",
    "connect.marketmap.v2"]

/-! ### Messages -/

/-- A message: authz's `MsgExec` with the messages in it, or any other with its type, its signers and its content. -/
inductive Msg (A B : Type) where
  | exec (grantee : A) (msgs : List (Msg A B))
  | plain (url : String) (signers : List A) (body : B)

def Msg.url {A B : Type} : Msg A B → String
  | .exec _ _ => authzMsgExec
  | .plain u _ _ => u

def Msg.signers {A B : Type} : Msg A B → List A
  | .exec g _ => [g]
  | .plain _ s _ => s

/-- The application's message router (`bApp.MsgServiceRouter()`, given to authz at app/keepers/keepers.go:286 and to the
interchain account host at :500), and authz's grants: `accept granter grantee url s` is the state after the use of a
grant, if there is one. -/
structure App (A B S : Type) where
  handler : String → Option (B → S → Option S)
  accept : A → A → String → S → Option S

/-- Only the registered modules' messages have handlers. -/
def App.Installed {A B S : Type} (app : App A B S) : Prop :=
  ∀ u, (app.handler u).isSome = true → package u ∈ packages.map String.toList

section
variable {A B S : Type} [DecidableEq A]

mutual
/-- The router: `MsgExec` goes to authz, others to their handlers; none is an error. -/
def run (app : App A B S) : Msg A B → S → Option S
  | .exec g ms, s => if ms.isEmpty then none else dispatch app g ms s
  | .plain u _ b, s =>
    match app.handler u with
    | none => none
    | some h => h b s

/-- cosmos-sdk `DispatchActions`: every message has one signer, who is the grantee or has given the grantee a grant for
messages of this type. -/
def dispatch (app : App A B S) (g : A) : List (Msg A B) → S → Option S
  | [], s => some s
  | m :: ms, s =>
    match m.signers with
    | [x] =>
      match (if x = g then some s else app.accept x g m.url s) with
      | none => none
      | some s1 =>
        match run app m s1 with
        | none => none
        | some s2 => dispatch app g ms s2
    | _ => none
end

/-- Messages one after the other; an error stops. -/
def runAll (app : App A B S) : List (Msg A B) → S → Option S
  | [], s => some s
  | m :: ms, s =>
    match run app m s with
    | none => none
    | some s1 => runAll app ms s1

/-- A transaction's messages: all or nothing. -/
def deliver (app : App A B S) (ms : List (Msg A B)) (s : S) : S × Bool :=
  match runAll app ms s with
  | some s1 => (s1, true)
  | none => (s, false)

/-- ibc-go `ContainsMsgType`. -/
def allowed (allow : List String) (u : String) : Bool := decide (allow = ["*"]) || allow.contains u

/-- ibc-go `authenticateTx`: all types allowed, all signers the interchain account. -/
def authenticated (allow : List String) (ica : A) (ms : List (Msg A B)) : Bool :=
  ms.all fun m => allowed allow m.url && m.signers.all fun x => decide (x = ica)

/-- ibc-go `OnRecvPacket` of the interchain account host (app/keepers/keepers.go:527-528): the packet's messages are
authenticated, then executed on a cached context that is written if all succeed. The Boolean is the acknowledgement. -/
def recv (app : App A B S) (allow : List String) (ica : A) (ms : List (Msg A B)) (s : S) : S × Bool :=
  if authenticated allow ica ms then deliver app ms s else (s, false)

end

/-! ### Rate limits -/

/-- ibc-apps `CheckRateLimitAndUpdateFlow` (the middleware of app/keepers/keepers.go:407-424): without a limit for the
denom and channel the transfer passes; with one, the flow has to stay within the quota. -/
def passes {D C : Type} (limits : D → C → Option Nat) (flow : D → C → Nat) (d : D) (c : C) (amount : Nat) : Bool :=
  match limits d c with
  | none => true
  | some q => decide (flow d c + amount ≤ q)

/-! ### The default genesis -/

/-- The parts of a genesis that app/genesis.go writes; `rest` is everything else. `P` are currency pairs. -/
structure Gen (P R : Type) where
  minGasPrices : List (String × Nat)
  controllerEnabled : Bool
  hostEnabled : Bool
  icaAllow : List String
  allowedClients : List String
  reserveFeeDenom : String
  minBidDenom : String
  feeDenom : String
  /-- the oracle's pairs with their ids -/
  pairs : List (P × Nat)
  nextId : Nat
  markets : List P
  admin : String
  rest : R
deriving DecidableEq

section
variable {P R : Type}

/-- app/genesis.go:124-131 (`ConfigureMinGasPrices`) -/
def configureMinGasPrices (g : Gen P R) : Gen P R := { g with minGasPrices := [] }

/-- app/genesis.go:133-180 (`ConfigureICA`) -/
def configureICA (g : Gen P R) : Gen P R :=
  { g with controllerEnabled := true, hostEnabled := true, icaAllow := icaAllow }

/-- ibc-go `exported.Localhost` -/
def localhost : String := "09-localhost"

/-- app/genesis.go:182-198 (`ConfigureIBCAllowedClients`): the first entry for localhost is taken out. -/
def configureClients (g : Gen P R) : Gen P R := { g with allowedClients := g.allowedClients.erase localhost }

/-- app/genesis.go:108-121 (`ConfigureDefaultDenom`) -/
def configureDenom (denom : String) (g : Gen P R) : Gen P R :=
  { g with reserveFeeDenom := denom, minBidDenom := denom, feeDenom := denom }

/-- app/genesis.go:90-98: the loop over the markets, `id` counting up. -/
def number (id : Nat) : List P → List (P × Nat) × Nat
  | [] => ([], id)
  | m :: ms => let r := number (id + 1) ms; ((m, id) :: r.1, r.2)

/-- app/genesis.go:48-106 (`AddMarketData`): the reserved timestamp pair gets the first id, the markets the next. -/
def addMarketData (timestamp : P) (markets : List P) (admin : String) (g : Gen P R) : Gen P R :=
  let r := number 1 markets
  { g with markets := markets, admin := admin, pairs := (timestamp, 0) :: r.1, nextId := r.2 }

/-- app/genesis.go:39-46 (`NewDefaultGenesisState`) -/
def defaultGenesis (timestamp : P) (markets : List P) (admin : String) (denom : String) (g : Gen P R) : Gen P R :=
  addMarketData timestamp markets admin (configureDenom denom (configureClients (configureICA (configureMinGasPrices g))))

/-- types/const.go: `BaseDenom` -/
def baseDenom : String := "GAS"

/-- cmd/minitiad/launch.go:49-64: the genesis of a chain launched for a denom. -/
def launchGenesis (timestamp : P) (markets : List P) (admin : String) (denom : String) (g : Gen P R) : Gen P R :=
  defaultGenesis timestamp markets admin (if denom = "umin" then baseDenom else denom) g

end

/-- ibc-go `IsAllowedClient` (the check for blank names left out). -/
def clientAllowed (l : List String) (client : String) : Bool := decide (l = ["*"]) || l.contains client

end Verif.Routes
