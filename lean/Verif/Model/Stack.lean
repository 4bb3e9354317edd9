import Verif.Model.Hooks
/-
Model of the middleware stacks of the transfer and nft-transfer ports (app/keepers/keepers.go:349-483): which layer a
received packet goes through, in which order, and what it comes to when a layer below the EVM hooks postpones the
acknowledgement.

The layers of other modules are reproduced from their contracts (packet-forward-middleware v8.0.2, rate-limiting v8.0.0,
ibc-go v8 29-fee; not in /repo). The forwarding middleware together with the transfer application is the parameter
`bottom`: it answers at once. In-flight records, retries and refunds of forwarded packets are not modelled.
-/
namespace Verif.Stack
open Verif Verif.Text Verif.Hooks

/-- What a receive callback returns (`ibcexported.Acknowledgement`): an acknowledgement, or Go's nil, by which a module
says that it will write one later. -/
inductive Answer where
  | now (a : Ack)
  | later

/-- The "forward" entry of a memo (`ForwardMetadata`), decoded and validated. -/
structure Route where
  receiver : Str
  port : Str
  channel : Str
  next : Str

/-- A transfer sent on by the packet forward middleware. -/
structure Out where
  sender : Str
  denom : Str
  amount : Int
  route : Route

/-- Surroundings: those of the hooks (`hooks.appRecv` is not used here), and the other layers. -/
structure Env (σ J K : Type) where
  hooks : Hooks.Env σ J K
  /-- forwarding middleware and transfer application -/
  bottom : Packet → σ → Ack × σ
  /-- `ReceiveRateLimitedPacket`: `none` when over the limit -/
  limitIn : Packet → σ → Option σ
  /-- `ModuleCdc.UnmarshalJSON`, `MustMarshalJSON` of ICS20 data -/
  decodeCdc : Bytes → Option Ics20
  encodeCdc : Ics20 → Bytes
  /-- the memo is a JSON object whose field "forward" is there and not null -/
  forwards : Str → Bool
  /-- the memo decodes to `PacketMetadata` and it is valid -/
  route : Str → Option Route
  /-- the account through which a sender's tokens are forwarded (`getReceiver`) -/
  account : Str → Str → Str
  /-- `SendTransfer` up to the packet: escrow or burn -/
  escrow : Out → σ → Option σ
  /-- `SendRateLimitedPacket` -/
  limitOut : Out → σ → Option σ
  /-- `ChannelKeeper.SendPacket` -/
  channel : Out → σ → Option σ
  /-- `IsFeeEnabled`, `NewIncentivizedAcknowledgement` (content only: it keeps the success flag), and the relayer record
  of a postponed acknowledgement -/
  feeOn : Packet → σ → Bool
  incentivized : Str → Str
  noteRelayer : Packet → σ → σ

variable {σ J K : Type}

/-- A receive callback; `none`: it panics. -/
abbrev Handler (σ : Type) := Packet → Run σ → Option (Answer × Run σ)

/-- app/keepers/keepers.go:374-382: the transfer application with the forwarding middleware around it. -/
def base (e : Env σ J K) : Handler σ := fun p r => some (.now (e.bottom p r.st).1, ⟨(e.bottom p r.st).2, r.ops⟩)

/-- An error acknowledgement of a layer, without the text. -/
def refusal : Ack := ⟨false, "error".toList⟩

/-- app/keepers/keepers.go:363-365, 392-393, 414-415: the way of a sent packet, transfer -> packet forward -> rate limit -> fee ->
channel; packet forward and fee pass it on unchanged. -/
def send (e : Env σ J K) (o : Out) (s : σ) : Option σ :=
  match e.escrow o s with
  | none => none
  | some s1 => match e.limitOut o s1 with
    | none => none
    | some s2 => e.channel o s2

/-- The layer of app/keepers/keepers.go:397-404 (`packetforward.IBCMiddleware.OnRecvPacket`). -/
def packetForward (e : Env σ J K) (next : Handler σ) : Handler σ := fun p r =>
  match e.decodeCdc p.data with
  | none => next p r
  | some d =>
    if e.forwards d.memo = false then next p r
    else match e.route d.memo with
      | none => some (.now refusal, r)
      | some rt =>
        let who := e.account p.dstChan d.sender
        match next { p with data := e.encodeCdc { d with receiver := who, memo := [] } } r with
        | none => none
        | some (.later, r') => some (.now refusal, r')
        | some (.now a, r') =>
          if a.success = false then some (.now refusal, r')
          else match parseInt d.amount with
            | none => some (.now refusal, r')
            | some n => match send e ⟨who, localDenom e.hooks p d.denom, n, rt⟩ r'.st with
              | none => some (.now refusal, r')
              | some s => some (.later, ⟨s, r'.ops⟩)

/-- The layer of app/keepers/keepers.go:420-424 (`ratelimit.IBCMiddleware.OnRecvPacket`). -/
def rateLimit (e : Env σ J K) (next : Handler σ) : Handler σ := fun p r =>
  match e.limitIn p r.st with
  | none => some (.now refusal, r)
  | some s => next p ⟨s, r.ops⟩

/-- Pass a packet to the layer below, on record. -/
def under (next : Handler σ) : Handler σ := fun p r => next p ⟨r.st, r.ops ++ [.app p]⟩

/-- app/ibc-hooks/receive.go:60-63 and 144-147: `ack := im.App.OnRecvPacket(…); if !ack.Success()`. Calling a method of
a nil interface panics. `rest`: what follows on success. -/
def thenCall (x : Option (Answer × Run σ)) (rest : Ack → Run σ → Ack × Run σ) : Option (Answer × Run σ) :=
  match x with
  | none => none
  | some (.later, _) => none
  | some (.now a, r) => if !a.success then some (.now a, r) else some (.now (rest a r).1, (rest a r).2)

/-- app/ibc-hooks/receive.go:22-77 on top of a layer that may postpone its answer. -/
def hook20 (e : Env σ J K) (next : Handler σ) (p : Packet) (d : Ics20) (r : Run σ) : Option (Answer × Run σ) :=
  match parseMemo e.hooks d.memo with
  | (false, _, _) => under next p r
  | (true, ⟨none, _⟩, _) => under next p r
  | (true, ⟨some _, _⟩, false) => some (.now errorAck, r)
  | (true, ⟨some msg, _⟩, true) =>
    if checkACL e.hooks r.st msg.contractAddr ≠ some true then some (.now errorAck, r)
    else if d.receiver ≠ msg.contractAddr then some (.now errorAck, r)
    else
      let inter := intermediate e.hooks p.dstChan d.sender
      let p' : Packet := { p with data := e.hooks.encode20 { d with receiver := inter } }
      thenCall (under next p' r) fun a x =>
        let y := approveERC20 e.hooks x inter (hexToAddress msg.contractAddr) (localDenom e.hooks p' d.denom) d.amount
        if !y.1 then (errorAck, y.2)
        else
          let z := y.2.call e.hooks { msg with sender := inter }
          if !z.1 then (errorAck, z.2) else (a, z.2)

/-- app/ibc-hooks/receive.go:106-164, likewise. -/
def hook721 (e : Env σ J K) (next : Handler σ) (p : Packet) (d : Ics721) (r : Run σ) : Option (Answer × Run σ) :=
  match parseMemo e.hooks d.memo with
  | (false, _, _) => under next p r
  | (true, ⟨none, _⟩, _) => under next p r
  | (true, ⟨some _, _⟩, false) => some (.now errorAck, r)
  | (true, ⟨some msg, _⟩, true) =>
    if checkACL e.hooks r.st msg.contractAddr ≠ some true then some (.now errorAck, r)
    else if d.receiver ≠ msg.contractAddr then some (.now errorAck, r)
    else
      let inter := intermediate e.hooks p.dstChan d.sender
      let p' : Packet := { p with data := e.hooks.encode721 { d with receiver := inter } p.srcPort }
      thenCall (under next p' r) fun a x =>
        let y := approveAll e.hooks inter (hexToAddress msg.contractAddr) (localClassId e.hooks p' d.classId) d.tokenIds x
        if !y.1 then (errorAck, y.2)
        else
          let z := y.2.call e.hooks { msg with sender := inter }
          if !z.1 then (errorAck, z.2) else (a, z.2)

/-- The layer of app/keepers/keepers.go:427-435 and 468-476 (app/ibc-hooks/hooks.go:44-54). -/
def evmHooks (e : Env σ J K) (next : Handler σ) : Handler σ := fun p r =>
  match e.hooks.decode20 p.data with
  | some d => hook20 e next p d r
  | none => match e.hooks.decode721 p.data p.srcPort with
    | some d => hook721 e next p d r
    | none => under next p r

/-- The layer of app/keepers/keepers.go:438-443 and 478-482 (`ibcfee.IBCMiddleware.OnRecvPacket`). -/
def fee (e : Env σ J K) (next : Handler σ) : Handler σ := fun p r =>
  match next p r with
  | none => none
  | some (a, r') =>
    if e.feeOn p r.st = false then some (a, r')
    else match a with
      | .later => some (.later, ⟨e.noteRelayer p r'.st, r'.ops⟩)
      | .now k => some (.now { k with body := e.incentivized k.body }, r')

/-- Wrap a handler in layers, the first one innermost. -/
def wrapAll (h : Handler σ) : List (Handler σ → Handler σ) → Handler σ
  | [] => h
  | l :: ls => wrapAll (l h) ls

/-- app/keepers/keepers.go:354-444: the stack of the transfer port. -/
def transferStack (e : Env σ J K) : Handler σ := wrapAll (base e) [packetForward e, rateLimit e, evmHooks e, fee e]

/-- app/keepers/keepers.go:450-483: the stack of the nft-transfer port. -/
def nftStack (e : Env σ J K) : Handler σ := wrapAll (base e) [evmHooks e, fee e]

/-- ibc-go v8 modules/core/keeper/msg_server.go (`RecvPacket`): the callback runs in a cache context which is written when
there is no acknowledgement yet or it reports success. A panic fails the transaction of the relayer (baseapp `runTx`):
nothing is written, not even that the packet was received (`none`). -/
def recvPacket (h : Handler σ) (p : Packet) (s : σ) : Option (Answer × σ) :=
  match h p ⟨s, []⟩ with
  | none => none
  | some (.later, r) => some (.later, r.st)
  | some (.now a, r) => some (.now a, if a.success then r.st else s)

end Verif.Stack
