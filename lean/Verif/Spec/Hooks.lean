import Verif.Model.Hooks
/-
What a packet asks for, stated on its content, and what the hooks may do. Used by Props/Hooks.lean.
-/
namespace Verif.Hooks.Spec
open Verif Verif.Text Verif.Hooks

variable {σ J K : Type}

/-- A received packet carries a fungible or a non-fungible token transfer: its sender, receiver, memo, and the same
packet with another receiver. -/
inductive Carries (e : Env σ J K) (p : Packet) : Str → Str → Str → (Str → Packet) → Prop where
  | ft (d : Ics20) (h : e.decode20 p.data = some d) :
      Carries e p d.sender d.receiver d.memo (fun r => { p with data := e.encode20 { d with receiver := r } })
  | nft (d : Ics721) (h0 : e.decode20 p.data = none) (h : e.decode721 p.data p.srcPort = some d) :
      Carries e p d.sender d.receiver d.memo (fun r => { p with data := e.encode721 { d with receiver := r } p.srcPort })

/-- The memo is a JSON object whose field "evm" decodes without error to a request with this message. -/
def Asks (e : Env σ J K) (memo : Str) (msg : MsgCall) : Prop :=
  memo ≠ [] ∧ ∃ j hd, e.jsonField memo "evm".toList = some (some j) ∧ e.decodeHook j = (hd, true) ∧ hd.message = some msg

/-- The memo has no "evm" field, or the field decodes to something without message. -/
def NoMessage (e : Env σ J K) (memo : Str) : Prop :=
  memo = [] ∨ (∀ j, e.jsonField memo "evm".toList ≠ some (some j)) ∨
    ∃ j, e.jsonField memo "evm".toList = some (some j) ∧ (e.decodeHook j).1.message = none

/-- Same for the asynchronous callback. -/
def AsksCallback (e : Env σ J K) (memo : Str) (cb : AsyncCallback) : Prop :=
  memo ≠ [] ∧ ∃ j hd, e.jsonField memo "evm".toList = some (some j) ∧ e.decodeHook j = (hd, true) ∧ hd.asyncCallback = some cb

/-- A contract, named by a string, is on the list of allowed contracts. -/
def Allowed (e : Env σ J K) (s : σ) (contract : Str) : Prop :=
  ∃ a, TxUtils.contractAddressFromString e.tx contract = some a ∧ e.allowed s a = some true

/-- A packet sent by this chain carries a transfer: its sender and memo. -/
inductive Sent (e : Env σ J K) (p : Packet) : Str → Str → Prop where
  | ft (d : Ics20) (h : e.decode20 p.data = some d) : Sent e p d.sender d.memo
  | nft (d : Ics721) (h0 : e.decode20 p.data = none) (h : e.decode721 p.data p.dstPort = some d) : Sent e p d.sender d.memo

/-- A token as the hops it took (latest first) and its base denom. -/
structure Token where
  hops : List (Str × Str)
  base : Str

/-- Textual form: `port/channel/…/base`. -/
def Token.text : Token → Str
  | ⟨[], b⟩ => b
  | ⟨(p, c) :: hs, b⟩ => p ++ '/' :: (c ++ '/' :: (Token.text ⟨hs, b⟩))
termination_by t => t.hops.length

/-- Name of a token on the chain where it has these hops: its base denom when native, else `ibc/` and the upper-case
hexadecimal SHA-256 of its textual form (ICS-20, "denomination traces"). -/
def Token.name (e : Env σ J K) (t : Token) : Str :=
  match t.hops with
  | [] => t.base
  | _ :: _ => "ibc/".toList ++ (hexEnc (e.sha (e.utf8 t.text))).map upHex

/-- The receiving chain's view of a token sent over a channel: a token that goes back over the hop it came by loses
that hop, any other gains the hop (destination port, destination channel). -/
def Token.received (p : Packet) (t : Token) : Token :=
  match t.hops with
  | (port, chan) :: rest => if port = p.srcPort ∧ chan = p.srcChan then ⟨rest, t.base⟩ else ⟨(p.dstPort, p.dstChan) :: t.hops, t.base⟩
  | [] => ⟨[(p.dstPort, p.dstChan)], t.base⟩

end Verif.Hooks.Spec
