/-
Model of the gas charged for signature checks, and of the checks that are then made:
app/ante/sigverify.go:131-197 (`DefaultSigVerificationGasConsumer`, `consumeMultisignatureVerificationGas`),
app/ante/verify.go:42-111 (`verifySignature`), with cosmos-sdk's `LegacyAminoPubKey.VerifyMultisignature` and the
cosmos-sdk default gas consumer by contract (outside /repo), and the order of app/ante/ante.go:95-100 and 108-116.
-/
namespace Verif.SigGas

/-- Public keys by type (the switch of sigverify.go:137-159); `other` is any further type. -/
inductive Key where
  | ed25519 | secp256k1 | ethsecp256k1 | secp256r1 | other
  | multi (threshold : Nat) (keys : List Key)

/-- Signature data: a single signature (an identifier of its bytes, and whether its mode is
`SIGN_MODE_ETHEREUM`), or a bit array with the signatures of the set bits. -/
inductive Data where
  | single (id : Nat) (eth : Bool)
  | multi (bits : List Bool) (sigs : List Data)

/-- The two auth parameters and the derived one. -/
structure Prices where
  ed25519 : Nat
  secp256k1 : Nat
  /-- `SigVerifyCostSecp256r1()` -/
  secp256r1 : Nat

/-- What the consumer did: the keys it charged for, in order, and whether it accepted (`false`: an error, or a panic,
which fails the transaction just the same). -/
structure Bill where
  charged : List Key
  ok : Bool

/-- One after the other, stopping at the first refusal. -/
def Bill.andThen (a : Bill) (b : Bill) : Bill := if a.ok then ⟨a.charged ++ b.charged, b.ok⟩ else a

mutual
/-- sigverify.go:131-160 (`DefaultSigVerificationGasConsumer`); `ethKeys` is whether `ethsecp256k1` is in the switch: it is
in /repo (and in initia's consumer, used by app/ante/ante.go:60-63), it is not in cosmos-sdk's, used by
app/ante/ante.go:112. -/
def consume (ethKeys : Bool) (k : Key) : Data → Bill
  | .single _ _ => match k with
    | .ed25519 => ⟨[.ed25519], false⟩
    | .secp256k1 => ⟨[.secp256k1], true⟩
    | .ethsecp256k1 => if ethKeys then ⟨[.ethsecp256k1], true⟩ else ⟨[], false⟩
    | .secp256r1 => ⟨[.secp256r1], true⟩
    | .other => ⟨[], false⟩
    | .multi _ _ => ⟨[], false⟩
  | .multi bits sigs => match k with
    | .ed25519 => ⟨[.ed25519], false⟩
    | .secp256k1 => ⟨[.secp256k1], true⟩
    | .ethsecp256k1 => if ethKeys then ⟨[.ethsecp256k1], true⟩ else ⟨[], false⟩
    | .secp256r1 => ⟨[.secp256r1], true⟩
    | .other => ⟨[], false⟩
    | .multi _ keys => consumeSigs ethKeys bits keys sigs

/-- sigverify.go:171-194: the loop over the bits; `keys` from index `i`, `sigs` from `sigIndex`. The bits before the next
set bit are skipped, which does not look at the keys; a set bit without key or signature is an index panic. -/
def consumeSigs (ethKeys : Bool) (bits : List Bool) (keys : List Key) : List Data → Bill
  | [] => ⟨[], !bits.any id⟩
  | s :: ss =>
    match bits.dropWhile (fun b => !b), keys.drop (bits.takeWhile (fun b => !b)).length with
    | [], _ => ⟨[], true⟩
    | _ :: _, [] => ⟨[], false⟩
    | _ :: bs, k :: ks => (consume ethKeys k s).andThen (consumeSigs ethKeys bs ks ss)
end

/-- The gas of a bill. -/
def Prices.of (p : Prices) : Key → Nat
  | .ed25519 => p.ed25519
  | .secp256k1 => p.secp256k1
  | .ethsecp256k1 => p.secp256k1
  | .secp256r1 => p.secp256r1
  | _ => 0

/-- The gas of a bill. -/
def Bill.gas (p : Prices) (b : Bill) : Nat := (b.charged.map p.of).sum

/-- What verification did: how many signatures it checked (a curve operation each), and the verdict. -/
structure Checked where
  checks : Nat
  ok : Bool

mutual
/-- cosmos-sdk `LegacyAminoPubKey.VerifyMultisignature` on one member: a single signature needs sign bytes (there are
none in Ethereum mode, verify.go:100-103) and a key that is not itself a multisig (that panics). -/
def verifyMember (valid : Key → Nat → Bool) (k : Key) : Data → Checked
  | .single id eth => match k with
    | .multi _ _ => ⟨0, false⟩
    | k => if eth then ⟨0, false⟩ else ⟨1, valid k id⟩
  | .multi bits sigs => match k with
    | .multi t keys =>
      if keys.length ≠ bits.length ∨ sigs.length < t ∨ bits.length < sigs.length ∨ (bits.filter id).length < t then
        ⟨0, false⟩
      else verifySigs valid bits keys sigs
    | _ => ⟨0, false⟩

/-- cosmos-sdk `VerifyMultisignature`: the loop over the bits. -/
def verifySigs (valid : Key → Nat → Bool) (bits : List Bool) (keys : List Key) : List Data → Checked
  | [] => ⟨0, !bits.any id⟩
  | s :: ss =>
    match bits.dropWhile (fun b => !b), keys.drop (bits.takeWhile (fun b => !b)).length with
    | [], _ => ⟨0, true⟩
    | _ :: _, [] => ⟨0, false⟩
    | _ :: bs, k :: ks =>
      let r := verifyMember valid k s
      if r.ok then let q := verifySigs valid bs ks ss; ⟨r.checks + q.checks, q.ok⟩ else r
end

/-- verify.go:42-111 (`verifySignature`): a single signature is one check (in Ethereum mode the recovery of the sender,
whatever the key; `ethOk` is its outcome), several go to the multisig key. -/
def verifySignature (valid : Key → Nat → Bool) (ethOk : Bool) (k : Key) : Data → Checked
  | .single id eth => if eth then ⟨1, ethOk⟩ else match k with
    | .multi _ _ => ⟨0, false⟩
    | k => ⟨1, valid k id⟩
  | .multi bits sigs => verifyMember valid k (.multi bits sigs)

/-- All signatures of a transaction are charged, in order. -/
def billAll (ethKeys : Bool) : List (Key × Data) → Bill
  | [] => ⟨[], true⟩
  | s :: ss => (consume ethKeys s.1 s.2).andThen (billAll ethKeys ss)

/-- app/ante/sigverify.go:66-124: all signatures are checked, in order, until one fails. -/
def checkAll (valid : Key → Nat → Bool) (ethOk : Bool) : List (Key × Data) → Checked
  | [] => ⟨0, true⟩
  | s :: ss =>
    let r := verifySignature valid ethOk s.1 s.2
    if r.ok then let q := checkAll valid ethOk ss; ⟨r.checks + q.checks, q.ok⟩ else r

/-- app/ante/ante.go:97-98 for all signatures of a transaction, with `limit` gas left: first every signature is charged
(SigGasConsumeDecorator), then they are checked one after the other (SigVerificationDecorator) until one fails. The
result counts the checks made. -/
def anteSigs (p : Prices) (ethKeys : Bool) (limit : Nat) (valid : Key → Nat → Bool) (ethOk : Bool)
    (sigs : List (Key × Data)) : Checked :=
  let bill := billAll ethKeys sigs
  if bill.ok = false ∨ limit < bill.gas p then ⟨0, false⟩
  else checkAll valid ethOk sigs

end Verif.SigGas
