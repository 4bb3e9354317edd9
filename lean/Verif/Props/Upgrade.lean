import Verif.Model.Upgrade
import Verif.Props.Create
import Verif.Props.Params
import Verif.Props.Query
/-
C103: what the chain deploys for itself at genesis, and what the software upgrade does: its scope, and when it fails.
-/
namespace Verif.Upgrade
open Verif Verif.World Verif.Create Verif.Props.Create Verif.Props.Eth

variable {v : Env} {s s' : State} {e : Nat}

/-- The constructor changes its own address `a` only, and destroys nothing. -/
def Confined (init : Constructor) (a : Addr) : Prop :=
  ∀ w w' c, init w = some (w', c) →
    (∀ b, b ≠ a → SameBut w w' b) ∧ w'.bal a = w.bal a ∧ w'.destructed = w.destructed

/-- No address is marked for destruction by execution `e`: it has not begun. -/
def Fresh (w : World) (e : Nat) : Prop := ∀ b, w.destructed e b = false

/-- A contract lives at `a`. -/
def Lives (w : World) (a : Addr) : Prop := ∃ acc x, w.acct a = some acc ∧ acc.kind = .contract x

/-- Where the wrapper of a factory is created. -/
def wrapperAddr (v : Env) (f : Bytes) : Addr := v.derive2 std 2 (wrapperCode v f)

/-- **C103 (the wrapper is told its factory).** The creation code of the wrapper is the compiled contract followed by one
32-byte word, the address of the factory. -/
theorem C103_argument (v : Env) (f : Addr) : ∃ word : Bytes, wrapperCode v f.bytes = v.wrapperBin ++ word ∧
    word.length = 32 ∧ fromBE word = fromBE f.bytes := by
  refine ⟨List.replicate 12 0 ++ f.bytes, by rw [wrapperCode, bytesToAddress_bytes], ?_, ?_⟩
  · rw [List.length_append, List.length_replicate, f.len]
  · simp [fromBE, List.replicate, List.foldl]

theorem sameBut_trans {a b c : World} {x : Addr} (h : SameBut a b x) (g : SameBut b c x) : SameBut a c x :=
  ⟨by rw [g.bal, h.bal], by rw [g.acct, h.acct], fun k => by rw [g.slots, h.slots], fun k => by rw [g.code, h.code]⟩

theorem prepared (w : World) (e : Nat) (pre : List Addr) :
    Props.Query.Kept e w ((w.newStateDB e).prepare e true true std Addr.zero none pre []) := by
  refine Props.Query.Kept.trans (b := w.newStateDB e) ?_ (Props.Query.kept_prepare e _ _ _ _ _ _ _ _)
  constructor <;> intros <;> try rfl
  all_goals (rename_i i hi; simp [World.newStateDB, World.upd, hi])

theorem kept_inUse {w w' : World} {a : Addr} (h : Props.Query.Kept e w w') (hu : InUse w a) : InUse w' a := by
  unfold InUse at hu ⊢
  rw [h.acct, h.vm]; exact hu

theorem kept_inUse' {w w' : World} {a : Addr} (h : Props.Query.Kept e w w') (hu : InUse w' a) : InUse w a := by
  unfold InUse at hu ⊢
  rw [← h.acct, ← h.vm]; exact hu

theorem kept_same {w w' : World} {a : Addr} (h : Props.Query.Kept e w w') : SameBut w w' a :=
  ⟨by rw [h.bal], by rw [h.acct], fun s => by rw [h.vm], fun s => by rw [h.vm]⟩

/-- A creation succeeds only at an address nobody uses. -/
theorem create2_taken {w : World} {salt : Nat} {code : Bytes} (hne : v.derive2 std salt code ≠ std)
    (hu : InUse w (v.derive2 std salt code)) : evmCreate2 v w e salt code = none := by
  unfold evmCreate2
  rcases C82_taken (eh := v.keccak []) (f := v.eip2929) (e := e) (v := 0) hne (kept_inUse (prepared w e v.precompiles) hu) with h | ⟨y, h, _⟩ <;>
    simp only [create, h]

theorem entered_kept {eh : Hash} {f : Bool} {w w' u : World} {caller a : Addr} {x : Nat}
    (h : enter eh f w e caller a x = .entered w' u) : w'.destructed = w.destructed ∧ w'.vm = w.vm := by
  have hset : ∀ (w : World) b n, (w.setNonce b n).destructed = w.destructed ∧ (w.setNonce b n).vm = w.vm := by
    intro w b n; simp only [World.setNonce, World.getOrNew]; cases w.acct b <;> exact ⟨rfl, rfl⟩
  have hbeg : (begun f w e caller a).destructed = w.destructed ∧ (begun f w e caller a).vm = w.vm := by
    cases f <;> exact hset w caller (w.getNonce caller + 1)
  simp only [enter] at h
  split at h
  · cases h
  split at h
  · cases h
  split at h
  · cases h
  split at h
  · cases h
  rename_i w3 h3
  split at h
  · cases h
  rename_i w4 h4
  simp only [Entry.entered.injEq] at h
  obtain ⟨rfl, rfl⟩ := h
  have e3 : w3.destructed = w.destructed ∧ w3.vm = w.vm := by
    rw [← hbeg.1, ← hbeg.2]
    generalize begun f w e caller a = b at h3
    have hc : ∀ b w3 : World, b.createContract e a = some w3 → w3.destructed = b.destructed ∧ w3.vm = b.vm := by
      intro b w3 h
      simp only [World.createContract] at h
      repeat' split at h
      all_goals first
        | cases h; done
        | (simp only [Option.some.injEq] at h; subst h; exact ⟨rfl, rfl⟩)
    split at h3
    · exact hc _ _ h3
    · obtain ⟨p, q⟩ := hc _ _ h3
      exact ⟨p, q⟩
  have e4 : w4.destructed = (w3.setNonce a 1).destructed ∧ w4.vm = (w3.setNonce a 1).vm := by
    simp only [pay, World.subBalance, World.addBalance] at h4
    obtain ⟨m, h5, h6⟩ := Option.bind_eq_some_iff.mp h4
    repeat' split at h5
    all_goals repeat' split at h6
    all_goals first
      | cases h5; done
      | cases h6; done
      | (simp only [Option.some.injEq] at h5 h6; subst h5; subst h6; exact ⟨rfl, rfl⟩)
  exact ⟨by rw [e4.1, (hset _ _ _).1, e3.1], by rw [e4.2, (hset _ _ _).2, e3.2]⟩

theorem entered_lives {eh : Hash} {f : Bool} {w w' u : World} {caller a : Addr} {x : Nat} (hne : a ≠ caller)
    (h : enter eh f w e caller a x = .entered w' u) : Lives w' a := by
  simp only [enter] at h
  split at h
  · cases h
  split at h
  · cases h
  split at h
  · cases h
  rename_i hcol
  obtain ⟨w3, h3, ⟨n, hn⟩, _⟩ := createContract_free (e := e) (collides_storageRoot (by simpa using hcol))
  rw [h3] at h
  simp only at h
  split at h
  · cases h
  rename_i w4 h4
  simp only [Entry.entered.injEq] at h
  obtain ⟨rfl, rfl⟩ := h
  obtain ⟨pa, _⟩ := pay_eq hne h4
  exact ⟨{ newContractAccount n with seq := 1 }, [], by rw [pa]; simp [World.setNonce, upd, World.getOrNew, hn], rfl⟩

/-- What a creation that succeeds has done. -/
theorem create2_scope {w w' : World} {salt : Nat} {code : Bytes} {x : Addr} (h : evmCreate2 v w e salt code = some (x, w'))
    (hc : Confined (v.constructor code) (v.derive2 std salt code)) (hf : Fresh w e) (hne : v.derive2 std salt code ≠ std) :
    x = v.derive2 std salt code ∧ ¬ InUse w x ∧ Lives w' x ∧
    (∃ w1 w2 c, v.constructor code w1 = some (w2, c) ∧ w'.getCode x = c) ∧
    w'.bal = w.bal ∧ (∀ b, b ≠ x → b ≠ std → SameBut w w' b) ∧
    w'.getNonce std = w.getNonce std + 1 ∧ (∀ k, w'.vm (stateKey std k) = w.vm (stateKey std k)) ∧
    w'.destructed = w.destructed := by
  unfold evmCreate2 at h
  have hp := prepared w e v.precompiles
  generalize (w.newStateDB e).prepare e true true std Addr.zero none v.precompiles [] = w0 at h hp
  generalize hx : v.derive2 std salt code = a at h hne hc
  split at h
  case h_2 => cases h
  rename_i wc hcr
  simp only [Option.some.injEq, Prod.mk.injEq] at h
  obtain ⟨rfl, rfl⟩ := h
  simp only [create] at hcr
  split at hcr
  · cases hcr
  · cases hcr
  · cases hcr
  rename_i w1 u hen
  split at hcr
  · cases hcr
  rename_i w2 c hcon
  split at hcr
  · cases hcr
  rename_i w3 hset
  simp only [Outcome.created.injEq] at hcr
  subst hcr
  obtain ⟨hnu, _, _, _, hba, hbs, _, hnon, hoth⟩ := C82_blank hne hen
  obtain ⟨hco, hcb, hcd⟩ := hc _ _ _ hcon
  have hd1 : ∀ b, w1.destructed e b = false := by
    intro b; rw [(entered_kept hen).1, hp.destructed]; exact hf b
  simp only [World.setCode] at hset
  have hset' : ∃ (acc : Account) (h : Bytes), w3.acct = upd w2.acct a (some { acc with kind := .contract h }) ∧ h = (v.keccak c).bytes ∧
      w3.vm = upd (upd w2.vm (codeKey a h) (some c)) (codeSizeKey a h) (some (uint64ToBytes c.length)) ∧
      w3.bal = w2.bal ∧ w3.destructed = w2.destructed := by
    split at hset
    · simp only [Option.some.injEq] at hset
      subst hset
      refine ⟨if (w2.getOrNew a).2.isEmpty then newContractAccount (w2.getOrNew a).2.num else (w2.getOrNew a).2, _,
        ?_, rfl, ?_, ?_, ?_⟩
      · simp only
        funext b
        simp only [upd]
        split
        · rfl
        · rename_i hb
          simp only [World.getOrNew]
          cases w2.acct a with
          | some _ => rfl
          | none => simp [World.newAccount, upd, hb]
      all_goals (simp only [World.getOrNew]; cases w2.acct a <;> rfl)
    · cases hset
  obtain ⟨acc, ch, s1, s2, s3, s4, s5⟩ := hset'
  have hd3 : ∀ b, w3.destructed e b = false := by
    intro b; rw [s5, hcd]; exact hd1 b
  have c1 : (w3.commitDestructs e).acct = w3.acct := by funext b; simp [World.commitDestructs, hd3]
  have c2 : (w3.commitDestructs e).bal = w3.bal := by funext b; simp [World.commitDestructs, hd3]
  have c3 : (w3.commitDestructs e).vm = w3.vm := by
    funext k; simp only [World.commitDestructs]
    split <;> simp [hd3]
  have slot : ∀ b k, w3.vm (stateKey b k) = w2.vm (stateKey b k) := by
    intro b k
    rw [s3]
    simp only [upd]
    have hk : ∀ pre : Bytes, (∀ x y : Bytes, statePrefix ++ x ≠ pre ++ y) → stateKey b k ≠ a.bytes ++ (pre ++ ch) := by
      intro pre hpre he
      simp only [stateKey, List.append_assoc] at he
      exact hpre _ _ (append_inj_addr he).2
    rw [if_neg, if_neg]
    · simpa [codeKey] using hk codePrefix (by intro x y; simp [statePrefix, codePrefix])
    · simpa [codeSizeKey] using hk codeSizePrefix (by intro x y; simp [statePrefix, codeSizePrefix])
  have codeO : ∀ b k, b ≠ a → w3.vm (codeKey b k) = w2.vm (codeKey b k) := by
    intro b k hb
    rw [s3]
    simp only [upd]
    rw [if_neg, if_neg]
    · intro he; simp only [codeKey, List.append_assoc] at he; exact hb (append_inj_addr he).1
    · intro he; simp only [codeKey, codeSizeKey, List.append_assoc] at he; exact hb (append_inj_addr he).1
  have acctO : ∀ b, b ≠ a → w3.acct b = w2.acct b := by intro b hb; rw [s1]; simp [upd, hb]
  refine ⟨rfl, fun hu => hnu (kept_inUse hp hu), ?_, ⟨w1, w2, c, hcon, ?_⟩, ?_, ?_, ?_, ?_, ?_⟩
  · exact ⟨_, ch, by rw [c1, s1]; simp [upd]; rfl, rfl⟩
  · have ha : (w3.commitDestructs e).acct a = some { acc with kind := .contract ch } := by rw [c1, s1]; simp [upd]
    have hne' : codeKey a ch ≠ codeSizeKey a ch := by
      intro he
      simp only [codeKey, codeSizeKey, List.append_assoc] at he
      have := (append_inj_addr he).2
      have := congrArg List.length this
      simp [codePrefix, codeSizePrefix] at this
    have hv : (w3.commitDestructs e).vm (codeKey a ch) = some c := by rw [c3, s3]; simp [upd, hne']
    simp only [World.getCode, ha, hv]
    rfl
  · rw [c2, s4]
    funext b
    by_cases hb : b = a
    · subst hb; rw [hcb, hba, hp.bal]; rfl
    · rw [(hco b hb).bal]
      by_cases hb' : b = std
      · subst hb'; rw [hbs, hp.bal]; rfl
      · rw [(hoth b hb hb').bal, hp.bal]
  · intro b hb hb'
    refine sameBut_trans (kept_same hp) (sameBut_trans (hoth b hb hb') (sameBut_trans (hco b hb) ?_))
    exact ⟨by rw [c2, s4], by rw [c1, acctO b hb], fun k => by rw [c3, slot], fun k => by rw [c3, codeO b k hb]⟩
  · have h1 : (w3.commitDestructs e).acct std = w1.acct std := by
      rw [c1, acctO std (Ne.symm hne), (hco std (Ne.symm hne)).acct]
    have h2 : w.getNonce std = w0.getNonce std := by simp only [World.getNonce, hp.acct]
    rw [h2, ← hnon]
    simp only [World.getNonce, h1]
  · intro k
    rw [c3, slot, (hco std (Ne.symm hne)).slots, (entered_kept hen).2, hp.vm]
  · show w3.destructed = w.destructed
    rw [s5, hcd, (entered_kept hen).1, hp.destructed]

/-! ### C103 -/

/-- C103 (scope). An upgrade that succeeds sets the refund ratio to one half and the retention to "all", leaves every other
parameter, the factory and the recorded hashes alone, and creates one contract, at an address nobody used, whose code is what
the constructor returned; it moves no coins, and of all other addresses only the deployer's nonce has advanced. -/
theorem C103_scope (h : handler v e s = some s') (hf : Fresh s.w e)
    (hc : ∀ f, s.factory = some f → Confined (v.constructor (wrapperCode v f)) (wrapperAddr v f))
    (hne : ∀ f, s.factory = some f → wrapperAddr v f ≠ std) :
    ∃ f, s.factory = some f ∧ s'.factory = s.factory ∧ s'.hashes = s.hashes ∧
      s'.params = { s.params with gasRefundRatio := 500000000000000000, numRetain := 0 } ∧
      s'.wrapper = some (wrapperAddr v f).bytes ∧ ¬ InUse s.w (wrapperAddr v f) ∧ Lives s'.w (wrapperAddr v f) ∧
      (∃ w1 w2 c, v.constructor (wrapperCode v f) w1 = some (w2, c) ∧ s'.w.getCode (wrapperAddr v f) = c) ∧
      s'.w.bal = s.w.bal ∧
      (∀ b, b ≠ wrapperAddr v f → b ≠ std → SameBut s.w s'.w b) ∧ s'.w.getNonce std = s.w.getNonce std + 1 := by
  unfold handler deployWrapper at h
  cases hfa : s.factory with
  | none => simp [hfa] at h
  | some f =>
    simp only [hfa, Option.map_eq_some_iff] at h
    obtain ⟨⟨x, w'⟩, h1, rfl⟩ := h
    obtain ⟨rfl, h2, h3, h4, h5, h6, h7, _⟩ := create2_scope h1 (hc f hfa) hf (hne f hfa)
    exact ⟨f, rfl, rfl, rfl, rfl, rfl, h2, h3, h4, h5, h6, h7⟩

/-- C103 (validity): valid parameters are valid after the upgrade. -/
theorem C103_valid {K : Type} (en : TxUtils.Env K) (h : handler v e s = some s') (hv : Props.Params.Valid en s.params) :
    Props.Params.Valid en s'.params := by
  have hp : s'.params = { s.params with gasRefundRatio := 500000000000000000, numRetain := 0 } := by
    unfold handler deployWrapper at h
    split at h
    · cases h
    · simp only [Option.map_eq_some_iff] at h
      obtain ⟨_, _, rfl⟩ := h
      rfl
  rw [hp]
  obtain ⟨h1, h2, _, _, _⟩ := hv
  have hh : (0 : Int) ≤ 500000000000000000 ∧ (500000000000000000 : Int) ≤ 10 ^ 18 := by decide +kernel
  exact ⟨h1, h2, hh.1, hh.2, Or.inl rfl⟩

/-- Blocks `start+1 .. start+k` after the upgrade. -/
def blocks (hdr : Nat → Hash) (start : Nat) : Nat → State → State
  | 0, s => s
  | k + 1, s => preBlock (blocks hdr start k s) (start + k + 1) (hdr (start + k + 1))

/-- C103 (history): after the upgrade no recorded block hash is ever removed: a recorded one, of a block before the upgrade,
is there after any number of blocks. -/
theorem C103_hashes (h : handler v e s = some s') (hdr : Nat → Hash) (start k n : Nat) (x : Hash) (hn : n < start)
    (hr : s.hashes n = some x) : (blocks hdr start k s').hashes n = some x ∧ (blocks hdr start k s').params = s'.params := by
  have hp : s'.params.numRetain = 0 ∧ s'.hashes = s.hashes := by
    unfold handler deployWrapper at h
    split at h
    · cases h
    · simp only [Option.map_eq_some_iff] at h
      obtain ⟨_, _, rfl⟩ := h
      exact ⟨rfl, rfl⟩
  induction k with
  | zero => exact ⟨by rw [blocks, hp.2, hr], rfl⟩
  | succ k ih =>
    refine ⟨?_, by simp only [blocks, preBlock, ih.2]⟩
    simp only [blocks, preBlock, Params.preBlock, ih.2, hp.1, Params.track]
    split
    · exact ih.1
    · simp only [ne_eq, not_true_eq_false, false_and, if_false]
      rw [if_neg (by omega)]
      exact ih.1

/-- C103 (order): without a recorded factory the upgrade fails. -/
theorem C103_factory (h : s.factory = none) : handler v e s = none := by
  simp [handler, deployWrapper, h]

/-- C103: at genesis the factory of every chain with the same compiled contract gets the same address, CREATE2 of the standard
account with salt 1; nothing else but the contract state changes in that step. -/
theorem C103_factory_address (h : deployFactory v e s = some s') :
    s'.factory = some (v.derive2 std 1 v.factoryBin).bytes ∧ s'.wrapper = s.wrapper ∧ s'.params = s.params ∧
      s'.hashes = s.hashes := by
  unfold deployFactory at h
  obtain ⟨r, hr, rfl⟩ := Option.map_eq_some_iff.mp h
  unfold evmCreate2 at hr
  split at hr
  · cases hr; exact ⟨rfl, rfl, rfl, rfl⟩
  · cases hr

theorem lives_inUse {w : World} {a : Addr} (h : Lives w a) : InUse w a := by
  obtain ⟨acc, x, h1, h2⟩ := h
  exact Or.inl ⟨acc, h1, Or.inl ⟨x, h2⟩⟩

/-- C103, defect: the upgrade can be run once. After a first success — or after a genesis of this version, which deploys the same
wrapper — and any history of executions that keeps the wrapper, with whatever was done to parameters and recorded hashes, the
handler fails: the node halts at the height of the plan, and every node does. -/
theorem C103_again_violated (h : deployWrapper v e s = some s') (hf : Fresh s.w e)
    (hc : ∀ f, s.factory = some f → Confined (v.constructor (wrapperCode v f)) (wrapperAddr v f))
    (hne : ∀ f, s.factory = some f → wrapperAddr v f ≠ std)
    (l : List Event) (hk : ∀ f, s.factory = some f → Keeps v.keccak (wrapperAddr v f) s'.w l)
    (t : State) (ht : runDB v.keccak s'.w l = some t.w) (htf : t.factory = s.factory) (e' : Nat) :
    handler v e' t = none := by
  unfold deployWrapper at h
  cases hfa : s.factory with
  | none => simp [hfa] at h
  | some f =>
    simp only [hfa, Option.map_eq_some_iff] at h
    obtain ⟨⟨x, w'⟩, h1, rfl⟩ := h
    obtain ⟨rfl, _, h3, _⟩ := create2_scope h1 (hc f hfa) hf (hne f hfa)
    have hl : Lives t.w (wrapperAddr v f) := contract_run l (hk f hfa) h3 ht
    simp only [handler, deployWrapper, htf, hfa]
    rw [create2_taken (hne f hfa) (lives_inUse hl)]
    rfl

/-- … in particular on a chain whose genesis is of this version. -/
theorem C103_genesis_violated (feeToken : State → Option State) {e1 e2 : Nat} (h : boot v e1 e2 feeToken s = some s')
    (hf : ∀ m, (deployFactory v e1 s).bind feeToken = some m → Fresh m.w e2)
    (hc : ∀ f, Confined (v.constructor (wrapperCode v f)) (wrapperAddr v f))
    (hne : ∀ f, wrapperAddr v f ≠ std)
    (l : List Event) (hk : ∀ f, Keeps v.keccak (wrapperAddr v f) s'.w l)
    (t : State) (ht : runDB v.keccak s'.w l = some t.w) (htf : t.factory = s'.factory) (e' : Nat) :
    handler v e' t = none := by
  obtain ⟨m, h1, h2⟩ := Option.bind_eq_some_iff.mp h
  have hfac : s'.factory = m.factory := by
    unfold deployWrapper at h2
    split at h2
    · cases h2
    · simp only [Option.map_eq_some_iff] at h2
      obtain ⟨_, _, rfl⟩ := h2
      rfl
  exact C103_again_violated h2 (hf m h1) (fun f _ => hc f) (fun f _ => hne f) l (fun f _ => hk f) t ht (by rw [htf, hfac]) e'

theorem create2_succeeds {w : World} {salt : Nat} {code : Bytes} (hr : Records w)
    (hu : ¬ InUse w (v.derive2 std salt code)) (hne : v.derive2 std salt code ≠ std)
    (hn : w.getNonce std + 1 ≠ 18446744073709551616) (hb : w.bal std + w.bal (v.derive2 std salt code) < 2 ^ 256)
    (hc : ∀ w, Lives w (v.derive2 std salt code) → ∃ w' c, v.constructor code w = some (w', c) ∧ Lives w' (v.derive2 std salt code)) :
    ∃ w', evmCreate2 v w e salt code = some (v.derive2 std salt code, w') := by
  have hp := prepared w e v.precompiles
  have hent := (C82_free (eh := v.keccak []) (f := v.eip2929) (e := e) (v := 0)
    (w := (w.newStateDB e).prepare e true true std Addr.zero none v.precompiles []) (a := v.derive2 std salt code) (caller := std)
    (fun a k hk => hr a k (by rw [hp.vm] at hk; exact hk)) hne
    (fun h => hu (kept_inUse' hp h)) (by rw [hp.bal]; exact hb)).mpr
    ⟨Nat.zero_le _, by simp only [World.getNonce, hp.acct] at hn ⊢; exact hn⟩
  obtain ⟨w1, w0, h⟩ := hent
  obtain ⟨w2, c, hcon, acc, x, h1, h2⟩ := hc w1 (entered_lives hne h)
  have hnemp : acc.isEmpty = false := by simp [Account.isEmpty, h2]
  have hset : ∃ w3, w2.setCode v.keccak (v.derive2 std salt code) c = some w3 := by
    simp only [World.setCode, World.getOrNew, h1, hnemp, Bool.false_eq_true, if_false, h2]
    exact ⟨_, rfl⟩
  obtain ⟨w3, h3⟩ := hset
  unfold evmCreate2
  simp only [create, h, hcon, h3]
  exact ⟨_, rfl⟩

/-- C103 (when it works). With a recorded factory, an unused wrapper address and a constructor that returns code, the upgrade
succeeds (`Records` holds in every reachable state, C82). -/
theorem C103_succeeds {f : Bytes} (hfa : s.factory = some f) (hr : Records s.w) (hu : ¬ InUse s.w (wrapperAddr v f))
    (hne : wrapperAddr v f ≠ std) (hn : s.w.getNonce std + 1 ≠ 18446744073709551616)
    (hb : s.w.bal std + s.w.bal (wrapperAddr v f) < 2 ^ 256)
    (hc : ∀ w, Lives w (wrapperAddr v f) → ∃ w' c, v.constructor (wrapperCode v f) w = some (w', c) ∧ Lives w' (wrapperAddr v f)) :
    ∃ s', handler v e s = some s' := by
  obtain ⟨w', h⟩ := create2_succeeds (e := e) hr hu hne hn hb hc
  unfold handler deployWrapper
  simp only [hfa, h]
  exact ⟨_, rfl⟩

/-- Storage records stay records through a deployment whose constructor keeps them. -/
theorem create2_records {w w' : World} {salt : Nat} {code : Bytes} {x : Addr} (hr : Records w)
    (hc : ∀ w w' c, v.constructor code w = some (w', c) → Records w → Records w')
    (h : evmCreate2 v w e salt code = some (x, w')) : Records w' := by
  unfold evmCreate2 at h
  have hp := prepared w e v.precompiles
  generalize (w.newStateDB e).prepare e true true std Addr.zero none v.precompiles [] = w0 at h hp
  have hr0 : Records w0 := fun a k hk => hr a k (by rw [hp.vm] at hk; exact hk)
  split at h
  case h_2 => cases h
  rename_i wc hcr
  simp only [Option.some.injEq, Prod.mk.injEq] at h
  obtain ⟨rfl, rfl⟩ := h
  simp only [create] at hcr
  split at hcr
  · cases hcr
  · cases hcr
  · cases hcr
  rename_i w1 u hen
  split at hcr
  · cases hcr
  rename_i w2 c hcon
  split at hcr
  · cases hcr
  rename_i w3 hset
  simp only [Outcome.created.injEq] at hcr
  subst hcr
  have hr2 : Records w2 := hc _ _ _ hcon (fun a k hk => hr0 a k (by rw [(entered_kept hen).2] at hk; exact hk))
  have hr3 : Records w3 := records_step (keccak := v.keccak) (e := e) (op := .setCode (v.derive2 std salt code) c) hr2 hset
  exact records_run (keccak := v.keccak) [.commit e] hr3 rfl

/-! ### The hypotheses are met -/

/-- A deployment with two salts at two addresses; constructors that return one byte of code. -/
def toyEnv : Env where
  keccak := Props.World.toyKeccak
  derive2 := fun _ salt _ => Addr.ofNat (6 + salt)
  eip2929 := true
  precompiles := [Addr.ofNat 2]
  constructor := fun _ w => some (w, [0])
  factoryBin := [1]
  wrapperBin := [2]

def toyState : State where
  w := { Spec.emptyWorld with bal := fun b => if b = Addr.ofNat 5 then 50 else 0 }
  factory := some (Addr.ofNat 7).bytes
  wrapper := none
  params := Props.Params.toyP
  hashes := fun n => if n = 3 then some (Hash.ofNat 4) else none

theorem toy_confined (code : Bytes) (a : Addr) : Confined (toyEnv.constructor code) a := by
  intro w w' c h
  simp only [toyEnv, Option.some.injEq, Prod.mk.injEq] at h
  obtain ⟨rfl, _⟩ := h
  exact ⟨fun b _ => ⟨rfl, rfl, fun _ => rfl, fun _ => rfl⟩, rfl, rfl⟩

theorem toy_ne (f : Bytes) : wrapperAddr toyEnv f ≠ std := by
  show Addr.ofNat 8 ≠ Addr.ofNat 1
  decide

theorem toy_runs (t : State) (hw : t.w = toyState.w) (hf : t.factory = toyState.factory) : ∃ s', handler toyEnv 1 t = some s' := by
  refine C103_succeeds (f := (Addr.ofNat 7).bytes) (by rw [hf]; rfl) ?_ ?_ (by decide) ?_ ?_ (fun w h => ⟨w, [0], rfl, h⟩)
  · rw [hw]; intro a k hk; cases hk
  · rw [hw]
    rintro (⟨acc, h, _⟩ | ⟨x, b, h⟩)
    · cases h
    · cases h
  · rw [hw]; decide
  · rw [hw]; decide +kernel

example : ∃ s', handler toyEnv 1 toyState = some s' ∧ s'.wrapper = some (Addr.ofNat 8).bytes ∧
    (∀ t : State, t.w = s'.w → t.factory = toyState.factory → handler toyEnv 2 t = none) ∧
    (∀ k, (blocks Hash.ofNat 10 k s').hashes 3 = some (Hash.ofNat 4)) := by
  obtain ⟨s', h⟩ := toy_runs toyState rfl rfl
  refine ⟨s', h, ?_, ?_, fun k => (C103_hashes h Hash.ofNat 10 k 3 _ (by decide) rfl).1⟩
  · obtain ⟨f, h1, _, _, _, h2, _⟩ := C103_scope h (fun _ => rfl) (fun f _ => toy_confined _ _) (fun f _ => toy_ne _)
    rw [h2]; rfl
  · intro t ht hf
    exact C103_again_violated (s := { toyState with params := _ }) h (fun _ => rfl) (fun f _ => toy_confined _ _)
      (fun f _ => toy_ne _) [] (fun _ _ => trivial) t (by rw [ht]; rfl) hf 2

/-- A genesis of this version, with a fee token that needs nothing, succeeds; both contracts are recorded, at different
addresses; and the upgrade then fails. -/
example : ∃ s', boot toyEnv 1 2 some { toyState with factory := none } = some s' ∧
    s'.factory = some (Addr.ofNat 7).bytes ∧ s'.wrapper = some (Addr.ofNat 8).bytes ∧
    ∀ t : State, t.w = s'.w → t.factory = s'.factory → handler toyEnv 3 t = none := by
  have r0 : Records toyState.w := by intro a k hk; cases hk
  obtain ⟨w1, h1⟩ := create2_succeeds (v := toyEnv) (w := toyState.w) (salt := 1) (code := [1]) (e := 1) r0
    (by rintro (⟨acc, h, _⟩ | ⟨x, b, h⟩) <;> cases h) (by decide) (by decide) (by decide +kernel) (fun w h => ⟨w, [0], rfl, h⟩)
  have r1 := create2_records r0 (fun w w' c h hr => by
    simp only [toyEnv, Option.some.injEq, Prod.mk.injEq] at h; exact h.1 ▸ hr) h1
  obtain ⟨_, _, _, _, hb, hs, hn, _, hd⟩ := create2_scope h1 (toy_confined _ _) (fun _ => rfl) (by decide)
  have h8 := hs (Addr.ofNat 8) (by decide) (by decide)
  have hu : ¬ InUse w1 (Addr.ofNat 8) := by
    rintro (⟨acc, h, _⟩ | ⟨x, b, h⟩)
    · rw [h8.acct] at h; cases h
    · rw [h8.slots] at h; cases h
  obtain ⟨w2, h2⟩ := create2_succeeds (v := toyEnv) (w := w1) (salt := 2) (code := wrapperCode toyEnv (Addr.ofNat 7).bytes)
    (e := 2) r1 hu (toy_ne _) (by rw [hn]; decide) (by rw [hb]; decide +kernel) (fun w h => ⟨w, [0], rfl, h⟩)
  have e1 : deployFactory toyEnv 1 { toyState with factory := none } =
      some { toyState with w := w1, factory := some (Addr.ofNat 7).bytes } := by
    unfold deployFactory
    have : toyEnv.factoryBin = [1] := rfl
    simp only [this, h1]; rfl
  have hboot : boot toyEnv 1 2 some { toyState with factory := none } =
      some { toyState with w := w2, factory := some (Addr.ofNat 7).bytes, wrapper := some (Addr.ofNat 8).bytes } := by
    have e2 : deployWrapper toyEnv 2 { toyState with w := w1, factory := some (Addr.ofNat 7).bytes } =
        some { toyState with w := w2, factory := some (Addr.ofNat 7).bytes, wrapper := some (Addr.ofNat 8).bytes } := by
      unfold deployWrapper
      simp only [h2]; rfl
    rw [boot, e1, Option.bind_some, Option.bind_some, e2]
  refine ⟨_, hboot, rfl, rfl, fun t ht hf => ?_⟩
  exact C103_genesis_violated some hboot (fun m hm => by
      rw [e1, Option.bind_some, Option.some.injEq] at hm
      subst hm
      intro b
      show w1.destructed 2 b = false
      rw [hd]; rfl) (fun f => toy_confined _ _) (fun f => toy_ne _) [] (fun _ => trivial) t (by rw [ht]; rfl) hf 3

end Verif.Upgrade
