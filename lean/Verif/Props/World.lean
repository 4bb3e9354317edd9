import Verif.Lemmas.World
import Verif.Spec.World
/-
Property theorems about the typed state database: C03-C10, C54.
-/
namespace Verif.Props.World
open Verif Verif.World Verif.World.Spec

variable (keccak : Bytes → Hash)

/-- A toy hash for examples (its length as last byte). -/
def toyKeccak (b : Bytes) : Hash := Hash.ofNat (b.length + 1)

/-! ### C03: storage, code and code size never alias -/

/-- C03: the three families of store keys are injective and pairwise disjoint (code hashes are 32 bytes,
or empty for a contract under construction). -/
theorem C03_keys (a b : Addr) (s t : Hash) (g h : Bytes) (hg : HashLen g) (hh : HashLen h) :
    (stateKey a s = stateKey b t ↔ a = b ∧ s = t) ∧
    (codeKey a g = codeKey b h ↔ a = b ∧ g = h) ∧
    (codeSizeKey a g = codeSizeKey b h ↔ a = b ∧ g = h) ∧
    codeKey a g ≠ codeSizeKey b h ∧ codeKey a g ≠ stateKey b t ∧ codeSizeKey a g ≠ stateKey b t := by
  refine ⟨⟨stateKey_inj, ?_⟩, ⟨codeKey_inj, ?_⟩, ⟨codeSizeKey_inj, ?_⟩,
    codeKey_ne_codeSizeKey a b hg hh, codeKey_ne_stateKey a b t hg, codeSizeKey_ne_stateKey a b t hg⟩ <;>
  · rintro ⟨rfl, rfl⟩; rfl

example : HashLen (toyKeccak [1]).bytes ∧ HashLen [] := ⟨Or.inr rfl, Or.inl rfl⟩

/-- C03: over any history of state operations by any executions, reading slot `t` of an existing contract
`b` gives the last value stored to exactly that slot of that contract, and the initial value if none was:
no other storage write, deployment, or other operation interferes. -/
theorem C03_storage_last_write (ops : List (Nat × StateOp)) (w w' : World) (b : Addr) (t : Hash)
    (hb : (w.acct b).isSome) (h : w.run keccak ops = some w') :
    w'.getState b t = (lastState b t ops).getD (w.getState b t) := by
  induction ops generalizing w with
  | nil => simp only [World.run, Option.some.injEq] at h; subst h; rfl
  | cons x ops ih =>
    obtain ⟨e, op⟩ := x
    simp only [World.run] at h
    split at h
    · simp at h
    · rename_i w1 h1
      have hb1 := step_acct_isSome keccak h1 hb
      have := ih w1 hb1 h
      rw [this]
      have hget : ∀ u : World, (u.acct b).isSome → u.getState b t =
          match u.vm (stateKey b t) with | none => Hash.zero | some x => bytesToHash x := by
        intro u hu
        obtain ⟨acc, hacc⟩ := Option.isSome_iff_exists.mp hu
        simp only [World.getState, hacc]
        cases u.vm (stateKey b t) <;> rfl
      rcases step_vm keccak h1 with ⟨a, s, v, rfl, hv⟩ | ⟨a, c, rfl, hv⟩ | hv
      · simp only [lastState]
        cases hl : lastState b t ops with
        | some u => rfl
        | none =>
          simp only [Option.getD_none]
          rw [hget w1 hb1, hv]
          by_cases hc : a = b ∧ s = t
          · obtain ⟨rfl, rfl⟩ := hc
            simp [upd, bytesToHash_bytes]
          · have : stateKey b t ≠ stateKey a s := by
              intro he; obtain ⟨h1, h2⟩ := stateKey_inj he; exact hc ⟨h1.symm, h2.symm⟩
            simp only [upd, this, if_false, hc, Option.getD_none]
            rw [hget w hb]
      · simp only [lastState]
        congr 1
        rw [hget w1 hb1, hget w hb, hv]
        have h1 : stateKey b t ≠ codeSizeKey a (keccak c).bytes :=
          fun he => codeSizeKey_ne_stateKey a b t (Or.inr (keccak c).len) he.symm
        have h2 : stateKey b t ≠ codeKey a (keccak c).bytes :=
          fun he => codeKey_ne_stateKey a b t (Or.inr (keccak c).len) he.symm
        simp [upd, h1, h2]
      · have hg : w1.getState b t = w.getState b t := by rw [hget w1 hb1, hget w hb, hv]
        cases op with
        | setState a s v =>
          simp only [World.step, World.setState, Option.some.injEq] at h1
          have hv' : w1.vm (stateKey a s) = some v.bytes := by rw [← h1]; simp [upd]
          simp only [lastState]
          cases hl : lastState b t ops with
          | some u => rfl
          | none =>
            by_cases hc : a = b ∧ s = t
            · obtain ⟨rfl, rfl⟩ := hc
              simp only [Option.getD_none, and_self, if_true, Option.getD_some]
              rw [hget w1 hb1, hv']; simp [bytesToHash_bytes]
            · simp only [hc, if_false, Option.getD_none]; exact hg
        | _ => simp only [lastState]; rw [hg]

example : ∃ w', (emptyWorld.createAccount (Addr.ofNat 7)).run toyKeccak
    [(1, .setState (Addr.ofNat 7) (Hash.ofNat 1) (Hash.ofNat 5)),
     (1, .setState (Addr.ofNat 8) (Hash.ofNat 1) (Hash.ofNat 6))] = some w' ∧
    w'.getState (Addr.ofNat 7) (Hash.ofNat 1) = Hash.ofNat 5 := by
  refine ⟨_, rfl, ?_⟩; decide

/-- C03: writing a slot changes no code, code size or code hash of any contract. -/
theorem C03_setState_code (w : World) (hw : WF w) (a b : Addr) (s v ech : Hash) :
    (w.setState a s v).getCode b = w.getCode b ∧
    (w.setState a s v).getCodeSize b = w.getCodeSize b ∧
    (w.setState a s v).getCodeHash ech b = w.getCodeHash ech b := by
  refine ⟨?_, ?_, rfl⟩
  · simp only [World.getCode, World.setState]
    split
    · rename_i h _ _ _ hacc
      have := codeKey_ne_stateKey b a s (hw b _ h hacc rfl)
      simp [upd, this]
    · rfl
  · simp only [World.getCodeSize, World.setState]
    split
    · rename_i h _ _ _ hacc
      have := codeSizeKey_ne_stateKey b a s (hw b _ h hacc rfl)
      simp [upd, this]
    · rfl

/-- C03: installing code at one address changes no other contract's code, code size or code hash, and no
storage slot of any other contract nor of the same contract if it already existed. -/
theorem C03_setCode_frame (w w' : World) (hw : WF w) (a b : Addr) (code : Bytes) (ech t : Hash)
    (h : w.setCode keccak a code = some w') :
    (b ≠ a → w'.getCode b = w.getCode b ∧ w'.getCodeSize b = w.getCodeSize b ∧
      w'.getCodeHash ech b = w.getCodeHash ech b) ∧
    (b ≠ a ∨ (w.acct b).isSome → w'.getState b t = w.getState b t) := by
  have hs : w.step keccak 0 (.setCode a code) = some w' := h
  have hf := step_frame keccak hs
  have hvm : w'.vm = upd (upd w.vm (codeKey a (keccak code).bytes) (some code))
        (codeSizeKey a (keccak code).bytes) (some (uint64ToBytes code.length)) := by
    simp only [World.setCode] at h
    rw [getOrNew_frame] at h
    split at h
    · simp only [Option.some.injEq] at h; subst h; rfl
    · simp at h
  constructor
  · intro hb
    have hacc : w'.acct b = w.acct b :=
      hf.acct b (by simp) (by simp) (by simp; exact fun hx => absurd hx.symm hb) (by simp)
    refine ⟨?_, ?_, ?_⟩
    · simp only [World.getCode, hacc]
      split
      · rename_i g _ _ _ hg
        have h1 : codeKey b g ≠ codeKey a (keccak code).bytes := fun he => hb (codeKey_inj he).1
        have h2 := codeKey_ne_codeSizeKey b a (hw b _ g hg rfl) (Or.inr (keccak code).len)
        simp [hvm, upd, h1, h2]
      · rfl
    · simp only [World.getCodeSize, hacc]
      split
      · rename_i g _ _ _ hg
        have h1 : codeSizeKey b g ≠ codeSizeKey a (keccak code).bytes := fun he => hb (codeSizeKey_inj he).1
        have h2 : codeSizeKey b g ≠ codeKey a (keccak code).bytes :=
          fun he => codeKey_ne_codeSizeKey a b (Or.inr (keccak code).len) (hw b _ g hg rfl) he.symm
        simp [hvm, upd, h1, h2]
      · rfl
    · simp only [World.getCodeHash, hacc]
  · intro hb
    have h1 : stateKey b t ≠ codeSizeKey a (keccak code).bytes :=
      fun he => codeSizeKey_ne_stateKey a b t (Or.inr (keccak code).len) he.symm
    have h2 : stateKey b t ≠ codeKey a (keccak code).bytes :=
      fun he => codeKey_ne_stateKey a b t (Or.inr (keccak code).len) he.symm
    have hv : w'.vm (stateKey b t) = w.vm (stateKey b t) := by simp [hvm, upd, h1, h2]
    by_cases hba : b = a
    · have hsome : (w.acct b).isSome := by
        rcases hb with hb | hb
        · exact absurd hba hb
        · exact hb
      have hsome' := step_acct_isSome keccak hs hsome
      obtain ⟨x, hx⟩ := Option.isSome_iff_exists.mp hsome
      obtain ⟨y, hy⟩ := Option.isSome_iff_exists.mp hsome'
      simp [World.getState, hx, hy, hv]
    · have hacc : w'.acct b = w.acct b :=
        hf.acct b (by simp) (by simp) (by simp; exact fun hx => absurd hx.symm hba) (by simp)
      simp [World.getState, hacc, hv]

/-! ### C04: code, hash and size stay consistent -/

/-- C04: after code is deployed, code, code size and code hash of the address are the deployed code, its
length and its keccak hash, through any later history in which that address is not redeployed or
re-created (a second contract creation there is refused, see C10). -/
theorem C04_code_consistent (w w1 w2 : World) (hw : WF w) (a : Addr) (code : Bytes)
    (hlen : code.length < 2 ^ 64) (hset : w.setCode keccak a code = some w1)
    (ops : List (Nat × StateOp)) (hrun : w1.run keccak ops = some w2)
    (h1 : ∀ e c, (e, StateOp.setCode a c) ∉ ops) (h2 : ∀ e, (e, StateOp.createAccount a) ∉ ops) :
    w2.getCode a = code ∧ w2.getCodeSize a = code.length ∧ w2.getCodeHash (keccak []) a = keccak code := by
  -- the deployed facts
  let h := (keccak code).bytes
  have key : ∀ (u : World), (∃ acc, u.acct a = some acc ∧ acc.kind = .contract h) →
      u.vm (codeKey a h) = some code → u.vm (codeSizeKey a h) = some (uint64ToBytes code.length) →
      u.getCode a = code ∧ u.getCodeSize a = code.length ∧ u.getCodeHash (keccak []) a = keccak code := by
    rintro u ⟨⟨k, n, s, pk⟩, hacc, hk⟩ hc hz
    simp only at hk; subst hk
    refine ⟨?_, ?_, ?_⟩
    · simp [World.getCode, hacc, hc]
    · simp only [World.getCodeSize, hacc, hz, bytesToUint64, uint64ToBytes]
      exact fromBE_toBE 8 _ hlen
    · simp only [World.getCodeHash, hacc]; exact bytesToHash_bytes _
  have start : (∃ acc, w1.acct a = some acc ∧ acc.kind = .contract h) ∧
      w1.vm (codeKey a h) = some code ∧ w1.vm (codeSizeKey a h) = some (uint64ToBytes code.length) := by
    simp only [World.setCode] at hset
    rw [getOrNew_frame] at hset
    split at hset
    · simp only [Option.some.injEq] at hset; subst hset
      refine ⟨⟨_, by simp only [upd, if_true]; rfl, rfl⟩, ?_, ?_⟩
      · have := codeKey_ne_codeSizeKey a a (g := h) (h := h) (Or.inr (keccak code).len) (Or.inr (keccak code).len)
        simp only [upd]
        rw [if_neg this, if_pos rfl]
      · simp [upd, h]
    · simp at hset
  have hw1 : WF w1 := step_WF keccak (e := 0) (op := .setCode a code) hw hset
  clear hset hw
  induction ops generalizing w1 with
  | nil =>
    simp only [World.run, Option.some.injEq] at hrun; subst hrun
    exact key _ start.1 start.2.1 start.2.2
  | cons x ops ih =>
    obtain ⟨e, op⟩ := x
    simp only [World.run] at hrun
    split at hrun
    · simp at hrun
    · rename_i w3 h3
      refine ih w3 hrun (fun e c hm => h1 e c (by simp [hm])) (fun e hm => h2 e (by simp [hm])) ?_
        (step_WF keccak hw1 h3)
      have hf := step_frame keccak h3
      have hns : ∀ c, op ≠ .setCode a c := fun c hc => h1 e c (by simp [hc])
      have hnc : op ≠ .createAccount a := fun hc => h2 e (by simp [hc])
      obtain ⟨⟨acc, hacc, hk⟩, hvc, hvz⟩ := start
      refine ⟨?_, ?_, ?_⟩
      · by_cases hcc : op = .createContract a
        · subst hcc
          exfalso
          simp only [World.step, World.createContract, hacc] at h3
          have : acc.isEmpty = false := by simp [Account.isEmpty, hk]
          simp [this] at h3
        · by_cases hsn : ∃ n, op = .setNonce a n
          · obtain ⟨n, rfl⟩ := hsn
            simp only [World.step, World.setNonce, World.getOrNew, hacc, Option.some.injEq] at h3
            subst h3
            exact ⟨{ acc with seq := n }, by simp [upd], hk⟩
          · rw [hf.acct a hnc hcc hns (fun n hn => hsn ⟨n, hn⟩)]
            exact ⟨acc, hacc, hk⟩
      · rcases step_vm keccak h3 with ⟨b, s, v, rfl, hv⟩ | ⟨b, c, rfl, hv⟩ | hv
        · rw [hv]; simp only [upd]
          rw [if_neg (codeKey_ne_stateKey a b s (Or.inr (keccak code).len))]; exact hvc
        · have hab : a ≠ b := fun he => hns c (by rw [he])
          rw [hv]; simp only [upd]
          rw [if_neg (codeKey_ne_codeSizeKey a b (Or.inr (keccak code).len) (Or.inr (keccak c).len)),
            if_neg (fun he => hab (codeKey_inj he).1)]
          exact hvc
        · rw [hv]; exact hvc
      · rcases step_vm keccak h3 with ⟨b, s, v, rfl, hv⟩ | ⟨b, c, rfl, hv⟩ | hv
        · rw [hv]; simp only [upd]
          rw [if_neg (codeSizeKey_ne_stateKey a b s (Or.inr (keccak code).len))]; exact hvz
        · have hab : a ≠ b := fun he => hns c (by rw [he])
          rw [hv]; simp only [upd]
          rw [if_neg (fun he => hab (codeSizeKey_inj he).1),
            if_neg (fun he => codeKey_ne_codeSizeKey b a (Or.inr (keccak c).len) (Or.inr (keccak code).len) he.symm)]
          exact hvz
        · rw [hv]; exact hvz

example : WF emptyWorld ∧ ∃ w1 w2, emptyWorld.setCode toyKeccak (Addr.ofNat 3) [1, 2, 3] = some w1 ∧
    w1.run toyKeccak [(1, .setNonce (Addr.ofNat 3) 9), (1, .setCode (Addr.ofNat 4) [1, 2, 3])] = some w2 ∧
    w2.getCodeSize (Addr.ofNat 3) = 3 := by
  refine ⟨?_, _, _, rfl, rfl, ?_⟩
  · intro a acc h hacc; simp [emptyWorld] at hacc
  · decide

/-- C04: an address without account has no code, size 0 and the zero hash; an existing account that is
not a contract has no code, size 0 and the hash of empty code. -/
theorem C04_no_code (w : World) (a : Addr) :
    (w.acct a = none → w.getCode a = [] ∧ w.getCodeSize a = 0 ∧ w.getCodeHash (keccak []) a = Hash.zero) ∧
    (∀ acc, w.acct a = some acc → (∀ h, acc.kind ≠ .contract h) →
      w.getCode a = [] ∧ w.getCodeSize a = 0 ∧ w.getCodeHash (keccak []) a = keccak []) := by
  constructor
  · intro h; simp [World.getCode, World.getCodeSize, World.getCodeHash, h]
  · rintro ⟨k, n, s, pk⟩ hacc hk
    cases k with
    | contract h => exact absurd rfl (hk h)
    | base => simp [World.getCode, World.getCodeSize, World.getCodeHash, hacc]
    | module => simp [World.getCode, World.getCodeSize, World.getCodeHash, hacc]
    | shorthand o => simp [World.getCode, World.getCodeSize, World.getCodeHash, hacc]

/-! ### C05: transient storage -/

/-- C05 (violated by the code): a value stored by contract 7 is read by contract 8, which never stored
anything (the store key at statedb.go:543,550 does not contain the address). -/
theorem C05_violated :
    ∃ (ops : List (Nat × StateOp)) (w' : World) (b : Addr) (k : Hash),
      (emptyWorld.newStateDB 1).run toyKeccak ops = some w' ∧
      lastTransientOf 1 b k ops = none ∧ w'.getTransientState 1 b k ≠ Hash.zero := by
  refine ⟨[(1, .setTransientState (Addr.ofNat 7) (Hash.ofNat 1) (Hash.ofNat 5))], _, Addr.ofNat 8,
    Hash.ofNat 1, rfl, ?_, ?_⟩ <;> decide

/-- C05 (how bad it is): *every* transient store by any contract is what every other contract reads under
the same key. -/
theorem C05_violated_all (w : World) (e : Nat) (a b : Addr) (k v : Hash) :
    (w.setTransientState e a k v).getTransientState e b k = v := by
  unfold World.setTransientState
  split
  · rename_i h; exact h
  · simp [World.getTransientState, upd2]

/-- C05 (part that holds): if within execution `e` only contract `b` stores under key `k`, then over any
history `b` reads back its own last stored value (zero if none), unaffected by other executions.
Missing: isolation from other contracts using the same key. -/
theorem C05_partial (ops : List (Nat × StateOp)) (w w' : World) (e : Nat) (b : Addr) (k : Hash)
    (hc : ∀ k, w.tstate e k = none)
    (honly : ∀ a v, (e, StateOp.setTransientState a k v) ∈ ops → a = b)
    (h : w.run keccak ops = some w') :
    w'.getTransientState e b k = (lastTransientOf e b k ops).getD Hash.zero := by
  have gen : ∀ (ops : List (Nat × StateOp)) (w w' : World),
      (∀ a v, (e, StateOp.setTransientState a k v) ∈ ops → a = b) → w.run keccak ops = some w' →
      w'.getTransientState e b k = (lastTransientOf e b k ops).getD (w.getTransientState e b k) := by
    intro ops
    induction ops with
    | nil => intro w w' _ h; simp only [World.run, Option.some.injEq] at h; subst h; rfl
    | cons x ops ih =>
      intro w w' ho h
      obtain ⟨e', op⟩ := x
      simp only [World.run] at h
      split at h
      · simp at h
      · rename_i w1 h1
        rw [ih w1 w' (fun a v hm => ho a v (by simp [hm])) h]
        have hf := step_frame keccak h1
        cases op with
        | setTransientState a k' v =>
          simp only [lastTransientOf]
          cases hl : lastTransientOf e b k ops with
          | some u => rfl
          | none =>
            simp only [Option.getD_none]
            simp only [World.step, Option.some.injEq] at h1
            by_cases hee : e' = e ∧ k' = k
            · obtain ⟨rfl, rfl⟩ := hee
              have : a = b := ho a v (by simp)
              subst this
              rw [← h1]
              simp only [and_self, if_true, Option.getD_some]
              exact C05_violated_all w e' a a k' v
            · have hcc : ¬ (e' = e ∧ a = b ∧ k' = k) := fun hx => hee ⟨hx.1, hx.2.2⟩
              rw [if_neg hcc]
              simp only [Option.getD_none, World.getTransientState]
              rw [hf.tstate e k]
              by_cases h2 : e' = e
              · exact Or.inl (fun a' v' hx => by simp at hx; exact hee ⟨h2, hx.2.1⟩)
              · exact Or.inr (fun hx => h2 hx.symm)
        | _ =>
          simp only [lastTransientOf]
          congr 1
          simp only [World.getTransientState]
          rw [hf.tstate e k (Or.inl (by simp))]
  rw [gen ops w w' honly h]
  simp [World.getTransientState, hc]

example : ∃ w', (emptyWorld.newStateDB 1).run toyKeccak
    [(1, .setTransientState (Addr.ofNat 7) (Hash.ofNat 1) (Hash.ofNat 5)),
     (2, .setTransientState (Addr.ofNat 8) (Hash.ofNat 1) (Hash.ofNat 6))] = some w' ∧
    w'.getTransientState 1 (Addr.ofNat 7) (Hash.ofNat 1) = Hash.ofNat 5 := by
  refine ⟨_, rfl, ?_⟩; decide

/-- C05: what a contract reads, for every history: the last value *any* contract stored under the key during
the same execution (zero if none). -/
theorem C05_exact (ops : List (Nat × StateOp)) (w w' : World) (e : Nat) (b : Addr) (k : Hash)
    (hc : ∀ k, w.tstate e k = none) (h : w.run keccak ops = some w') :
    w'.getTransientState e b k = (lastTransientBy e k ops).getD Hash.zero := by
  have gen : ∀ (ops : List (Nat × StateOp)) (w w' : World), w.run keccak ops = some w' →
      w'.getTransientState e b k = (lastTransientBy e k ops).getD (w.getTransientState e b k) := by
    intro ops
    induction ops with
    | nil => intro w w' h; simp only [World.run, Option.some.injEq] at h; subst h; rfl
    | cons x ops ih =>
      intro w w' h
      obtain ⟨e', op⟩ := x
      simp only [World.run] at h
      split at h
      · simp at h
      · rename_i w1 h1
        rw [ih w1 w' h]
        have hf := step_frame keccak h1
        cases op with
        | setTransientState a k' v =>
          simp only [lastTransientBy]
          cases hl : lastTransientBy e k ops with
          | some u => rfl
          | none =>
            simp only [Option.getD_none]
            simp only [World.step, Option.some.injEq] at h1
            by_cases hee : e' = e ∧ k' = k
            · obtain ⟨rfl, rfl⟩ := hee
              rw [← h1]
              simp only [and_self, if_true, Option.getD_some]
              exact C05_violated_all w e' a b k' v
            · rw [if_neg hee]
              simp only [Option.getD_none, World.getTransientState]
              rw [hf.tstate e k]
              by_cases h2 : e' = e
              · exact Or.inl (fun a' v' hx => by simp at hx; exact hee ⟨h2, hx.2.1⟩)
              · exact Or.inr (fun hx => h2 hx.symm)
        | _ =>
          simp only [lastTransientBy]
          congr 1
          simp only [World.getTransientState]
          rw [hf.tstate e k (Or.inl (by simp))]
  rw [gen ops w w' h]
  simp [World.getTransientState, hc]

/-- C05: a read is right exactly if the last store under that key in the execution, by whichever contract,
put the value the reading contract itself had stored last. -/
theorem C05_iff (ops : List (Nat × StateOp)) (w w' : World) (e : Nat) (b : Addr) (k : Hash)
    (hc : ∀ k, w.tstate e k = none) (h : w.run keccak ops = some w') :
    w'.getTransientState e b k = (lastTransientOf e b k ops).getD Hash.zero ↔
      (lastTransientBy e k ops).getD Hash.zero = (lastTransientOf e b k ops).getD Hash.zero := by
  rw [C05_exact keccak ops w w' e b k hc h]

example : ∃ w', (emptyWorld.newStateDB 1).run toyKeccak
    [(1, .setTransientState (Addr.ofNat 7) (Hash.ofNat 1) (Hash.ofNat 5)),
     (1, .setTransientState (Addr.ofNat 8) (Hash.ofNat 1) (Hash.ofNat 6))] = some w' ∧
    w'.getTransientState 1 (Addr.ofNat 7) (Hash.ofNat 1) = Hash.ofNat 6 := by
  refine ⟨_, rfl, ?_⟩; decide

/-! ### C06: self-destruct -/

/-- C06: at commit, every address marked as destroyed by this execution has no account, no balance, no
code, no code size, and every storage slot reads zero — also after an account is created there again;
every other address keeps its account, balance, and all `vmStore` entries. -/
theorem C06_commit (w : World) (e : Nat) :
    (∀ a, w.destructed e a = true →
      (w.commitDestructs e).acct a = none ∧ (w.commitDestructs e).getBalance a = 0 ∧
      (∀ x, (w.commitDestructs e).vm (a.bytes ++ x) = none) ∧
      (∀ s, ((w.commitDestructs e).createAccount a).getState a s = Hash.zero)) ∧
    (∀ a, w.destructed e a = false →
      (w.commitDestructs e).acct a = w.acct a ∧ (w.commitDestructs e).getBalance a = w.getBalance a ∧
      (∀ x, (w.commitDestructs e).vm (a.bytes ++ x) = w.vm (a.bytes ++ x)) ∧
      (∀ s, (w.commitDestructs e).getState a s = w.getState a s) ∧
      (w.commitDestructs e).getCode a = w.getCode a ∧
      (w.commitDestructs e).getCodeSize a = w.getCodeSize a) := by
  constructor
  · intro a ha
    have hvm : ∀ x, (w.commitDestructs e).vm (a.bytes ++ x) = none := by
      intro x; simp [World.commitDestructs, keyAddr_append, ha]
    refine ⟨by simp [World.commitDestructs, ha], by simp [World.commitDestructs, World.getBalance, ha], hvm, ?_⟩
    intro s
    have h2 : ((w.commitDestructs e).createAccount a).vm (stateKey a s) = none := hvm _
    simp only [World.getState, h2]
    split <;> rfl
  · intro a ha
    have hacc : (w.commitDestructs e).acct a = w.acct a := by simp [World.commitDestructs, ha]
    have hvm : ∀ x, (w.commitDestructs e).vm (a.bytes ++ x) = w.vm (a.bytes ++ x) := by
      intro x; simp [World.commitDestructs, keyAddr_append, ha]
    refine ⟨hacc, by simp [World.commitDestructs, World.getBalance, ha], hvm, ?_, ?_, ?_⟩
    · intro s; simp only [World.getState, hacc, stateKey, hvm]
    · simp only [World.getCode, hacc, codeKey, hvm]
    · simp only [World.getCodeSize, hacc, codeSizeKey, hvm]

/-- C06: with the SELFDESTRUCT of the Cancun rules, an address ends up marked as destroyed by execution
`e` only if the same execution created a contract there earlier and destroyed it explicitly. -/
theorem C06_only_created (ops : List (Nat × StateOp)) (w w' : World) (e : Nat) (a : Addr)
    (hc : Clean w e) (hno : ∀ e b, (e, StateOp.selfDestruct b) ∉ ops)
    (h : w.run keccak ops = some w') (hd : w'.destructed e a = true) :
    (e, StateOp.createContract a) ∈ ops ∧ (e, StateOp.selfDestruct6780 a) ∈ ops := by
  have gen : ∀ (ops : List (Nat × StateOp)) (w w' : World),
      (∀ e b, (e, StateOp.selfDestruct b) ∉ ops) → w.run keccak ops = some w' →
      (w'.created e a = true → w.created e a = true ∨ (e, StateOp.createContract a) ∈ ops) ∧
      (w'.destructed e a = true → w.destructed e a = true ∨
        ((e, StateOp.selfDestruct6780 a) ∈ ops ∧ (w.created e a = true ∨ (e, StateOp.createContract a) ∈ ops))) := by
    intro ops
    induction ops with
    | nil => intro w w' _ h; simp only [World.run, Option.some.injEq] at h; subst h; exact ⟨Or.inl, Or.inl⟩
    | cons x ops ih =>
      intro w w' hno h
      obtain ⟨e', op⟩ := x
      simp only [World.run] at h
      split at h
      · simp at h
      · rename_i w1 h1
        have hf := step_frame keccak h1
        obtain ⟨i1, i2⟩ := ih w1 w' (fun e b hm => hno e b (by simp [hm])) h
        have hcr : w1.created e a = true → w.created e a = true ∨ (e, StateOp.createContract a) ∈ (e', op) :: ops := by
          intro hx
          by_cases hop : op = .createContract a ∧ e = e'
          · right; simp [hop.1, hop.2]
          · left
            rw [hf.created e a] at hx
            · exact hx
            · by_cases h5 : op = .createContract a
              · exact Or.inr (fun h6 => hop ⟨h5, h6⟩)
              · exact Or.inl h5
        constructor
        · intro hx
          rcases i1 hx with hy | hy
          · exact hcr hy
          · right; simp [hy]
        · intro hx
          rcases i2 hx with hy | ⟨hy, hz⟩
          · by_cases hop : op = .selfDestruct6780 a ∧ e = e'
            · obtain ⟨rfl, rfl⟩ := hop
              simp only [World.step] at h1
              obtain ⟨b, d, rfl, g1, g2⟩ := selfDestruct6780_eq h1
              rcases g1 e a hy with h6 | ⟨_, _, _, h6⟩
              · exact Or.inl h6
              · exact Or.inr ⟨by simp, Or.inl h6⟩
            · left
              rw [hf.destructed e a] at hy
              · exact hy
              · by_cases h5 : op = .selfDestruct6780 a
                · exact Or.inr (fun h6 => hop ⟨h5, h6⟩)
                · exact Or.inl ⟨fun h6 => hno e' a (by simp [h6]), h5⟩
          · refine Or.inr ⟨by simp [hy], ?_⟩
            rcases hz with hz | hz
            · exact hcr hz
            · right; simp [hz]
  rcases (gen ops w w' hno h).2 hd with h1 | ⟨h1, h2⟩
  · rw [hc.destructed a] at h1; simp at h1
  · refine ⟨?_, h1⟩
    rcases h2 with h2 | h2
    · rw [hc.created a] at h2; simp at h2
    · exact h2

example : Clean emptyWorld 1 ∧ ∃ w', emptyWorld.run toyKeccak
    [(1, .createContract (Addr.ofNat 3)), (1, .selfDestruct6780 (Addr.ofNat 3)),
     (1, .selfDestruct6780 (Addr.ofNat 4))] = some w' ∧
    w'.destructed 1 (Addr.ofNat 3) = true ∧ w'.destructed 1 (Addr.ofNat 4) = false := by
  refine ⟨⟨by simp [emptyWorld], by simp [emptyWorld], by simp [emptyWorld], by simp [emptyWorld],
    by simp [emptyWorld]⟩, _, rfl, ?_, ?_⟩ <;> decide

/-- C06: destroying clears the contract's native balance immediately and nobody else's. -/
theorem C06_balance (w w' : World) (e : Nat) (a b : Addr) (ha : (w.acct a).isSome)
    (h : w.selfDestruct e a = some w') :
    w'.getBalance a = 0 ∧ w'.hasSelfDestructed e a = true ∧ (b ≠ a → w'.getBalance b = w.getBalance b) := by
  obtain ⟨acc, hacc⟩ := Option.isSome_iff_exists.mp ha
  simp only [World.selfDestruct, hacc, World.subBalance] at h
  split at h
  · rename_i h0
    simp only [Option.some.injEq] at h; subst h
    exact ⟨h0, by simp [World.hasSelfDestructed, hacc, upd2], fun _ => rfl⟩
  · split at h
    · simp only [Option.some.injEq] at h; subst h
      refine ⟨by simp [World.getBalance, upd], by simp [World.hasSelfDestructed, hacc, upd2], ?_⟩
      intro hb; simp [World.getBalance, upd, hb]
    · simp at h

/-! ### C07: logs -/

/-- C07: over any history, the logs reported for execution `e` are exactly the logs that execution
emitted since it was set up, in emission order. (Dropping the logs of reverted frames is the restoring of
the stores by C01.) -/
theorem C07_logs (ops : List (Nat × StateOp)) (w w' : World) (e : Nat)
    (h : (w.newStateDB e).run keccak ops = some w') : w'.getLogs e = some (emitted e ops) := by
  have gen : ∀ (ops : List (Nat × StateOp)) (w w' : World) (pre : List Log),
      w.logSize e = some pre.length → (∀ i, i < pre.length → w.logs e i = pre[i]?) →
      w.run keccak ops = some w' →
      w'.logSize e = some (pre ++ emitted e ops).length ∧
      (∀ i, i < (pre ++ emitted e ops).length → w'.logs e i = (pre ++ emitted e ops)[i]?) := by
    clear h
    intro ops
    induction ops with
    | nil =>
      intro w w' pre h1 h2 h; simp only [World.run, Option.some.injEq] at h; subst h
      simpa [emitted] using ⟨h1, h2⟩
    | cons x ops ih =>
      intro w w' pre h1 h2 h
      obtain ⟨e', op⟩ := x
      simp only [World.run] at h
      split at h
      · simp at h
      · rename_i w1 h3
        have hf := step_frame keccak h3
        by_cases hop : ∃ l, op = .addLog l ∧ e' = e
        · obtain ⟨l, rfl, rfl⟩ := hop
          have := ih w1 w' (pre ++ [l]) ?_ ?_ h
          · simpa [emitted] using this
          · simp only [World.step, World.addLog, h1, Option.some.injEq] at h3
            subst h3; simp [upd]
          · intro i hi
            simp only [World.step, World.addLog, h1, Option.some.injEq] at h3
            subst h3
            simp only [upd2, true_and]
            split
            · rename_i hi2; subst hi2; simp
            · rename_i hi2
              have hi3 : i < pre.length := by simp at hi; omega
              rw [h2 i hi3, List.getElem?_append_left hi3]
        · have hfr : (∀ l, op ≠ .addLog l) ∨ e ≠ e' := by
            by_cases hee : e' = e
            · exact Or.inl (fun l hl => hop ⟨l, hl, hee⟩)
            · exact Or.inr (fun hx => hee hx.symm)
          have hem : emitted e ((e', op) :: ops) = emitted e ops := by
            cases op with
            | addLog l =>
              have : e' ≠ e := fun hx => hop ⟨l, rfl, hx⟩
              simp [emitted, this]
            | _ => rfl
          rw [hem]
          exact ih w1 w' pre (by rw [hf.logSize e hfr]; exact h1)
            (fun i hi => by rw [hf.logs e i hfr]; exact h2 i hi) h
  obtain ⟨h1, h2⟩ := gen ops (w.newStateDB e) w' [] (by simp [World.newStateDB, upd]) (by simp) h
  simp only [List.nil_append] at h1 h2
  simp only [World.getLogs, h1, Option.some.injEq]
  apply List.ext_getElem?
  intro i
  by_cases hi : i < (emitted e ops).length
  · simp only [List.getElem?_map, List.getElem?_range hi, Option.map_some, h2 i hi]
    rw [List.getElem?_eq_getElem hi]; rfl
  · rw [List.getElem?_eq_none (by simpa using hi), List.getElem?_eq_none (by simpa using hi)]

example : ∃ w', (emptyWorld.newStateDB 1).run toyKeccak
    [(1, .addLog ⟨Addr.ofNat 1, [], [1]⟩), (2, .setNonce (Addr.ofNat 5) 1), (1, .addLog ⟨Addr.ofNat 2, [], [2]⟩)]
      = some w' ∧ w'.getLogs 1 = some [⟨Addr.ofNat 1, [], [1]⟩, ⟨Addr.ofNat 2, [], [2]⟩] := by
  refine ⟨_, rfl, ?_⟩; decide

/-! ### C08: refund counter -/

/-- C08: as long as the total of all additions fits in 64 bits, the refund counter of an execution is
exactly additions minus subtractions; if a subtraction would make it negative the execution aborts. -/
theorem C08_refund_counter (ops : List (Nat × StateOp)) (w w' : World) (e : Nat)
    (hfit : totalRefund e ops < 2 ^ 64) (h : (w.newStateDB e).run keccak ops = some w') :
    ∃ r, refundAfter e 0 ops = some r ∧ w'.getRefund e = some r := by
  have gen : ∀ (ops : List (Nat × StateOp)) (w w' : World) (r : Nat),
      w.refund e = some r → r + totalRefund e ops < 2 ^ 64 → w.run keccak ops = some w' →
      ∃ r', refundAfter e r ops = some r' ∧ w'.refund e = some r' := by
    clear h hfit
    intro ops
    induction ops with
    | nil =>
      intro w w' r h1 _ h; simp only [World.run, Option.some.injEq] at h; subst h
      exact ⟨r, rfl, h1⟩
    | cons x ops ih =>
      intro w w' r h1 h2 h
      obtain ⟨e', op⟩ := x
      simp only [World.run] at h
      split at h
      · simp at h
      · rename_i w1 h3
        have hf := step_frame keccak h3
        cases op with
        | addRefund g =>
          by_cases hee : e' = e
          · subst hee
            simp only [totalRefund, if_true] at h2
            simp only [World.step, World.addRefund, h1, Option.some.injEq] at h3
            have := ih w1 w' (r + g) (by
              rw [← h3]; simp only [upd, if_true]
              rw [Nat.mod_eq_of_lt (by omega)]) (by omega) h
            simpa [refundAfter] using this
          · have := ih w1 w' r (by rw [hf.refund e (Or.inr (fun hx => hee hx.symm))]; exact h1)
              (by simp [totalRefund, hee] at h2; exact h2) h
            simpa [refundAfter, hee] using this
        | subRefund g =>
          simp only [totalRefund] at h2
          by_cases hee : e' = e
          · subst hee
            simp only [World.step, World.subRefund, h1] at h3
            by_cases hg : g > r
            · simp [hg] at h3
            · simp only [hg, if_false, Option.some.injEq] at h3
              have := ih w1 w' (r - g) (by rw [← h3]; simp [upd]) (by omega) h
              simpa [refundAfter, hg] using this
          · have := ih w1 w' r (by rw [hf.refund e (Or.inr (fun hx => hee hx.symm))]; exact h1) h2 h
            simpa [refundAfter, hee] using this
        | _ =>
          simp only [totalRefund] at h2
          have := ih w1 w' r (by rw [hf.refund e (Or.inl (by simp))]; exact h1) h2 h
          simpa [refundAfter] using this
  exact gen ops (w.newStateDB e) w' 0 (by simp [World.newStateDB, upd]) (by omega) h

example : ∃ w', (emptyWorld.newStateDB 1).run toyKeccak
    [(1, .addRefund 4800), (2, .setNonce (Addr.ofNat 5) 1), (1, .subRefund 800)] = some w' ∧
    w'.getRefund 1 = some 4000 := by
  refine ⟨_, rfl, ?_⟩; decide

/-- C08: a subtraction larger than the counter aborts the execution (no state is produced). -/
theorem C08_refund_underflow (w : World) (e g r : Nat) (h : w.getRefund e = some r) :
    (w.step keccak e (.subRefund g) = none ↔ g > r) := by
  simp only [World.getRefund] at h
  simp only [World.step, World.subRefund, h]
  split <;> simp_all

/-! ### C09: access list -/

/-- C09: over any history, an address is warm for execution `e` iff it was warm before or was accessed
(directly or through one of its slots) by `e`; a slot likewise; and a warm slot reports a warm address. -/
theorem C09_access_exact (ops : List (Nat × StateOp)) (w w' : World) (e : Nat)
    (h : w.run keccak ops = some w') (a : Addr) (s : Hash) :
    (w'.addressInAccessList e a = true ↔ w.addressInAccessList e a = true ∨ accessedAddr e a ops) ∧
    (w'.access e (a.bytes ++ s.bytes) = true ↔
      w.access e (a.bytes ++ s.bytes) = true ∨ accessedSlot e a s ops) := by
  induction ops generalizing w with
  | nil =>
    simp only [World.run, Option.some.injEq] at h; subst h
    simp [accessedAddr, accessedSlot]
  | cons x ops ih =>
    obtain ⟨e', op⟩ := x
    simp only [World.run] at h
    split at h
    · simp at h
    · rename_i w1 h1
      obtain ⟨i1, i2⟩ := ih w1 h
      have hne : ∀ (b : Addr) (t : Hash), ¬ (a.bytes = b.bytes ++ t.bytes) := fun b t => addr_ne_slot a b t
      have hne2 : ∀ (b : Addr), ¬ (a.bytes ++ s.bytes = b.bytes) := fun b hb => addr_ne_slot b a s hb.symm
      have hinj : ∀ b : Addr, a.bytes = b.bytes ↔ a = b := fun b => ⟨Addr.ext, fun h => by rw [h]⟩
      have hinj2 : ∀ (b : Addr) (t : Hash), a.bytes ++ s.bytes = b.bytes ++ t.bytes ↔ a = b ∧ s = t := by
        intro b t
        constructor
        · intro he; have := append_inj_addr he; exact ⟨this.1, Hash.ext this.2⟩
        · rintro ⟨rfl, rfl⟩; rfl
      have key : (w1.access e a.bytes = true ↔
            w.access e a.bytes = true ∨ (e' = e ∧ (op = .addAddress a ∨ ∃ t, op = .addSlot a t))) ∧
          (w1.access e (a.bytes ++ s.bytes) = true ↔
            w.access e (a.bytes ++ s.bytes) = true ∨ (e' = e ∧ op = .addSlot a s)) := by
        cases op with
        | addAddress b =>
          simp only [World.step, World.addAddress, Option.some.injEq] at h1; subst h1
          simp only [upd2, hinj, hne2, and_false, if_false]
          constructor
          · by_cases hc : e = e' ∧ a = b
            · simp [hc]
            · simp only [hc, if_false, StateOp.addAddress.injEq, reduceCtorEq, exists_false, or_false]
              constructor
              · exact Or.inl
              · rintro (hx | ⟨h5, h6⟩)
                · exact hx
                · exact absurd ⟨h5.symm, h6.symm⟩ hc
          · simp
        | addSlot b t =>
          simp only [World.step, World.addSlot, Option.some.injEq] at h1; subst h1
          simp only [upd2, hne, hinj2, and_false, if_false]
          constructor
          · by_cases hb : w.addressInAccessList e' b = true
            · simp only [hb, if_true]
              constructor
              · exact Or.inl
              · rintro (hx | ⟨h5, h6 | ⟨t', h6⟩⟩)
                · exact hx
                · simp at h6
                · simp only [StateOp.addSlot.injEq] at h6
                  obtain ⟨rfl, _⟩ := h6; subst h5; exact hb
            · simp only [hb, Bool.false_eq_true, if_false, World.addAddress, upd2, hinj]
              by_cases hc : e = e' ∧ a = b
              · simp [hc]
              · simp only [hc, if_false]
                constructor
                · exact Or.inl
                · rintro (hx | ⟨h5, h6 | ⟨t', h6⟩⟩)
                  · exact hx
                  · simp at h6
                  · simp only [StateOp.addSlot.injEq] at h6
                    exact absurd ⟨h5.symm, h6.1.symm⟩ hc
          · by_cases hc : e = e' ∧ a = b ∧ s = t
            · simp [hc]
            · have hww : (if w.addressInAccessList e' b = true then w else w.addAddress e' b).access e
                  (a.bytes ++ s.bytes) = w.access e (a.bytes ++ s.bytes) := by
                split
                · rfl
                · simp [World.addAddress, upd2, hne2]
              simp only [hc, if_false, hww]
              constructor
              · exact Or.inl
              · rintro (hx | ⟨h5, h6⟩)
                · exact hx
                · simp only [StateOp.addSlot.injEq] at h6
                  exact absurd ⟨h5.symm, h6.1.symm, h6.2.symm⟩ hc
        | addBalance b n =>
          simp only [World.step, World.addBalance] at h1
          split at h1
          · simp at h1; subst h1; simp
          · split at h1
            · simp at h1; subst h1; simp
            · simp at h1
        | subBalance b n =>
          simp only [World.step] at h1; obtain ⟨_, rfl⟩ := subBalance_eq h1; simp
        | addRefund g =>
          simp only [World.step, World.addRefund] at h1
          split at h1
          · simp at h1
          · simp at h1; subst h1; simp
        | subRefund g =>
          simp only [World.step, World.subRefund] at h1
          split at h1
          · simp at h1
          · split at h1
            · simp at h1
            · simp at h1; subst h1; simp
        | createAccount b => simp only [World.step, Option.some.injEq] at h1; subst h1; simp [World.createAccount, World.newAccount]
        | createContract b =>
          simp only [World.step, World.createContract] at h1
          split at h1
          · split at h1
            · simp only [Option.some.injEq] at h1; subst h1; simp
            · simp at h1
          · simp only [Option.some.injEq] at h1; subst h1; simp
        | setCode b c =>
          simp only [World.step, World.setCode] at h1
          rw [getOrNew_frame] at h1
          split at h1
          · simp only [Option.some.injEq] at h1; subst h1; simp
          · simp at h1
        | setNonce b n =>
          simp only [World.step, World.setNonce, Option.some.injEq] at h1
          rw [getOrNew_frame] at h1; subst h1; simp
        | setState b t v => simp only [World.step, World.setState, Option.some.injEq] at h1; subst h1; simp
        | setTransientState b k v =>
          simp only [World.step, World.setTransientState, Option.some.injEq] at h1
          split at h1 <;> subst h1 <;> simp
        | selfDestruct b =>
          simp only [World.step] at h1; obtain ⟨_, _, rfl, _⟩ := selfDestruct_eq h1; simp
        | selfDestruct6780 b =>
          simp only [World.step] at h1; obtain ⟨_, _, rfl, _⟩ := selfDestruct6780_eq h1; simp
        | addLog l =>
          simp only [World.step, World.addLog] at h1
          split at h1
          · simp at h1
          · simp only [Option.some.injEq] at h1; subst h1; simp
      constructor
      · rw [i1]
        simp only [World.addressInAccessList] at key ⊢
        rw [key.1]
        simp only [accessedAddr, List.mem_cons, Prod.mk.injEq]
        constructor
        · rintro ((hx | ⟨rfl, rfl | ⟨t, rfl⟩⟩) | (hx | ⟨t, hx⟩))
          · exact Or.inl hx
          · exact Or.inr (Or.inl (Or.inl ⟨rfl, rfl⟩))
          · exact Or.inr (Or.inr ⟨t, Or.inl ⟨rfl, rfl⟩⟩)
          · exact Or.inr (Or.inl (Or.inr hx))
          · exact Or.inr (Or.inr ⟨t, Or.inr hx⟩)
        · rintro (hx | ((⟨h5, h6⟩ | hx) | ⟨t, ⟨h5, h6⟩ | hx⟩))
          · exact Or.inl (Or.inl hx)
          · exact Or.inl (Or.inr ⟨h5.symm, Or.inl h6.symm⟩)
          · exact Or.inr (Or.inl hx)
          · exact Or.inl (Or.inr ⟨h5.symm, Or.inr ⟨t, h6.symm⟩⟩)
          · exact Or.inr (Or.inr ⟨t, hx⟩)
      · rw [i2, key.2]
        simp only [accessedSlot, List.mem_cons, Prod.mk.injEq]
        constructor
        · rintro ((hx | ⟨rfl, rfl⟩) | hx)
          · exact Or.inl hx
          · exact Or.inr (Or.inl ⟨rfl, rfl⟩)
          · exact Or.inr (Or.inr hx)
        · rintro (hx | ⟨h5, h6⟩ | hx)
          · exact Or.inl (Or.inl hx)
          · exact Or.inl (Or.inr ⟨h5.symm, h6.symm⟩)
          · exact Or.inr hx

end Verif.Props.World
