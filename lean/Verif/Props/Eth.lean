import Verif.Lemmas.Eth
import Verif.Spec.World
import Verif.Props.World
/-
C70: the state database is a faithful implementation of the abstract Ethereum state of `Spec/Eth.lean`,
for every history of executions; C71: a new contract starts with empty storage.
-/
namespace Verif.Props.Eth
open Verif Verif.World Verif.Eth

variable (keccak : Bytes → Hash)

/-! ### Histories -/

/-- What can happen to the state database in a block. -/
inductive Event
  /-- an execution starts -/
  | start (e : Nat)
  /-- execution `e` performs an operation -/
  | perform (e : Nat) (op : StateOp)
  /-- execution `e` is committed -/
  | commit (e : Nat)

/-- A history of the state database. -/
def runDB (w : World) : List Event → Option World
  | [] => some w
  | .start e :: l => runDB (w.newStateDB e) l
  | .perform e op :: l => (w.step keccak e op).bind fun w' => runDB w' l
  | .commit e :: l => runDB (w.commitDestructs e) l

/-- The same history of the abstract state. -/
def runEth (s : EState) : List Event → Option EState
  | [] => some s
  | .start e :: l => runEth (s.start e) l
  | .perform e op :: l => (s.step e op).bind fun s' => runEth s' l
  | .commit e :: l => runEth (s.commit e) l

/-- Everything a contract, a wallet or the enclosing transaction can ask the state database about
address `a`, slot `k` and execution `e` agrees with the abstract state. -/
structure Agrees (w : World) (s : EState) (e : Nat) (a : Addr) (k : Hash) : Prop where
  balance : w.getBalance a = s.bal a
  nonce : w.getNonce a = s.nonce a
  exist : w.exist a = (s.acc a).isSome
  empty : w.isEmpty a = s.empty a
  code : w.getCode a = s.code a
  codeHash : w.getCodeHash (keccak []) a = s.codeHash keccak a
  codeSize : (s.code a).length < 2 ^ 64 → w.getCodeSize a = (s.code a).length
  storage : w.getState a k = s.sload a k
  transient : w.getTransientState e a k = (s.tr e).tload k
  destroyed : w.hasSelfDestructed e a = ((s.acc a).isSome && (s.tr e).destroyed a)
  warmAddr : w.addressInAccessList e a = (s.tr e).warmAddr a
  warmSlot : w.slotInAccessList e a k = ((s.tr e).warmAddr a, (s.tr e).warmSlot a k)
  refund : w.getRefund e = (s.tr e).refund
  logs : w.getLogs e = (s.tr e).logs

/-- C70: what the state database answers is what the abstract state answers. -/
theorem C70_observe {w : World} (hg : Good keccak w) (e : Nat) (a : Addr) (k : Hash) :
    Agrees keccak w (abs w) e a k := by
  have hnonce : w.getNonce a = (abs w).nonce a := by
    simp only [World.getNonce, EState.nonce, abs]; cases w.acct a <;> rfl
  refine ⟨rfl, hnonce, ?_, ?_, ?_, ?_, ?_, ?_, rfl, ?_, rfl, ?_, rfl, rfl⟩
  · simp only [World.exist, abs]; cases w.acct a <;> rfl
  · simp only [World.isEmpty, EState.empty, World.getBalance]
    have hb : (abs w).bal a = w.bal a := rfl
    rw [hb]
    by_cases h0 : w.bal a = 0
    · simp only [h0, ne_eq, not_true_eq_false, if_false, decide_true, Bool.true_and]
      cases h : w.acct a with
      | none => simp [abs, h]
      | some x => simp only [abs, h, Option.map_some]; exact (unused_eq w a x).symm
    · simp [h0]
  · simp only [World.getCode, EState.code, abs]
    cases h : w.acct a with
    | none => rfl
    | some x =>
      obtain ⟨kd, n, q, pk⟩ := x
      cases kd with
      | contract h' =>
        simp only [Option.map_some, absRole]
        by_cases hh : h' = []
        · subst hh; simp [(hg.nohash a).1]
        · simp [if_neg hh]
      | _ => rfl
  · simp only [World.getCodeHash, EState.codeHash, abs]
    cases h : w.acct a with
    | none => rfl
    | some x =>
      obtain ⟨kd, n, q, pk⟩ := x
      cases kd with
      | contract h' =>
        simp only [Option.map_some, absRole]
        rcases hg.code a _ h' h rfl with hh | ⟨c, hh, h1, h2⟩
        · subst hh; rfl
        · have hne : h' ≠ [] := by
            intro he; have := (keccak c).len; rw [← hh, he] at this; simp at this
          rw [if_neg hne, h1]
          show bytesToHash h' = keccak c
          rw [hh, bytesToHash_bytes]
      | _ => rfl
  · simp only [World.getCodeSize, EState.code, abs]
    cases h : w.acct a with
    | none => intro; rfl
    | some x =>
      obtain ⟨kd, n, q, pk⟩ := x
      cases kd with
      | contract h' =>
        simp only [Option.map_some, absRole]
        rcases hg.code a _ h' h rfl with hh | ⟨c, hh, h1, h2⟩
        · subst hh; simp [(hg.nohash a).2]
        · have hne : h' ≠ [] := by
            intro he; have := (keccak c).len; rw [← hh, he] at this; simp at this
          simp only [if_neg hne, h1, h2, Option.getD_some]
          intro hl
          exact fromBE_toBE 8 _ (by simpa using hl)
      | _ => intro; rfl
  · simp only [World.getState, EState.sload]
    cases h : w.acct a with
    | none => simp [abs, h]
    | some x => simp only [abs, h]; cases w.vm (stateKey a k) <;> rfl
  · simp only [World.hasSelfDestructed, abs]
    cases w.acct a <;> simp
  · have hw := hg.warm e a k
    simp only [World.slotInAccessList, abs]
    cases h1 : w.access e a.bytes with
    | true => simp
    | false =>
      cases h2 : w.access e (a.bytes ++ k.bytes) with
      | true => rw [hw h2] at h1; simp at h1
      | false => simp

/-- C70: after any history — executions starting, performing state operations in any interleaving, and
committing — the state database aborts exactly when the abstract state does, and otherwise agrees with it
on every observation at every address, slot and execution. -/
theorem C70_refines (l : List Event) :
    match runDB keccak Spec.emptyWorld l, runEth EState.genesis l with
    | none, none => True
    | some w, some s => ∀ e a k, Agrees keccak w s e a k
    | _, _ => False := by
  have key : ∀ (l : List Event) (w : World), Good keccak w →
      (runDB keccak w l).map abs = runEth (abs w) l ∧ ∀ w', runDB keccak w l = some w' → Good keccak w' := by
    intro l
    induction l with
    | nil => intro w hg; exact ⟨rfl, fun w' h => by simp only [runDB, Option.some.injEq] at h; exact h ▸ hg⟩
    | cons x l ih =>
      intro w hg
      cases x with
      | start e =>
        simp only [runDB, runEth, ← newStateDB_abs]
        exact ih _ (newStateDB_Good keccak hg e)
      | commit e =>
        simp only [runDB, runEth, ← commit_abs]
        exact ih _ (commit_Good keccak hg e)
      | perform e op =>
        have hs := step_abs keccak hg e op
        simp only [runDB, runEth, ← hs]
        cases h : w.step keccak e op with
        | none => exact ⟨rfl, fun w' h' => by simp at h'⟩
        | some w1 => exact ih w1 (step_Good keccak hg h)
  have hg0 : Good keccak Spec.emptyWorld :=
    ⟨fun a x h hx => by simp [Spec.emptyWorld] at hx, fun a => ⟨rfl, rfl⟩, fun e a k h => by simp [Spec.emptyWorld] at h⟩
  have h0 : abs Spec.emptyWorld = EState.genesis := rfl
  obtain ⟨h1, h2⟩ := key l _ hg0
  rw [h0] at h1
  cases hm : runDB keccak Spec.emptyWorld l with
  | none => rw [hm] at h1; simp only [Option.map_none] at h1; rw [← h1]; trivial
  | some w =>
    rw [hm] at h1; simp only [Option.map_some] at h1; rw [← h1]
    intro e a k
    exact C70_observe keccak (h2 w hm) e a k

/-- A contract is created, given code, storage and a balance, logs, and the next execution reads it. -/
def sample : List Event :=
  [.start 1, .perform 1 (.createContract (Addr.ofNat 7)), .perform 1 (.setNonce (Addr.ofNat 7) 1),
   .perform 1 (.setState (Addr.ofNat 7) (Hash.ofNat 2) (Hash.ofNat 9)),
   .perform 1 (.setCode (Addr.ofNat 7) [1, 2, 3]), .perform 1 (.addBalance (Addr.ofNat 7) 5),
   .perform 1 (.addLog ⟨Addr.ofNat 7, [], [4]⟩), .commit 1, .start 2,
   .perform 2 (.addSlot (Addr.ofNat 7) (Hash.ofNat 2))]

example : ∃ s, runEth EState.genesis sample = some s ∧ s.code (Addr.ofNat 7) = [1, 2, 3] ∧
    s.bal (Addr.ofNat 7) = 5 ∧ s.nonce (Addr.ofNat 7) = 1 ∧
    s.sload (Addr.ofNat 7) (Hash.ofNat 2) = Hash.ofNat 9 ∧ (s.tr 1).logs = some [⟨Addr.ofNat 7, [], [4]⟩] ∧
    (s.tr 2).logs = some [] := by
  refine ⟨_, rfl, ?_, ?_, ?_, ?_, ?_, ?_⟩ <;> decide

example : (runDB Props.World.toyKeccak Spec.emptyWorld sample).isSome = true := by decide

/-- C70, violated part: in Ethereum EXTCODEHASH of an existing account without code is the hash of the
empty string. Here a contract under construction answers zero. -/
theorem C70_constructor_hash_violated (h0 : keccak [] ≠ Hash.zero) :
    ¬ ∀ (l : List Event) (w : World) (a : Addr), runDB keccak Spec.emptyWorld l = some w →
        w.exist a = true → w.getCode a = [] → w.getCodeHash (keccak []) a = keccak [] := by
  intro h
  have := h [.start 1, .perform 1 (.createContract (Addr.ofNat 7))] _ (Addr.ofNat 7) rfl (by rfl) (by rfl)
  exact h0 this.symm

/-- C70: an account with no code, other than a contract under construction, has the hash of the empty
string, and one with code has its hash: for every reachable state. -/
theorem C70_codehash_partial (l : List Event) (w : World) (a : Addr)
    (h : runDB keccak Spec.emptyWorld l = some w) (hx : w.exist a = true) :
    w.getCodeHash (keccak []) a = keccak (w.getCode a) ∨
      (w.getCodeHash (keccak []) a = Hash.zero ∧ w.getCode a = [] ∧ w.isEmpty a = false) := by
  have hr := C70_refines keccak l
  rw [h] at hr
  cases hs : runEth EState.genesis l with
  | none => rw [hs] at hr; exact hr.elim
  | some s =>
    rw [hs] at hr
    have ha := hr 0 a Hash.zero
    rw [ha.codeHash, ha.code, ha.empty]
    rw [ha.exist] at hx
    unfold EState.codeHash EState.code EState.empty
    cases hacc : s.acc a with
    | none => rw [hacc] at hx; simp at hx
    | some x =>
      obtain ⟨r, n⟩ := x
      cases r with
      | building => refine Or.inr ⟨rfl, rfl, ?_⟩; simp [EAcc.unused]
      | _ => exact Or.inl rfl

/-! ### C71: a new contract starts with empty storage -/

/-- Storage is written only at contracts (the EVM writes storage only for executing code), and accounts
are only created where there are none (the EVM's own precondition for `CreateAccount`). -/
def Disciplined (s : EState) : StateOp → Prop
  | .setState a _ _ => ∃ x, s.acc a = some x ∧ (x.role = .building ∨ ∃ c, x.role = .deployed c)
  | .createAccount a => s.acc a = none
  | _ => True

/-- Every operation of the history is disciplined when it is performed. -/
def DisciplinedRun (s : EState) : List Event → Prop
  | [] => True
  | .start e :: l => DisciplinedRun (s.start e) l
  | .commit e :: l => DisciplinedRun (s.commit e) l
  | .perform e op :: l => Disciplined s op ∧ ∀ s', s.step e op = some s' → DisciplinedRun s' l

/-- Addresses that are not contracts have no storage. -/
def NoStray (s : EState) : Prop :=
  ∀ a k, s.slot a k = Hash.zero ∨ ∃ x, s.acc a = some x ∧ (x.role = .building ∨ ∃ c, x.role = .deployed c)

theorem noStray_putAcc {s : EState} (h : NoStray s) (a : Addr) (x : EAcc)
    (hx : (x.role = .building ∨ ∃ c, x.role = .deployed c) ∨ ∀ k, s.slot a k = Hash.zero) :
    NoStray (s.putAcc a x) := by
  intro b k
  by_cases hb : b = a
  · subst hb
    rcases hx with hx | hx
    · exact Or.inr ⟨x, by simp [EState.putAcc], hx⟩
    · exact Or.inl (hx k)
  · rcases h b k with h | ⟨y, h1, h2⟩
    · exact Or.inl h
    · exact Or.inr ⟨y, by simp [EState.putAcc, hb, h1], h2⟩

theorem noStray_step {s s' : EState} {e : Nat} {op : StateOp} (hn : NoStray s) (hd : Disciplined s op)
    (h : s.step e op = some s') : NoStray s' := by
  cases op with
  | addBalance a n =>
    simp only [EState.step] at h; split at h
    · simp only [Option.some.injEq] at h; subst h; exact hn
    · simp at h
  | subBalance a n =>
    simp only [EState.step] at h; split at h
    · simp only [Option.some.injEq] at h; subst h; exact hn
    · simp at h
  | addRefund g =>
    simp only [EState.step, Option.map_eq_some_iff] at h
    obtain ⟨r, _, rfl⟩ := h; exact hn
  | subRefund g =>
    simp only [EState.step, Option.bind_eq_some_iff] at h
    obtain ⟨r, _, h⟩ := h
    split at h
    · simp only [Option.some.injEq] at h; subst h; exact hn
    · simp at h
  | addAddress a => simp only [EState.step, Option.some.injEq] at h; subst h; exact hn
  | addSlot a t => simp only [EState.step, Option.some.injEq] at h; subst h; exact hn
  | createAccount a =>
    simp only [EState.step, Option.some.injEq] at h; subst h
    refine noStray_putAcc hn a _ (Or.inr ?_)
    intro k
    rcases hn a k with h | ⟨x, h, _⟩
    · exact h
    · rw [show s.acc a = none from hd] at h; simp at h
  | createContract a =>
    simp only [EState.step] at h; split at h
    · simp only [Option.some.injEq] at h; subst h
      exact noStray_putAcc hn a ⟨.building, 0⟩ (Or.inl (Or.inl rfl))
    · simp at h
  | setCode a c =>
    simp only [EState.step] at h
    have : ∃ n, s' = s.putAcc a ⟨.deployed c, n⟩ := by
      split at h
      · simp only [Option.some.injEq] at h; exact ⟨_, h.symm⟩
      · simp only [Option.some.injEq] at h; exact ⟨_, h.symm⟩
      · split at h
        · simp only [Option.some.injEq] at h; exact ⟨_, h.symm⟩
        · simp at h
      · simp at h
    obtain ⟨n, rfl⟩ := this
    exact noStray_putAcc hn a _ (Or.inl (Or.inr ⟨c, rfl⟩))
  | setNonce a n =>
    simp only [EState.step, Option.some.injEq] at h; subst h
    by_cases hk : ∃ k, s.slot a k ≠ Hash.zero
    · obtain ⟨k, hk⟩ := hk
      rcases hn a k with h | ⟨x, h, hx⟩
      · exact absurd h hk
      · refine noStray_putAcc hn a _ (Or.inl ?_)
        simpa [EState.accOrNew, h] using hx
    · refine noStray_putAcc hn a _ (Or.inr ?_)
      intro k
      exact Classical.byContradiction fun hc => hk ⟨k, hc⟩
  | setState a k v =>
    simp only [EState.step, Option.some.injEq] at h; subst h
    intro b k'
    by_cases hb : b = a
    · subst hb; exact Or.inr hd
    · rcases hn b k' with h | h
      · exact Or.inl (by simp [hb, h])
      · exact Or.inr h
  | setTransientState a k v => simp only [EState.step, Option.some.injEq] at h; subst h; exact hn
  | selfDestruct a =>
    simp only [EState.step] at h; split at h <;>
    · simp only [Option.some.injEq] at h; subst h; exact hn
  | selfDestruct6780 a =>
    simp only [EState.step] at h; split at h <;>
    · simp only [Option.some.injEq] at h; subst h; exact hn
  | addLog l =>
    simp only [EState.step, Option.map_eq_some_iff] at h
    obtain ⟨r, _, rfl⟩ := h; exact hn

theorem noStray_run (l : List Event) (s s' : EState) (hn : NoStray s) (hd : DisciplinedRun s l)
    (h : runEth s l = some s') : NoStray s' := by
  induction l generalizing s with
  | nil => simp only [runEth, Option.some.injEq] at h; exact h ▸ hn
  | cons x l ih =>
    cases x with
    | start e => exact ih (s.start e) hn hd h
    | commit e =>
      refine ih (s.commit e) ?_ hd h
      intro a k
      by_cases hx : (s.tr e).destroyed a = true
      · exact Or.inl (by simp [EState.commit, hx])
      · rcases hn a k with h | ⟨x, h, h'⟩
        · exact Or.inl (by simp [EState.commit, hx, h])
        · exact Or.inr ⟨x, by simp [EState.commit, hx, h], h'⟩
    | perform e op =>
      simp only [runEth, Option.bind_eq_some_iff] at h
      obtain ⟨s1, h1, h2⟩ := h
      exact ih s1 (noStray_step hn hd.1 h1) (hd.2 s1 h1) h2

/-- C71: after any disciplined history — including self-destructs and commits — a contract that has just
been created reads zero from every storage slot, whoever lived at the address before. -/
theorem C71_fresh_storage (l : List Event) (w w' : World) (e : Nat) (a : Addr) (k : Hash)
    (hd : DisciplinedRun EState.genesis l) (h : runDB keccak Spec.emptyWorld l = some w)
    (hc : w.step keccak e (.createContract a) = some w') : w'.getState a k = Hash.zero := by
  have hr := C70_refines keccak l
  have hr' := C70_refines keccak (l ++ [.perform e (.createContract a)])
  have happ : ∀ (l m : List Event) (s : EState), runEth s (l ++ m) = (runEth s l).bind fun s' => runEth s' m := by
    intro l
    induction l with
    | nil => intro m s; rfl
    | cons x l ih =>
      intro m s
      cases x with
      | start e => exact ih m _
      | commit e => exact ih m _
      | perform e op =>
        simp only [List.cons_append, runEth]
        cases s.step e op with
        | none => rfl
        | some s1 => exact ih m s1
  have happ' : ∀ (l m : List Event) (s : World), runDB keccak s (l ++ m) = (runDB keccak s l).bind fun s' => runDB keccak s' m := by
    intro l
    induction l with
    | nil => intro m s; rfl
    | cons x l ih =>
      intro m s
      cases x with
      | start e => exact ih m _
      | commit e => exact ih m _
      | perform e op =>
        simp only [List.cons_append, runDB]
        cases s.step keccak e op with
        | none => rfl
        | some s1 => exact ih m s1
  rw [happ, happ', h] at hr'
  rw [h] at hr
  simp only [Option.bind_some, runDB, hc] at hr'
  cases hs : runEth EState.genesis l with
  | none => rw [hs] at hr; exact hr.elim
  | some s =>
    rw [hs] at hr hr'
    simp only [Option.bind_some, runEth] at hr'
    have hn := noStray_run l _ s (fun a k => Or.inl rfl) hd hs
    cases hst : s.step e (.createContract a) with
    | none => rw [hst] at hr'; exact hr'.elim
    | some s' =>
      rw [hst] at hr'
      rw [(hr' e a k).storage]
      simp only [EState.step] at hst
      split at hst
      · rename_i hu
        simp only [Option.some.injEq] at hst; subst hst
        have : s.slot a k = Hash.zero := by
          rcases hn a k with h | ⟨x, h, hx⟩
          · exact h
          · simp only [EState.accOrNew, h, Option.getD_some] at hu
            rcases hx with hx | ⟨c, hx⟩ <;> simp [EAcc.unused, hx] at hu
        simp [EState.sload, EState.putTr, EState.putAcc, this]
      · simp at hst

/-- A contract is created, writes, destroys itself, and the address is used again. -/
def reborn : List Event :=
  [.start 1, .perform 1 (.createContract (Addr.ofNat 7)),
   .perform 1 (.setState (Addr.ofNat 7) (Hash.ofNat 2) (Hash.ofNat 9)),
   .perform 1 (.selfDestruct6780 (Addr.ofNat 7)), .commit 1, .start 2]

example : DisciplinedRun EState.genesis reborn := by
  refine ⟨trivial, fun s' h => ⟨?_, fun s'' h' => ⟨trivial, fun s3 h3 => trivial⟩⟩⟩
  simp only [EState.step] at h
  split at h
  · simp only [Option.some.injEq] at h; subst h
    exact ⟨⟨.building, 0⟩, by simp [EState.putTr, EState.putAcc], Or.inl rfl⟩
  · simp at h

example : (runDB Props.World.toyKeccak Spec.emptyWorld
    (reborn ++ [.perform 2 (.createContract (Addr.ofNat 7))])).isSome = true := by decide

/-- C06: the commit removes only store entries that belong to a destroyed address; every other key,
whatever its form, keeps its value. -/
theorem C06_commit_frame (w : World) (e : Nat) (key : Bytes)
    (h : ∀ a : Addr, w.destructed e a = true → ¬ ∃ x, key = a.bytes ++ x) :
    (w.commitDestructs e).vm key = w.vm key := by
  simp only [World.commitDestructs]
  cases hk : keyAddr key with
  | none => rfl
  | some a =>
    simp only
    rw [if_neg]
    intro hd
    exact h a hd (keyAddr_some hk)

example : ¬ ∃ x, codeKey (Addr.ofNat 1) [] = (Addr.ofNat 2).bytes ++ x := by
  rintro ⟨x, h⟩
  have := (append_inj_addr h).1
  exact absurd this (by decide)

end Verif.Props.Eth
