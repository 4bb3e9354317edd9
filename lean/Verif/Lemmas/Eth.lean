import Verif.Lemmas.World
import Verif.Spec.Eth
/-
Lemmas for the refinement of the abstract Ethereum state (C70).
-/
namespace Verif.Eth
open Verif Verif.World

variable (keccak : Bytes → Hash)

/-- Two worlds with the same stores, up to a change of `nextNum`, have the same abstraction. -/
theorem abs_nextNum (w : World) (n : Nat) : abs { w with nextNum := n } = abs w := rfl

theorem range_map_upd (n : Nat) (f : Nat → Option Log) (l : Log) (d : Log) :
    ((List.range (n + 1)).map fun i => (if i = n then some l else f i).getD d) =
      ((List.range n).map fun i => (f i).getD d) ++ [l] := by
  rw [List.range_succ, List.map_append]
  congr 1
  · apply List.map_congr_left
    intro i hi
    rw [if_neg]
    have := List.mem_range.mp hi
    omega
  · simp

theorem absRole_base {w : World} {a : Addr} {k : Kind} {b : Bool} :
    absRole w a k b = .user false ↔ k = .base ∧ b = false := by
  cases k <;> simp [absRole]
  split <;> simp

theorem unused_eq (w : World) (a : Addr) (x : Account) :
    (⟨absRole w a x.kind x.pubKey.isSome, x.seq⟩ : EAcc).unused = x.isEmpty := by
  unfold EAcc.unused Account.isEmpty
  cases hk : x.kind with
  | base => cases x.pubKey <;> simp [absRole]; rfl
  | module => simp [absRole]
  | shorthand o => simp [absRole]
  | contract h => simp only [absRole]; split <;> simp

theorem addr_eq_bytes {a b : Addr} : (a.bytes = b.bytes) = (a = b) :=
  propext ⟨Addr.ext, fun h => by rw [h]⟩

theorem slot_eq_bytes {a b : Addr} {s t : Hash} : (a.bytes ++ s.bytes = b.bytes ++ t.bytes) = (a = b ∧ s = t) :=
  propext ⟨fun h => ⟨(append_inj_addr h).1, Hash.ext (append_inj_addr h).2⟩, fun h => by rw [h.1, h.2]⟩

theorem absAcc_upd_acct (w : World) (a : Addr) (x : Account) :
    abs { w with acct := upd w.acct a (some x) } =
      (abs w).putAcc a ⟨absRole w a x.kind x.pubKey.isSome, x.seq⟩ := by
  ext b
  all_goals try rfl
  simp only [abs, EState.putAcc, upd]
  by_cases h : b = a
  · subst h; simp; rfl
  · simp [h]; rfl

theorem abs_access (w : World) (e : Nat) (a : Addr) :
    abs (w.addAddress e a) =
      (abs w).putTr e { (abs w).tr e with warmAddr := fun b => b = a || ((abs w).tr e).warmAddr b } := by
  ext e' <;> try rfl
  all_goals
    simp only [abs, EState.putTr, World.addAddress, upd2]
    by_cases h : e' = e <;> simp [h, World.getLogs, addr_eq_bytes, (addr_ne_slot _ _ _).symm]
  all_goals try (by_cases h1 : _ <;> simp [h1])

theorem abs_slot (w : World) (e : Nat) (a : Addr) (k : Hash) :
    abs (w.addSlot e a k) =
      (abs w).putTr e { (abs w).tr e with
        warmAddr := fun b => b = a || ((abs w).tr e).warmAddr b
        warmSlot := fun b k' => (b = a && k' = k) || ((abs w).tr e).warmSlot b k' } := by
  have h0 : w.addSlot e a k = { w with access := upd2 (upd2 w.access e a.bytes true) e (a.bytes ++ k.bytes) true } := by
    simp only [World.addSlot]
    split
    · rename_i h
      have : upd2 w.access e a.bytes true = w.access := by
        funext x y
        simp only [upd2]; split
        · rename_i hc; rw [hc.1, hc.2]; exact h.symm
        · rfl
      rw [this]
    · rfl
  rw [h0]
  ext e' <;> try rfl
  all_goals
    simp only [abs, EState.putTr, upd2]
    by_cases h : e' = e <;>
      simp [h, World.getLogs, addr_eq_bytes, (addr_ne_slot _ _ _).symm, addr_ne_slot, slot_eq_bytes]

theorem getOrNew_acc (w : World) (a : Addr) :
    (⟨absRole w a (w.getOrNew a).2.kind (w.getOrNew a).2.pubKey.isSome, (w.getOrNew a).2.seq⟩ : EAcc) =
      (abs w).accOrNew a := by
  simp only [World.getOrNew, EState.accOrNew, abs]
  cases h : w.acct a with
  | none => rfl
  | some x => rfl

theorem abs_selfDestruct (w : World) (e : Nat) (a : Addr) :
    (w.selfDestruct e a).map abs =
      if ((abs w).acc a).isSome then
        some (((abs w).putBal a 0).putTr e
          { (abs w).tr e with destroyed := fun b => b = a || ((abs w).tr e).destroyed b })
      else some (abs w) := by
  simp only [World.selfDestruct]
  cases h : w.acct a with
  | none => simp [abs, h]
  | some x =>
    simp only [World.subBalance]
    have hs : ((abs w).acc a).isSome = true := by simp [abs, h]
    rw [if_pos hs]
    have key : ∀ f : Addr → Nat, (∀ b, f b = if b = a then 0 else w.bal b) →
        abs { w with destructed := upd2 w.destructed e a true, bal := f } =
          ((abs w).putBal a 0).putTr e
            { (abs w).tr e with destroyed := fun b => b = a || ((abs w).tr e).destroyed b } := by
      intro f hf
      ext e' <;> try rfl
      · simp only [abs, EState.putTr, EState.putBal, hf]
      all_goals
        simp only [abs, EState.putTr, EState.putBal, upd2]
        by_cases he : e' = e <;> simp [he, World.getLogs]
    by_cases h0 : w.getBalance a = 0
    · rw [if_pos h0]
      simp only [Option.map_some, Option.some.injEq]
      refine key w.bal ?_
      intro b; split
      · rename_i hb; rw [hb]; exact h0
      · rfl
    · rw [if_neg h0, if_pos (show w.getBalance a ≤ w.bal a from Nat.le_refl _)]
      simp only [Option.map_some, Option.some.injEq]
      refine key _ ?_
      intro b; simp [upd, World.getBalance]

/-- One operation of the state database is the abstract operation. -/
theorem step_abs {w : World} (hg : Good keccak w) (e : Nat) (op : StateOp) :
    (w.step keccak e op).map abs = (abs w).step e op := by
  cases op with
  | addBalance a n =>
    simp only [World.step, World.addBalance, EState.step]
    have hb : (abs w).bal a = w.bal a := rfl
    rw [hb]
    by_cases h0 : n = 0
    · subst h0
      simp only [if_pos, true_or, Option.map_some, Option.some.injEq]
      ext b <;> try rfl
      simp only [EState.putBal]; split
      · rename_i h; subst h; rfl
      · rfl
    · by_cases h1 : w.bal a + n < 2 ^ 256
      · simp only [if_neg h0, if_pos h1, if_pos (Or.inr h1), Option.map_some, Option.some.injEq]
        rfl
      · rw [if_neg h0, if_neg h1, if_neg (by omega)]; rfl
  | subBalance a n =>
    simp only [World.step, World.subBalance, EState.step]
    have hb : (abs w).bal a = w.bal a := rfl
    rw [hb]
    by_cases h0 : n = 0
    · subst h0
      rw [if_pos rfl, if_pos (Nat.zero_le _)]
      simp only [Option.map_some, Option.some.injEq]
      ext b <;> try rfl
      simp only [EState.putBal]; split
      · rename_i h; subst h; rfl
      · rfl
    · by_cases h1 : n ≤ w.bal a
      · rw [if_neg h0, if_pos h1, if_pos h1]; rfl
      · rw [if_neg h0, if_neg h1, if_neg h1]; rfl
  | addRefund g =>
    simp only [World.step, World.addRefund, EState.step]
    have hr : ((abs w).tr e).refund = w.refund e := rfl
    rw [hr]
    cases w.refund e with
    | none => rfl
    | some r =>
      simp only [Option.map_some, Option.some.injEq]
      ext e' <;> try rfl
      all_goals
        simp only [abs, EState.putTr, upd]
        by_cases h : e' = e <;> simp [h, World.getLogs]
  | subRefund g =>
    simp only [World.step, World.subRefund, EState.step]
    have hr : ((abs w).tr e).refund = w.refund e := rfl
    rw [hr]
    cases w.refund e with
    | none => rfl
    | some r =>
      simp only [Option.bind_some]
      by_cases hgr : g > r
      · rw [if_pos hgr, if_neg (by omega)]; rfl
      · rw [if_neg hgr, if_pos (by omega)]
        simp only [Option.map_some, Option.some.injEq]
        ext e' <;> try rfl
        all_goals
          simp only [abs, EState.putTr, upd]
          by_cases h : e' = e <;> simp [h, World.getLogs]
  | addAddress a =>
    simp only [World.step, EState.step, Option.map_some, abs_access]
  | addSlot a k =>
    simp only [World.step, EState.step, Option.map_some, abs_slot]
  | createAccount a =>
    simp only [World.step, EState.step, Option.map_some, World.createAccount, World.newAccount]
    have := absAcc_upd_acct { w with nextNum := w.nextNum + 1 } a { kind := .base, num := w.nextNum, seq := 0, pubKey := none }
    rw [this]; rfl
  | createContract a =>
    simp only [World.step, EState.step, World.createContract]
    have hpost : ∀ n m, abs { w with created := upd2 w.created e a true, acct := upd w.acct a (some (newContractAccount n)), nextNum := m } =
        ((abs w).putAcc a ⟨.building, 0⟩).putTr e
          { (abs w).tr e with created := fun b => b = a || ((abs w).tr e).created b } := by
      intro n m
      have := absAcc_upd_acct { w with created := upd2 w.created e a true, nextNum := m } a (newContractAccount n)
      rw [this]
      ext e' <;> try rfl
      all_goals
        simp only [abs, EState.putTr, EState.putAcc, upd2]
        by_cases h : e' = e <;> simp [h, World.getLogs]
    cases h : w.acct a with
    | none =>
      have hu : ((abs w).accOrNew a).unused = true := by simp [EState.accOrNew, abs, h, EAcc.unused]
      simp only [hu, if_true, Option.map_some, Option.some.injEq]
      exact hpost _ _
    | some x =>
      have hu : ((abs w).accOrNew a).unused = x.isEmpty := by
        rw [← unused_eq w a x]; simp [EState.accOrNew, abs, h]
      simp only [hu]
      cases x.isEmpty with
      | true => simp only [if_true, Option.map_some, Option.some.injEq]; exact hpost _ _
      | false => rfl
  | setCode a c =>
    have hpost : ∀ (acc : Account) (n : Nat), acc.kind = .contract (keccak c).bytes →
        abs { w with nextNum := n, acct := upd w.acct a (some acc), vm := upd (upd w.vm (codeKey a (keccak c).bytes) (some c)) (codeSizeKey a (keccak c).bytes) (some (uint64ToBytes c.length)) } =
          (abs w).putAcc a ⟨.deployed c, acc.seq⟩ := by
      intro acc n hk
      have hl : HashLen (keccak c).bytes := Or.inr (keccak c).len
      have hne : (keccak c).bytes ≠ [] := by
        intro h; have := (keccak c).len; rw [h] at this; simp at this
      ext b <;> try rfl
      · simp only [abs, EState.putAcc, upd]
        by_cases hb : b = a
        · subst hb
          simp only [if_pos, Option.map_some]
          simp only [hk, absRole, if_neg hne, upd]
          rw [if_neg (codeKey_ne_codeSizeKey b b hl hl)]
          simp
        · simp only [if_neg hb]
          cases hx : w.acct b with
          | none => rfl
          | some x =>
            simp only [Option.map_some, Option.some.injEq, EAcc.mk.injEq, and_true]
            cases hk2 : x.kind with
            | contract h =>
              simp only [absRole]
              by_cases hh : h = []
              · simp [hh]
              · have hl2 : HashLen h := by
                  rcases hg.code b x h hx hk2 with h' | ⟨c', h', _⟩
                  · exact absurd h' hh
                  · rw [h']; exact Or.inr (keccak c').len
                rw [if_neg hh, if_neg hh]
                simp only [upd]
                rw [if_neg (codeKey_ne_codeSizeKey b a hl2 hl), if_neg (fun h' => hb (codeKey_inj h').1)]
            | _ => rfl
      · rename_i k
        simp only [abs, EState.putAcc, upd]
        rw [if_neg (fun h => codeSizeKey_ne_stateKey a b k hl h.symm),
          if_neg (fun h => codeKey_ne_stateKey a b k hl h.symm)]
    simp only [World.step, EState.step, World.setCode]
    have hacc := getOrNew_acc w a
    have hframe := getOrNew_frame w a
    rw [← hacc, unused_eq w a (w.getOrNew a).2]
    rw [hframe]
    generalize (w.getOrNew a).2 = x at *
    generalize (w.getOrNew a).1.nextNum = n at *
    by_cases he : x.isEmpty = true
    · have hk : x.kind = .base := by
        unfold Account.isEmpty at he
        cases hk : x.kind <;> simp [hk] at he ⊢
      simp only [he, if_true, newContractAccount, Option.map_some, hk, absRole, Option.some.injEq]
      exact hpost _ n rfl
    · simp only [he, if_false, Bool.false_eq_true, if_neg]
      cases hk : x.kind with
      | base => simp [absRole]
      | module => simp [absRole]
      | shorthand o => simp [absRole]
      | contract h =>
        simp only [absRole, Option.map_some]
        have := hpost { x with kind := .contract (keccak c).bytes } n rfl
        rw [this]
        split <;> rename_i hr <;> split at hr <;> first | rfl | simp at hr
  | setNonce a n =>
    simp only [World.step, EState.step, Option.map_some, World.setNonce, Option.some.injEq]
    rw [getOrNew_frame]
    have := absAcc_upd_acct { w with nextNum := (w.getOrNew a).1.nextNum } a { (w.getOrNew a).2 with seq := n }
    rw [this, ← getOrNew_acc]
    rfl
  | setState a k v =>
    simp only [World.step, EState.step, Option.map_some, World.setState, Option.some.injEq]
    ext b <;> try rfl
    · simp only [abs]
      cases hx : w.acct b with
      | none => rfl
      | some x =>
        simp only [Option.map_some, Option.some.injEq, EAcc.mk.injEq, and_true]
        cases hk2 : x.kind with
        | contract h =>
          simp only [absRole, upd]
          by_cases hh : h = []
          · simp [hh]
          · have hl2 : HashLen h := by
              rcases hg.code b x h hx hk2 with h' | ⟨c', h', _⟩
              · exact absurd h' hh
              · rw [h']; exact Or.inr (keccak c').len
            rw [if_neg hh, if_neg hh, if_neg (codeKey_ne_stateKey b a k hl2)]
        | _ => rfl
    · rename_i k'
      simp only [abs, upd]
      by_cases hc : b = a ∧ k' = k
      · rw [if_pos hc, if_pos (by rw [hc.1, hc.2])]; simp [bytesToHash_bytes]
      · rw [if_neg hc, if_neg (fun h => hc (stateKey_inj h))]
  | setTransientState a k v =>
    simp only [World.step, EState.step, Option.map_some, World.setTransientState, Option.some.injEq]
    by_cases h : w.getTransientState e a k = v
    · rw [if_pos h]
      ext e' <;> try rfl
      all_goals
        simp only [abs, EState.putTr]
        by_cases he : e' = e <;> simp [he, World.getLogs]
      rename_i k'
      by_cases hk : k' = k
      · subst hk; simp [← h, World.getTransientState]
      · simp [hk]
    · rw [if_neg h]
      ext e' <;> try rfl
      all_goals
        simp only [abs, EState.putTr, upd2]
        by_cases he : e' = e <;> simp [he, World.getLogs]
      rename_i k'
      by_cases hk : k' = k <;> simp [hk]
  | selfDestruct a =>
    simp only [World.step, EState.step]
    exact abs_selfDestruct w e a
  | selfDestruct6780 a =>
    simp only [World.step, EState.step, World.selfDestruct6780]
    have hc : ((abs w).tr e).created a = w.created e a := rfl
    rw [hc]
    have h2 := abs_selfDestruct w e a
    cases h : w.acct a with
    | none => simp [abs, h]
    | some x =>
      have hs : ((abs w).acc a).isSome = true := by simp [abs, h]
      simp only [hs, true_and] at h2 ⊢
      cases w.created e a with
      | true => simp only [if_true]; exact h2
      | false => rfl
  | addLog l =>
    simp only [World.step, EState.step, World.addLog]
    have hl : ((abs w).tr e).logs = w.getLogs e := rfl
    rw [hl, World.getLogs]
    cases hn : w.logSize e with
    | none => rfl
    | some n =>
      simp only [Option.map_some, Option.some.injEq]
      ext e' <;> try rfl
      all_goals
        simp only [abs, EState.putTr, upd, upd2]
        by_cases he : e' = e <;> simp [he, World.getLogs, upd, upd2]
      rw [range_map_upd n (w.logs e) l _]

theorem getOrNew_acct (w : World) (a : Addr) : (w.getOrNew a).1.acct = w.acct := by
  rw [getOrNew_frame]

theorem addr_prefix_ne {a b : Addr} {x y : Bytes} (h : a ≠ b) : a.bytes ++ x ≠ b.bytes ++ y :=
  fun he => h (append_inj_addr he).1

theorem putTr_tr (s : EState) (e : Nat) (t : Trans) (e' : Nat) :
    (s.putTr e t).tr e' = if e' = e then t else s.tr e' := rfl

theorem warm_same {s s' : EState} (h1 : ∀ e, (s'.tr e).warmSlot = (s.tr e).warmSlot)
    (h2 : ∀ e, (s'.tr e).warmAddr = (s.tr e).warmAddr)
    (hw : ∀ e b k, (s.tr e).warmSlot b k = true → (s.tr e).warmAddr b = true) :
    ∀ e b k, (s'.tr e).warmSlot b k = true → (s'.tr e).warmAddr b = true := by
  intro e b k; rw [h1, h2]; exact hw e b k

theorem putTr_warm {s s0 : EState} {e : Nat} {t : Trans} (h1 : t.warmSlot = (s.tr e).warmSlot)
    (h2 : t.warmAddr = (s.tr e).warmAddr) (h0 : s0.tr = s.tr)
    (hw : ∀ e b k, (s.tr e).warmSlot b k = true → (s.tr e).warmAddr b = true) :
    ∀ e' b k, ((s0.putTr e t).tr e').warmSlot b k = true → ((s0.putTr e t).tr e').warmAddr b = true := by
  apply warm_same (s := s) _ _ hw
  · intro e'; rw [putTr_tr]; split
    · rename_i h; rw [h, h1]
    · rw [h0]
  · intro e'; rw [putTr_tr]; split
    · rename_i h; rw [h, h2]
    · rw [h0]

/-- In the abstract state a warm slot keeps a warm address. -/
theorem warm_step {s s' : EState} {e : Nat} {op : StateOp} (h : s.step e op = some s')
    (hw : ∀ e b k, (s.tr e).warmSlot b k = true → (s.tr e).warmAddr b = true) :
    ∀ e' b k, (s'.tr e').warmSlot b k = true → (s'.tr e').warmAddr b = true := by
  cases op with
  | addBalance a n =>
    simp only [EState.step] at h; split at h
    · simp only [Option.some.injEq] at h; subst h; exact hw
    · simp at h
  | subBalance a n =>
    simp only [EState.step] at h; split at h
    · simp only [Option.some.injEq] at h; subst h; exact hw
    · simp at h
  | addRefund g =>
    simp only [EState.step, Option.map_eq_some_iff] at h
    obtain ⟨r, _, rfl⟩ := h; exact putTr_warm rfl rfl rfl hw
  | subRefund g =>
    simp only [EState.step, Option.bind_eq_some_iff] at h
    obtain ⟨r, _, h⟩ := h
    split at h
    · simp only [Option.some.injEq] at h; subst h; exact putTr_warm rfl rfl rfl hw
    · simp at h
  | addAddress a =>
    simp only [EState.step, Option.some.injEq] at h; subst h
    intro e' b k
    rw [putTr_tr]; split
    · intro h; simp only [Bool.or_eq_true, decide_eq_true_eq]; exact Or.inr (hw e b k h)
    · exact hw e' b k
  | addSlot a t =>
    simp only [EState.step, Option.some.injEq] at h; subst h
    intro e' b k
    rw [putTr_tr]; split
    · simp only [Bool.or_eq_true, decide_eq_true_eq, Bool.and_eq_true]
      rintro (h | h)
      · exact Or.inl h.1
      · exact Or.inr (hw e b k h)
    · exact hw e' b k
  | createAccount a => simp only [EState.step, Option.some.injEq] at h; subst h; exact hw
  | createContract a =>
    simp only [EState.step] at h; split at h
    · simp only [Option.some.injEq] at h; subst h; exact putTr_warm rfl rfl rfl hw
    · simp at h
  | setCode a c =>
    simp only [EState.step] at h
    split at h
    · simp only [Option.some.injEq] at h; subst h; exact hw
    · simp only [Option.some.injEq] at h; subst h; exact hw
    · split at h
      · simp only [Option.some.injEq] at h; subst h; exact hw
      · simp at h
    · simp at h
  | setNonce a n => simp only [EState.step, Option.some.injEq] at h; subst h; exact hw
  | setState a k v => simp only [EState.step, Option.some.injEq] at h; subst h; exact hw
  | setTransientState a k v =>
    simp only [EState.step, Option.some.injEq] at h; subst h; exact putTr_warm rfl rfl rfl hw
  | selfDestruct a =>
    simp only [EState.step] at h; split at h
    · simp only [Option.some.injEq] at h; subst h; exact putTr_warm rfl rfl rfl hw
    · simp only [Option.some.injEq] at h; subst h; exact hw
  | selfDestruct6780 a =>
    simp only [EState.step] at h; split at h
    · simp only [Option.some.injEq] at h; subst h; exact putTr_warm rfl rfl rfl hw
    · simp only [Option.some.injEq] at h; subst h; exact hw
  | addLog l =>
    simp only [EState.step, Option.map_eq_some_iff] at h
    obtain ⟨r, _, rfl⟩ := h; exact putTr_warm rfl rfl rfl hw

/-- Reachable states stay good. -/
theorem step_Good {w w' : World} (hg : Good keccak w) {e : Nat} {op : StateOp}
    (h : w.step keccak e op = some w') : Good keccak w' := by
  have hf := step_frame keccak h
  have hvm := step_vm keccak h
  have hlk : ∀ c, HashLen (keccak c).bytes := fun c => Or.inr (keccak c).len
  have hne : ∀ c, (keccak c).bytes ≠ [] := by
    intro c hc; have := (keccak c).len; rw [hc] at this; simp at this
  -- the code entries that a contract account refers to survive every store write
  have keepCode : ∀ (b : Addr) (c' : Bytes), w.vm (codeKey b (keccak c').bytes) = some c' →
      w.vm (codeSizeKey b (keccak c').bytes) = some (uint64ToBytes c'.length) →
      ∃ c'', (keccak c'').bytes = (keccak c').bytes ∧ w'.vm (codeKey b (keccak c').bytes) = some c'' ∧
        w'.vm (codeSizeKey b (keccak c').bytes) = some (uint64ToBytes c''.length) := by
    intro b c' h1 h2
    rcases hvm with ⟨a, s, v, _, hv⟩ | ⟨a, c, _, hv⟩ | hv
    · refine ⟨c', rfl, ?_, ?_⟩
      · rw [hv, upd, if_neg (codeKey_ne_stateKey b a s (hlk c')), h1]
      · rw [hv, upd, if_neg (codeSizeKey_ne_stateKey b a s (hlk c')), h2]
    · by_cases hc : a = b ∧ (keccak c).bytes = (keccak c').bytes
      · refine ⟨c, hc.2, ?_, ?_⟩
        · rw [hv, ← hc.1, ← hc.2]
          simp only [upd]
          rw [if_neg (codeKey_ne_codeSizeKey a a (hlk c) (hlk c)), if_pos trivial]
        · rw [hv, ← hc.1, ← hc.2]; simp only [upd, if_pos]
      · refine ⟨c', rfl, ?_, ?_⟩
        · rw [hv]; simp only [upd]
          rw [if_neg (codeKey_ne_codeSizeKey b a (hlk c') (hlk c)),
            if_neg (fun he => hc ⟨(codeKey_inj he).1.symm, (codeKey_inj he).2.symm⟩), h1]
        · rw [hv]; simp only [upd]
          rw [if_neg (fun he => hc ⟨(codeSizeKey_inj he).1.symm, (codeSizeKey_inj he).2.symm⟩),
            if_neg (fun he => codeKey_ne_codeSizeKey a b (hlk c) (hlk c') he.symm), h2]
    · exact ⟨c', rfl, by rw [hv, h1], by rw [hv, h2]⟩
  have old : ∀ b x g, w.acct b = some x → x.kind = .contract g → g = [] ∨
      ∃ c, g = (keccak c).bytes ∧ w'.vm (codeKey b g) = some c ∧
        w'.vm (codeSizeKey b g) = some (uint64ToBytes c.length) := by
    intro b x g hx hk
    rcases hg.code b x g hx hk with h' | ⟨c', rfl, h1, h2⟩
    · exact Or.inl h'
    · obtain ⟨c'', h3, h4, h5⟩ := keepCode b c' h1 h2
      exact Or.inr ⟨c'', h3.symm, h4, h5⟩
  refine ⟨?_, ?_, ?_⟩
  · intro b x g hx hk
    cases op with
    | createAccount a =>
      by_cases hb : b = a
      · simp only [World.step, World.createAccount, World.newAccount, Option.some.injEq] at h; subst h
        simp only [upd, if_pos hb, Option.some.injEq] at hx; subst hx; simp at hk
      · rw [hf.acct b (by simp; exact fun h => hb h.symm) (by simp) (by simp) (by simp)] at hx
        exact old b x g hx hk
    | createContract a =>
      by_cases hb : b = a
      · have : ∃ n, w'.acct b = some (newContractAccount n) := by
          simp only [World.step, World.createContract] at h
          split at h
          · split at h
            · simp only [Option.some.injEq] at h; subst h; simp only [upd, if_pos hb]; exact ⟨_, rfl⟩
            · simp at h
          · simp only [Option.some.injEq] at h; subst h; simp only [upd, if_pos hb]; exact ⟨_, rfl⟩
        obtain ⟨n, hn⟩ := this
        rw [hn] at hx; simp only [Option.some.injEq] at hx; subst hx
        simp [newContractAccount] at hk; exact Or.inl hk
      · rw [hf.acct b (by simp) (by simp; exact fun h => hb h.symm) (by simp) (by simp)] at hx
        exact old b x g hx hk
    | setCode a c =>
      by_cases hb : b = a
      · subst hb
        simp only [World.step, World.setCode] at h
        rw [getOrNew_frame] at h
        split at h
        · simp only [Option.some.injEq] at h; subst h
          simp only [upd, if_pos, Option.some.injEq] at hx; subst hx
          simp only [Kind.contract.injEq] at hk; subst hk
          refine Or.inr ⟨c, rfl, ?_, ?_⟩
          · simp only [upd]
            rw [if_neg (codeKey_ne_codeSizeKey b b (hlk c) (hlk c)), if_pos trivial]
          · simp only [upd, if_pos]
        · simp at h
      · rw [hf.acct b (by simp) (by simp) (by intro c; simp; exact fun h _ => hb h.symm) (by simp)] at hx
        exact old b x g hx hk
    | setNonce a n =>
      by_cases hb : b = a
      · subst hb
        simp only [World.step, World.setNonce, Option.some.injEq] at h
        have hx' : w'.acct b = some { (w.getOrNew b).2 with seq := n } := by
          rw [← h]; simp [upd]
        rw [hx'] at hx; simp only [Option.some.injEq] at hx; subst hx
        cases hw : w.acct b with
        | none => simp [World.getOrNew, hw, World.newAccount] at hk
        | some y =>
          simp only [World.getOrNew, hw] at hk
          exact old b y g hw hk
      · rw [hf.acct b (by simp) (by simp) (by simp) (by intro c; simp; exact fun h _ => hb h.symm)] at hx
        exact old b x g hx hk
    | _ =>
      rw [hf.acct b (by simp) (by simp) (by simp) (by simp)] at hx
      exact old b x g hx hk
  · intro b
    have h0 := hg.nohash b
    have hl0 : HashLen [] := Or.inl rfl
    rcases hvm with ⟨a, s, v, _, hv⟩ | ⟨a, c, _, hv⟩ | hv
    · rw [hv]; simp only [upd]
      rw [if_neg (codeKey_ne_stateKey b a s hl0), if_neg (codeSizeKey_ne_stateKey b a s hl0)]
      exact h0
    · rw [hv]; simp only [upd]
      rw [if_neg (codeKey_ne_codeSizeKey b a hl0 (hlk c)),
        if_neg (fun he => hne c (codeKey_inj he).2.symm),
        if_neg (fun he => hne c (codeSizeKey_inj he).2.symm),
        if_neg (fun he => codeKey_ne_codeSizeKey a b (hlk c) hl0 he.symm)]
      exact h0
    · rw [hv]; exact h0
  · intro e' b k hs
    have hstep := step_abs keccak hg e op
    rw [h] at hstep
    simp only [Option.map_some] at hstep
    have h1 : w'.access e' b.bytes = ((abs w').tr e').warmAddr b := rfl
    have h2 : w'.access e' (b.bytes ++ k.bytes) = ((abs w').tr e').warmSlot b k := rfl
    rw [h2] at hs
    rw [h1]
    exact warm_step hstep.symm hg.warm e' b k hs

theorem newStateDB_abs (w : World) (e : Nat) : abs (w.newStateDB e) = (abs w).start e := by
  ext e' <;> try rfl
  all_goals
    simp only [abs, EState.start, EState.putTr, World.newStateDB, upd]
    by_cases h : e' = e <;> simp [h, World.getLogs, upd]

theorem newStateDB_Good {w : World} (hg : Good keccak w) (e : Nat) : Good keccak (w.newStateDB e) :=
  ⟨hg.code, hg.nohash, hg.warm⟩

theorem commit_vm (w : World) (e : Nat) (a : Addr) (x : Bytes) :
    (w.commitDestructs e).vm (a.bytes ++ x) = if w.destructed e a then none else w.vm (a.bytes ++ x) := by
  simp only [World.commitDestructs, keyAddr_append]

theorem commit_abs (w : World) (e : Nat) : abs (w.commitDestructs e) = (abs w).commit e := by
  have hd : ((abs w).tr e).destroyed = w.destructed e := rfl
  apply EState.ext
  · funext b
    simp only [EState.commit, hd]
    simp only [abs]
    by_cases hb : w.destructed e b = true
    · simp [World.commitDestructs, hb]
    · rw [if_neg hb]
      have h1 : (w.commitDestructs e).acct b = w.acct b := by simp [World.commitDestructs, hb]
      rw [h1]
      cases w.acct b with
      | none => rfl
      | some x =>
        simp only [Option.map_some]
        cases x.kind with
        | contract h =>
          simp only [absRole, codeKey, commit_vm, if_neg hb]
        | _ => rfl
  · rfl
  · funext b k
    simp only [EState.commit, abs, stateKey, commit_vm]
    by_cases hb : w.destructed e b = true
    · simp [hb]
    · simp [hb]
  · rfl

theorem commit_Good {w : World} (hg : Good keccak w) (e : Nat) : Good keccak (w.commitDestructs e) := by
  refine ⟨?_, ?_, hg.warm⟩
  · intro a x h hx hk
    have hd : ¬ w.destructed e a = true := by
      intro hd; simp [World.commitDestructs, hd] at hx
    have hx' : w.acct a = some x := by
      simpa [World.commitDestructs, hd] using hx
    rcases hg.code a x h hx' hk with h' | ⟨c, h', h1, h2⟩
    · exact Or.inl h'
    · refine Or.inr ⟨c, h', ?_, ?_⟩
      · simp only [codeKey, commit_vm, if_neg hd]; exact h1
      · simp only [codeSizeKey, commit_vm, if_neg hd]; exact h2
  · intro a
    obtain ⟨h1, h2⟩ := hg.nohash a
    constructor
    · simp only [codeKey, commit_vm]; split
      · rfl
      · exact h1
    · simp only [codeSizeKey, commit_vm]; split
      · rfl
      · exact h2

end Verif.Eth
