import Verif.Props.World
/-
C09 (preparation), C10 (contract creation), C54 (isolation of executions).
-/
namespace Verif.Props.World
open Verif Verif.World Verif.World.Spec

variable (keccak : Bytes → Hash)

/-! ### C09: preparation -/

/-- The accesses made by `Prepare`, as operations. -/
def prepareOps (e : Nat) (isBerlin isShanghai : Bool) (sender coinbase : Addr) (dst : Option Addr)
    (precompiles : List Addr) (list : List AccessTuple) : List (Nat × StateOp) :=
  if isBerlin then
    [(e, StateOp.addAddress sender)] ++ (dst.toList.map fun d => (e, StateOp.addAddress d)) ++
    (precompiles.map fun a => (e, StateOp.addAddress a)) ++
    (list.flatMap fun t => (e, StateOp.addAddress t.addr) :: t.keys.map fun k => (e, StateOp.addSlot t.addr k)) ++
    (if isShanghai then [(e, StateOp.addAddress coinbase)] else [])
  else []

theorem run_append (xs ys : List (Nat × StateOp)) (w : World) :
    w.run keccak (xs ++ ys) = (w.run keccak xs).bind fun w' => w'.run keccak ys := by
  induction xs generalizing w with
  | nil => rfl
  | cons x xs ih =>
    obtain ⟨e, op⟩ := x
    simp only [List.cons_append, World.run]
    cases w.step keccak e op with
    | none => rfl
    | some w' => exact ih w'

theorem run_addAddresses (e : Nat) (l : List Addr) (w : World) :
    w.run keccak (l.map fun a => (e, StateOp.addAddress a)) = some (l.foldl (fun w a => w.addAddress e a) w) := by
  induction l generalizing w with
  | nil => rfl
  | cons a l ih => simp only [List.map_cons, World.run, World.step, List.foldl_cons]; exact ih _

theorem run_addSlots (e : Nat) (a : Addr) (l : List Hash) (w : World) :
    w.run keccak (l.map fun k => (e, StateOp.addSlot a k)) = some (l.foldl (fun w k => w.addSlot e a k) w) := by
  induction l generalizing w with
  | nil => rfl
  | cons k l ih => simp only [List.map_cons, World.run, World.step, List.foldl_cons]; exact ih _

theorem run_tuples (e : Nat) (l : List AccessTuple) (w : World) :
    w.run keccak (l.flatMap fun t => (e, StateOp.addAddress t.addr) :: t.keys.map fun k => (e, StateOp.addSlot t.addr k))
      = some (l.foldl (fun w t => w.addTuple e t) w) := by
  induction l generalizing w with
  | nil => rfl
  | cons t l ih =>
    simp only [List.flatMap_cons, List.foldl_cons]
    rw [run_append]
    simp only [World.run, World.step, run_addSlots, Option.bind_some]
    exact ih _

theorem run_prepare (w : World) (e : Nat) (isBerlin isShanghai : Bool) (sender coinbase : Addr)
    (dst : Option Addr) (precompiles : List Addr) (list : List AccessTuple) :
    w.run keccak (prepareOps e isBerlin isShanghai sender coinbase dst precompiles list) =
      some (w.prepare e isBerlin isShanghai sender coinbase dst precompiles list) := by
  unfold prepareOps World.prepare
  cases isBerlin with
  | false => rfl
  | true =>
    simp only [if_true]
    rw [run_append, run_append, run_append, run_append]
    simp only [World.run, World.step, Option.bind_some]
    have : (w.addAddress e sender).run keccak (dst.toList.map fun d => (e, StateOp.addAddress d)) =
        some (match dst with | some d => (w.addAddress e sender).addAddress e d | none => w.addAddress e sender) := by
      cases dst <;> rfl
    rw [this]
    simp only [Option.bind_some]
    rw [run_addAddresses]
    simp only [Option.bind_some]
    rw [run_tuples]
    simp only [Option.bind_some]
    cases isShanghai <;> rfl

/-- C09: starting from an execution with nothing warm, after preparation under Berlin and Shanghai rules
an address is warm iff it is the sender, the destination, a precompile, listed, or the coinbase; a slot is
warm iff it is listed under its address. -/
theorem C09_prepare (w : World) (e : Nat) (sender coinbase : Addr) (dst : Option Addr)
    (precompiles : List Addr) (list : List AccessTuple) (hclean : ∀ k, w.access e k = false)
    (a : Addr) (s : Hash) :
    ((w.prepare e true true sender coinbase dst precompiles list).addressInAccessList e a = true ↔
      a = sender ∨ dst = some a ∨ a ∈ precompiles ∨ (∃ t ∈ list, t.addr = a) ∨ a = coinbase) ∧
    (((w.prepare e true true sender coinbase dst precompiles list).slotInAccessList e a s).2 = true ↔
      ∃ t ∈ list, t.addr = a ∧ s ∈ t.keys) := by
  have hrun := run_prepare (fun _ => Hash.zero) w e true true sender coinbase dst precompiles list
  obtain ⟨h1, h2⟩ := C09_access_exact (fun _ => Hash.zero) _ _ _ e hrun a s
  have hw : w.addressInAccessList e a = false := hclean _
  have haddr : accessedAddr e a (prepareOps e true true sender coinbase dst precompiles list) ↔
      a = sender ∨ dst = some a ∨ a ∈ precompiles ∨ (∃ t ∈ list, t.addr = a) ∨ a = coinbase := by
    simp only [accessedAddr, prepareOps, if_true, List.mem_append, List.mem_map, List.mem_flatMap,
      List.mem_cons, List.not_mem_nil, Prod.mk.injEq, StateOp.addAddress.injEq, StateOp.addSlot.injEq,
      Option.mem_toList, true_and, or_false, reduceCtorEq, and_false, exists_false, false_or]
    constructor
    · rintro (((((h | ⟨d, h, rfl⟩) | ⟨b, h, rfl⟩) | ⟨t, h, h3⟩) | h) | ⟨s', t, h, k, hk, h5, _⟩)
      · exact Or.inl h
      · exact Or.inr (Or.inl h)
      · exact Or.inr (Or.inr (Or.inl h))
      · exact Or.inr (Or.inr (Or.inr (Or.inl ⟨t, h, by simpa using h3.symm⟩)))
      · right; right; right; right; exact h
      · right; right; right; left; exact ⟨t, h, h5⟩
    · rintro (h | h | h | ⟨t, h, rfl⟩ | h)
      · left; left; left; left; left; exact h
      · left; left; left; left; right; exact ⟨a, h, rfl⟩
      · left; left; left; right; exact ⟨a, h, rfl⟩
      · left; left; right; exact ⟨t, h, by simp⟩
      · left; right; exact h
  have hslot : accessedSlot e a s (prepareOps e true true sender coinbase dst precompiles list) ↔
      ∃ t ∈ list, t.addr = a ∧ s ∈ t.keys := by
    simp only [accessedSlot, prepareOps, if_true, List.mem_append, List.mem_map, List.mem_flatMap,
      List.mem_cons, List.not_mem_nil, Prod.mk.injEq, StateOp.addSlot.injEq, true_and, or_false,
      reduceCtorEq, and_false, exists_false, false_or]
    constructor
    · rintro ⟨t, h, k, hk, h3, h4⟩; exact ⟨t, h, h3, by rw [← h4]; exact hk⟩
    · rintro ⟨t, h, h3, hk⟩; exact ⟨t, h, s, hk, h3, rfl⟩
  constructor
  · rw [h1, hw, haddr]; simp
  · rw [hclean] at h2
    rw [hslot] at h2; simp only [Bool.false_eq_true, false_or] at h2
    unfold World.slotInAccessList
    split
    · rename_i h0
      simp only [Bool.false_eq_true, false_iff]
      rintro ⟨t, ht, h3, hk⟩
      have : (w.prepare e true true sender coinbase dst precompiles list).addressInAccessList e a = true := by
        rw [h1, haddr]; exact Or.inr (Or.inr (Or.inr (Or.inr (Or.inl ⟨t, ht, h3⟩))))
      simp only [World.addressInAccessList] at this
      rw [h0] at this; simp at this
    · exact h2

example : ((emptyWorld.newStateDB 1).prepare 1 true true (Addr.ofNat 5) (Addr.ofNat 9) none [Addr.ofNat 1]
    [⟨Addr.ofNat 7, [Hash.ofNat 3]⟩]).slotInAccessList 1 (Addr.ofNat 7) (Hash.ofNat 3) = (true, true) ∧
    ((emptyWorld.newStateDB 1).prepare 1 true true (Addr.ofNat 5) (Addr.ofNat 9) none [Addr.ofNat 1]
    [⟨Addr.ofNat 7, [Hash.ofNat 3]⟩]).addressInAccessList 1 (Addr.ofNat 8) = false := by decide

/-- C09: a warm slot always belongs to a warm address (and reports it). -/
theorem C09_slot_implies_address (ops : List (Nat × StateOp)) (w w' : World) (e : Nat)
    (h : w.run keccak ops = some w') (a : Addr) (s : Hash)
    (hs : accessedSlot e a s ops) : w'.slotInAccessList e a s = (true, true) := by
  obtain ⟨h1, h2⟩ := C09_access_exact keccak ops w w' e h a s
  have ha : w'.addressInAccessList e a = true := h1.mpr (Or.inr (Or.inr ⟨s, hs⟩))
  simp only [World.addressInAccessList] at ha
  simp only [World.slotInAccessList, ha, h2.mpr (Or.inr hs), Bool.true_eq_false, if_false]

example : accessedSlot 1 (Addr.ofNat 3) (Hash.ofNat 4) [(1, .addSlot (Addr.ofNat 3) (Hash.ofNat 4))] := by
  simp [accessedSlot]

/-! ### C10: contract creation -/

/-- C10: creating a contract succeeds exactly when there is no account at the address, or a plain one
with no public key and sequence 0; a pre-existing account keeps its number, a new one gets the next
number; every other account is untouched. -/
theorem C10_create (w : World) (e : Nat) (a : Addr) :
    ((w.createContract e a).isSome ↔ w.acct a = none ∨
      ∃ n, w.acct a = some { kind := .base, num := n, seq := 0, pubKey := none }) ∧
    (∀ w', w.createContract e a = some w' →
      (∃ num, w'.acct a = some { kind := .contract [], num := num, seq := 0, pubKey := none } ∧
        num = (match w.acct a with | some acc => acc.num | none => w.nextNum)) ∧
      (∀ b, b ≠ a → w'.acct b = w.acct b) ∧ w'.created e a = true) := by
  unfold World.createContract
  constructor
  · cases hacc : w.acct a with
    | none => simp [hacc]
    | some acc =>
      obtain ⟨k, n, q, p⟩ := acc
      simp only [hacc, reduceCtorEq, Option.some.injEq, Account.mk.injEq, false_or]
      cases k <;> cases p <;> simp [Account.isEmpty] <;> split <;> simp_all
  · intro w' h
    cases hacc : w.acct a with
    | none =>
      simp only [hacc, Option.some.injEq] at h; subst h
      refine ⟨⟨_, by simp [upd, newContractAccount], rfl⟩, ?_, by simp [upd2]⟩
      intro b hb; simp [upd, hb]
    | some acc =>
      simp only [hacc] at h
      split at h
      · simp only [Option.some.injEq] at h; subst h
        refine ⟨⟨_, by simp [upd, newContractAccount], rfl⟩, ?_, by simp [upd2]⟩
        intro b hb; simp [upd, hb]
      · simp at h

example : ∃ w', emptyWorld.run toyKeccak
    [(1, .createAccount (Addr.ofNat 3)), (1, .createContract (Addr.ofNat 3))] = some w' ∧
    (w'.acct (Addr.ofNat 3)).map (·.num) = some 0 := by refine ⟨_, rfl, ?_⟩; decide
example : emptyWorld.run toyKeccak
    [(1, .setNonce (Addr.ofNat 3) 1), (1, .createContract (Addr.ofNat 3))] = none := by decide

theorem step_acct_num {e : Nat} {op : StateOp} {w w' : World} (h : w.step keccak e op = some w') :
    w.nextNum ≤ w'.nextNum ∧ (w'.acct = w.acct ∨ ∃ a acc, w'.acct = upd w.acct a (some acc) ∧
      ((∃ old, w.acct a = some old ∧ old.num = acc.num) ∨ (acc.num = w.nextNum ∧ w'.nextNum = w.nextNum + 1))) := by
  cases op with
  | addBalance a n =>
    simp only [World.step, World.addBalance] at h
    split at h
    · simp at h; subst h; exact ⟨Nat.le_refl _, Or.inl rfl⟩
    · split at h
      · simp at h; subst h; exact ⟨Nat.le_refl _, Or.inl rfl⟩
      · simp at h
  | subBalance a n => simp only [World.step] at h; obtain ⟨_, rfl⟩ := subBalance_eq h; exact ⟨Nat.le_refl _, Or.inl rfl⟩
  | addRefund g =>
    simp only [World.step, World.addRefund] at h
    split at h
    · simp at h
    · simp at h; subst h; exact ⟨Nat.le_refl _, Or.inl rfl⟩
  | subRefund g =>
    simp only [World.step, World.subRefund] at h
    split at h
    · simp at h
    · split at h
      · simp at h
      · simp at h; subst h; exact ⟨Nat.le_refl _, Or.inl rfl⟩
  | addAddress a => simp only [World.step, Option.some.injEq] at h; subst h; exact ⟨Nat.le_refl _, Or.inl rfl⟩
  | addSlot a s =>
    simp only [World.step, World.addSlot, Option.some.injEq] at h; subst h
    split <;> exact ⟨Nat.le_refl _, Or.inl rfl⟩
  | createAccount a =>
    simp only [World.step, World.createAccount, World.newAccount, Option.some.injEq] at h; subst h
    exact ⟨Nat.le_succ _, Or.inr ⟨a, _, rfl, Or.inr ⟨rfl, rfl⟩⟩⟩
  | createContract a =>
    simp only [World.step, World.createContract] at h
    cases hacc : w.acct a with
    | none =>
      simp only [hacc, Option.some.injEq] at h; subst h
      exact ⟨Nat.le_succ _, Or.inr ⟨a, _, rfl, Or.inr ⟨rfl, rfl⟩⟩⟩
    | some acc =>
      simp only [hacc] at h
      split at h
      · simp only [Option.some.injEq] at h; subst h
        exact ⟨Nat.le_refl _, Or.inr ⟨a, _, rfl, Or.inl ⟨acc, hacc, rfl⟩⟩⟩
      · simp at h
  | setCode a c =>
    simp only [World.step, World.setCode, World.getOrNew] at h
    cases hacc : w.acct a with
    | none =>
      simp only [hacc, World.newAccount] at h
      split at h
      · simp only [Option.some.injEq] at h; subst h
        exact ⟨Nat.le_succ _, Or.inr ⟨a, _, rfl, Or.inr ⟨by simp [Account.isEmpty, newContractAccount], rfl⟩⟩⟩
      · simp at h
    | some acc =>
      simp only [hacc] at h
      split at h
      · simp only [Option.some.injEq] at h; subst h
        refine ⟨Nat.le_refl _, Or.inr ⟨a, _, rfl, Or.inl ⟨acc, hacc, ?_⟩⟩⟩
        simp only; split <;> rfl
      · simp at h
  | setNonce a n =>
    simp only [World.step, World.setNonce, World.getOrNew, Option.some.injEq] at h
    cases hacc : w.acct a with
    | none =>
      simp only [hacc, World.newAccount] at h; subst h
      exact ⟨Nat.le_succ _, Or.inr ⟨a, _, rfl, Or.inr ⟨rfl, rfl⟩⟩⟩
    | some acc =>
      simp only [hacc] at h; subst h
      exact ⟨Nat.le_refl _, Or.inr ⟨a, _, rfl, Or.inl ⟨acc, hacc, rfl⟩⟩⟩
  | setState a s v => simp only [World.step, Option.some.injEq] at h; subst h; exact ⟨Nat.le_refl _, Or.inl rfl⟩
  | setTransientState a k v =>
    simp only [World.step, World.setTransientState, Option.some.injEq] at h
    split at h <;> subst h <;> exact ⟨Nat.le_refl _, Or.inl rfl⟩
  | selfDestruct a =>
    simp only [World.step] at h; obtain ⟨_, _, rfl, _⟩ := selfDestruct_eq h; exact ⟨Nat.le_refl _, Or.inl rfl⟩
  | selfDestruct6780 a =>
    simp only [World.step] at h; obtain ⟨_, _, rfl, _⟩ := selfDestruct6780_eq h; exact ⟨Nat.le_refl _, Or.inl rfl⟩
  | addLog l =>
    simp only [World.step, World.addLog] at h
    split at h
    · simp at h
    · simp only [Option.some.injEq] at h; subst h; exact ⟨Nat.le_refl _, Or.inl rfl⟩

/-- C10: over any history of operations, no two addresses ever share an account number. -/
theorem C10_numbers_unique (ops : List (Nat × StateOp)) (w w' : World) (hw : NumsUnique w)
    (h : w.run keccak ops = some w') : NumsUnique w' := by
  induction ops generalizing w with
  | nil => simp only [World.run, Option.some.injEq] at h; subst h; exact hw
  | cons x ops ih =>
    obtain ⟨e, op⟩ := x
    simp only [World.run] at h
    split at h
    · simp at h
    · rename_i w1 h1
      refine ih w1 ?_ h
      obtain ⟨hle, hcase⟩ := step_acct_num keccak h1
      rcases hcase with heq | ⟨a, acc, heq, hnum⟩
      · refine ⟨?_, ?_⟩
        · intro b x hx; rw [heq] at hx; exact Nat.lt_of_lt_of_le (hw.lt b x hx) hle
        · intro b c x y hx hy hxy; rw [heq] at hx hy; exact hw.inj b c x y hx hy hxy
      · have hlt : ∀ b x, w1.acct b = some x → x.num < w1.nextNum := by
          intro b x hx
          rw [heq] at hx; simp only [upd] at hx
          split at hx
          · simp only [Option.some.injEq] at hx; subst hx
            rcases hnum with ⟨old, ho, hn⟩ | ⟨hn, hn2⟩
            · rw [← hn]; exact Nat.lt_of_lt_of_le (hw.lt a old ho) hle
            · omega
          · exact Nat.lt_of_lt_of_le (hw.lt b x hx) hle
        refine ⟨hlt, ?_⟩
        have aux : ∀ c y, c ≠ a → w.acct c = some y → acc.num ≠ y.num := by
          intro c y hc hy hxy
          rcases hnum with ⟨old, ho, hn⟩ | ⟨hn, _⟩
          · exact hc (hw.inj c a y old hy ho (by omega))
          · have := hw.lt c y hy; omega
        intro b c x y hx hy hxy
        rw [heq] at hx hy; simp only [upd] at hx hy
        split at hx
        · rename_i hb
          simp only [Option.some.injEq] at hx; subst hx
          split at hy
          · rename_i hc; rw [hb, hc]
          · rename_i hc; exact absurd hxy (aux c y hc hy)
        · rename_i hb
          split at hy
          · simp only [Option.some.injEq] at hy; subst hy
            exact absurd hxy.symm (aux b x hb hx)
          · exact hw.inj b c x y hx hy hxy

example : NumsUnique emptyWorld := ⟨by simp [emptyWorld], by simp [emptyWorld]⟩

/-! ### C54: executions do not see each other -/

/-- Everything an execution can read of its transient data. -/
structure SameTransient (w w' : World) (e : Nat) : Prop where
  tload : ∀ a k, w'.getTransientState e a k = w.getTransientState e a k
  created : ∀ a, w'.created e a = w.created e a
  destructed : ∀ a, w'.destructed e a = w.destructed e a
  logs : w'.getLogs e = w.getLogs e
  refund : w'.getRefund e = w.getRefund e
  warmAddr : ∀ a, w'.addressInAccessList e a = w.addressInAccessList e a
  warmSlot : ∀ a s, w'.slotInAccessList e a s = w.slotInAccessList e a s

theorem C54_step {e e' : Nat} {op : StateOp} {w w' : World} (he : e ≠ e')
    (h : w.step keccak e' op = some w') : SameTransient w w' e := by
  have hf := step_frame keccak h
  refine ⟨?_, ?_, ?_, ?_, ?_, ?_, ?_⟩
  · intro a k; simp only [World.getTransientState, hf.tstate e k (Or.inr he)]
  · intro a; exact hf.created e a (Or.inr he)
  · intro a; exact hf.destructed e a (Or.inr he)
  · have : w'.logs e = w.logs e := funext fun i => hf.logs e i (Or.inr he)
    simp only [World.getLogs, hf.logSize e (Or.inr he), this]
  · exact hf.refund e (Or.inr he)
  · intro a; exact hf.access e _ he
  · intro a s; simp only [World.slotInAccessList, hf.access e _ he]

/-- C54: whatever other executions do — including starting new (nested) ones — an execution's transient
storage, logs, refund counter, warm sets and created/destroyed marks stay exactly as it left them. -/
theorem C54_isolated (os : List BlockOp) (c c' : Nat) (w w' : World) (e : Nat) (he : e ≤ c)
    (hothers : ∀ op, BlockOp.perform e op ∉ os) (h : blockRun keccak (c, w) os = some (c', w')) :
    SameTransient w w' e := by
  induction os generalizing c w with
  | nil =>
    simp only [blockRun, Option.some.injEq, Prod.mk.injEq] at h; obtain ⟨_, rfl⟩ := h
    exact ⟨fun _ _ => rfl, fun _ => rfl, fun _ => rfl, rfl, rfl, fun _ => rfl, fun _ _ => rfl⟩
  | cons o os ih =>
    simp only [blockRun] at h
    cases hs : blockStep keccak (c, w) o with
    | none => simp [hs] at h
    | some s =>
      obtain ⟨c1, w1⟩ := s
      simp only [hs] at h
      have hrest : ∀ op, BlockOp.perform e op ∉ os := fun op hm => hothers op (by simp [hm])
      have h1 : e ≤ c1 ∧ SameTransient w w1 e := by
        cases o with
        | start =>
          simp only [blockStep, Option.some.injEq, Prod.mk.injEq] at hs
          obtain ⟨rfl, rfl⟩ := hs
          refine ⟨by omega, fun _ _ => rfl, fun _ => rfl, fun _ => rfl, ?_, ?_, fun _ => rfl, fun _ _ => rfl⟩
          · simp only [World.getLogs, World.newStateDB, upd]; rw [if_neg (by omega)]
          · simp only [World.getRefund, World.newStateDB, upd]; rw [if_neg (by omega)]
        | perform e' op =>
          simp only [blockStep] at hs
          split at hs
          · cases hst : w.step keccak e' op with
            | none => simp [hst] at hs
            | some w2 =>
              simp only [hst, Option.map_some, Option.some.injEq, Prod.mk.injEq] at hs
              obtain ⟨rfl, rfl⟩ := hs
              refine ⟨he, C54_step keccak ?_ hst⟩
              rintro rfl; exact hothers op (by simp)
          · simp at hs
      have h2 := ih c1 w1 h1.1 hrest h
      have h1 := h1.2
      exact ⟨fun a k => (h2.tload a k).trans (h1.tload a k), fun a => (h2.created a).trans (h1.created a),
        fun a => (h2.destructed a).trans (h1.destructed a), h2.logs.trans h1.logs, h2.refund.trans h1.refund,
        fun a => (h2.warmAddr a).trans (h1.warmAddr a), fun a s => (h2.warmSlot a s).trans (h1.warmSlot a s)⟩

/-- C54: in a block that starts with empty transient stores, every new execution starts with an index
not used before, nothing warm, no logs, no refund, zero transient storage and no marks. -/
theorem C54_fresh (os : List BlockOp) (w w' : World) (c c' : Nat) (hclean : ∀ e, c < e → Clean w e)
    (h : blockRun keccak (c, w) os = some (c', w')) :
    ∃ w'', blockStep keccak (c', w') .start = some (c' + 1, w'') ∧ Clean w'' (c' + 1) ∧
      w''.getLogs (c' + 1) = some [] ∧ w''.getRefund (c' + 1) = some 0 ∧
      (∀ a k, w''.getTransientState (c' + 1) a k = Hash.zero) ∧
      (∀ a, w''.addressInAccessList (c' + 1) a = false) := by
  have gen : ∀ (os : List BlockOp) (c : Nat) (w : World), (∀ e, c < e → Clean w e) →
      blockRun keccak (c, w) os = some (c', w') → ∀ e, c' < e → Clean w' e := by
    clear h hclean
    intro os
    induction os with
    | nil =>
      intro c w hc h
      simp only [blockRun, Option.some.injEq, Prod.mk.injEq] at h; obtain ⟨rfl, rfl⟩ := h; exact hc
    | cons o os ih =>
      intro c w hc h
      simp only [blockRun] at h
      cases hs : blockStep keccak (c, w) o with
      | none => simp [hs] at h
      | some s =>
        obtain ⟨c1, w1⟩ := s
        simp only [hs] at h
        refine ih c1 w1 ?_ h
        cases o with
        | start =>
          simp only [blockStep, Option.some.injEq, Prod.mk.injEq] at hs
          obtain ⟨rfl, rfl⟩ := hs
          intro e he
          have := hc e (by omega)
          exact ⟨this.tstate, this.created, this.destructed, this.logs, this.access⟩
        | perform e' op =>
          simp only [blockStep] at hs
          split at hs
          · rename_i hle
            cases hst : w.step keccak e' op with
            | none => simp [hst] at hs
            | some w2 =>
              simp only [hst, Option.map_some, Option.some.injEq, Prod.mk.injEq] at hs
              obtain ⟨rfl, rfl⟩ := hs
              intro e he
              have hx := hc e he
              have hne : e ≠ e' := by omega
              have hf := step_frame keccak hst
              exact ⟨fun k => by rw [hf.tstate e k (Or.inr hne)]; exact hx.tstate k,
                fun a => by rw [hf.created e a (Or.inr hne)]; exact hx.created a,
                fun a => by rw [hf.destructed e a (Or.inr hne)]; exact hx.destructed a,
                fun i => by rw [hf.logs e i (Or.inr hne)]; exact hx.logs i,
                fun k => by rw [hf.access e k hne]; exact hx.access k⟩
          · simp at hs
  have hx := gen os c w hclean h (c' + 1) (by omega)
  refine ⟨_, rfl, ⟨hx.tstate, hx.created, hx.destructed, hx.logs, hx.access⟩, ?_, ?_, ?_, ?_⟩
  · simp [World.getLogs, World.newStateDB, upd]
  · simp [World.getRefund, World.newStateDB, upd]
  · intro a k
    have : (w'.newStateDB (c' + 1)).tstate (c' + 1) k = none := hx.tstate k
    simp [World.getTransientState, this]
  · intro a; exact hx.access _

example : (∀ e, 0 < e → Clean emptyWorld e) ∧ ∃ w', blockRun toyKeccak (0, emptyWorld)
    [.start, .perform 1 (.addLog ⟨Addr.ofNat 1, [], [1]⟩), .start,
     .perform 2 (.addRefund 7), .perform 1 (.setTransientState (Addr.ofNat 1) (Hash.ofNat 1) (Hash.ofNat 1))]
      = some (2, w') := by
  refine ⟨fun e _ => ⟨by simp [emptyWorld], by simp [emptyWorld], by simp [emptyWorld], by simp [emptyWorld],
    by simp [emptyWorld]⟩, _, rfl⟩

end Verif.Props.World
