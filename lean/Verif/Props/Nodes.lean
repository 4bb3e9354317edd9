import Verif.Model.Nodes
import Verif.Props.World
/-
C162: all nodes compute the same state, whatever else they do.
-/
namespace Verif.Props.Nodes
open Verif Verif.World Verif.Nodes

variable (keccak : Bytes → Hash)

/-! ### Reading through an index -/

/-- **C162** (what is read). Everything an execution reads under its own index it would read, the same, in the named state. -/
theorem C162_reads (idx : List Nat) (w : World) (i e : Nat) (h : idx[i]? = some e) :
    (∀ a k, (named idx w).getTransientState i a k = w.getTransientState e a k) ∧
    (named idx w).getLogs i = w.getLogs e ∧
    (named idx w).getRefund i = w.getRefund e ∧
    (∀ a, (named idx w).addressInAccessList i a = w.addressInAccessList e a) ∧
    (∀ a s, (named idx w).slotInAccessList i a s = w.slotInAccessList e a s) ∧
    (∀ a, (named idx w).hasSelfDestructed i a = w.hasSelfDestructed e a) ∧
    (∀ a, (named idx w).created i a = w.created e a) ∧
    (∀ a s, (named idx w).getState a s = w.getState a s) ∧
    (∀ a, (named idx w).getCode a = w.getCode a) ∧
    (∀ a, (named idx w).getNonce a = w.getNonce a) ∧
    (∀ a, (named idx w).getBalance a = w.getBalance a) := by
  refine ⟨fun a k => ?_, ?_, ?_, fun a => ?_, fun a s => ?_, fun a => ?_, fun a => ?_, fun a s => rfl, fun a => rfl, fun a => rfl,
    fun a => rfl⟩
  all_goals simp [World.getTransientState, World.getLogs, World.getRefund, World.addressInAccessList, World.slotInAccessList,
    World.hasSelfDestructed, named, h]

/-! ### The reference: executions numbered by their position in the block, nothing else -/

/-- One operation. -/
def refAct (v : Seen) : Act → Option Seen
  | .start => some { v with w := v.w.newStateDB v.started, started := v.started + 1 }
  | .perform i op => if i < v.started then (v.w.step keccak i op).map fun w => { v with w := w } else none
  | .finish i => if i < v.started then some { v with w := v.w.commitDestructs i } else none
  | .keep => some { v with kept := v.kept ++ [v.w] }
  | .back j => (v.kept[j]?).map fun w => { v with w := w, kept := v.kept.take j }

/-- One step of a block. -/
def refStep (prog : Program) (v : Seen) : Seen :=
  match refAct keccak v (prog v) with
  | some v' => { v' with failed := false }
  | none => { v with failed := true }

/-- `n` steps. -/
def refSteps (prog : Program) : Nat → Seen → Seen
  | 0, v => v
  | n + 1, v => refSteps prog n (refStep keccak prog v)

/-- The start of a block. -/
def refBegin (d : Store) : Seen := ⟨d.world, [], 0, false⟩

/-- A chain: a function of the blocks alone. -/
def refChain : Store → List Block → List (Store × Seen)
  | _, [] => []
  | d, b :: rest =>
    let v := refSteps keccak b.prog b.len (refBegin d)
    (v.w.store, v) :: refChain v.w.store rest

/-! ### Naming commutes with the operations -/

/-- Nothing is stored under the index. -/
structure Blank (w : World) (e : Nat) : Prop where
  tstate : ∀ k, w.tstate e k = none
  created : ∀ a, w.created e a = false
  destructed : ∀ a, w.destructed e a = false
  logs : ∀ n, w.logs e n = none
  logSize : w.logSize e = none
  access : ∀ b, w.access e b = false
  refund : w.refund e = none

variable {idx : List Nat} {w : World} {i e : Nat}

theorem idx_iff (hn : idx.Nodup) (h : idx[i]? = some e) {j e' : Nat} (h' : idx[j]? = some e') : e' = e ↔ j = i := by
  constructor
  · intro he
    subst he
    obtain ⟨hi, hi'⟩ := List.getElem?_eq_some_iff.mp h
    obtain ⟨hj, hj'⟩ := List.getElem?_eq_some_iff.mp h'
    exact (List.getElem_inj hn).mp (hj'.trans hi'.symm)
  · intro hj
    subst hj
    exact Option.some.inj (h'.symm.trans h)

theorem bind_upd {β : Type} (hn : idx.Nodup) (h : idx[i]? = some e) (f : Nat → Option β) (b : Option β) :
    (fun j => (idx[j]?).bind (upd f e b)) = upd (fun j => (idx[j]?).bind f) i b := by
  funext j
  cases hj : idx[j]? with
  | none =>
    have : j ≠ i := by intro hji; subst hji; rw [h] at hj; cases hj
    simp [upd, hj, this]
  | some e' => simp [upd, hj, idx_iff hn h hj]

theorem bind_upd2 {α β : Type} [DecidableEq α] (hn : idx.Nodup) (h : idx[i]? = some e) (f : Nat → α → Option β) (a : α)
    (b : Option β) :
    (fun j x => (idx[j]?).bind fun e' => upd2 f e a b e' x) = upd2 (fun j x => (idx[j]?).bind fun e' => f e' x) i a b := by
  funext j x
  cases hj : idx[j]? with
  | none =>
    have : j ≠ i := by intro hji; subst hji; rw [h] at hj; cases hj
    simp [upd2, hj, this]
  | some e' => simp [upd2, hj, idx_iff hn h hj]

theorem any_upd2 {α : Type} [DecidableEq α] (hn : idx.Nodup) (h : idx[i]? = some e) (f : Nat → α → Bool) (a : α) (b : Bool) :
    (fun j x => (idx[j]?).any fun e' => upd2 f e a b e' x) = upd2 (fun j x => (idx[j]?).any fun e' => f e' x) i a b := by
  funext j x
  cases hj : idx[j]? with
  | none =>
    have : j ≠ i := by intro hji; subst hji; rw [h] at hj; cases hj
    simp [upd2, hj, this]
  | some e' => simp [upd2, hj, idx_iff hn h hj]

theorem named_addAddress (hn : idx.Nodup) (h : idx[i]? = some e) (a : Addr) :
    named idx (w.addAddress e a) = (named idx w).addAddress i a := by
  simp only [World.addAddress, named, any_upd2 hn h]

theorem named_addSlot (hn : idx.Nodup) (h : idx[i]? = some e) (a : Addr) (s : Hash) :
    named idx (w.addSlot e a s) = (named idx w).addSlot i a s := by
  have hr := (C162_reads idx w i e h).2.2.2.1 a
  unfold World.addSlot
  rw [hr]
  cases w.addressInAccessList e a
  · simp only [Bool.false_eq_true, if_false]
    rw [← named_addAddress hn h]
    simp only [named, any_upd2 hn h]
  · simp only [if_true]
    simp only [named, any_upd2 hn h]

theorem named_subBalance (a : Addr) (n : Nat) : (w.subBalance a n).map (named idx) = (named idx w).subBalance a n := by
  unfold World.subBalance
  show _ = if n = 0 then some (named idx w) else if n ≤ w.bal a then some { named idx w with bal := upd w.bal a (w.bal a - n) } else none
  split
  · rfl
  · split <;> rfl

theorem named_addBalance (a : Addr) (n : Nat) : (w.addBalance a n).map (named idx) = (named idx w).addBalance a n := by
  unfold World.addBalance
  show _ = if n = 0 then some (named idx w) else if w.bal a + n < 2 ^ 256 then some { named idx w with bal := upd w.bal a (w.bal a + n) } else none
  split
  · rfl
  · split <;> rfl

theorem named_selfDestruct (hn : idx.Nodup) (h : idx[i]? = some e) (a : Addr) :
    (w.selfDestruct e a).map (named idx) = (named idx w).selfDestruct i a := by
  unfold World.selfDestruct
  show _ = match w.acct a with
    | none => some (named idx w)
    | some _ => { named idx w with destructed := upd2 (named idx w).destructed i a true }.subBalance a (w.getBalance a)
  cases w.acct a with
  | none => rfl
  | some acc =>
    simp only
    rw [named_subBalance]
    congr 1
    simp only [named, any_upd2 hn h]

theorem named_getOrNew (a : Addr) : (named idx w).getOrNew a = (named idx (w.getOrNew a).1, (w.getOrNew a).2) := by
  unfold World.getOrNew
  show (match w.acct a with | some acc => (named idx w, acc) | none => (named idx w).newAccount) = _
  cases w.acct a <;> rfl

/-- Naming commutes with every operation. -/
theorem named_step (hn : idx.Nodup) (h : idx[i]? = some e) (op : StateOp) :
    (w.step keccak e op).map (named idx) = (named idx w).step keccak i op := by
  have hr := C162_reads idx w i e h
  cases op with
  | addBalance a n => exact named_addBalance a n
  | subBalance a n => exact named_subBalance a n
  | addRefund g =>
    simp only [World.step, World.addRefund]
    have : (named idx w).refund i = w.refund e := hr.2.2.1
    rw [this]
    cases w.refund e with
    | none => rfl
    | some r => simp only [Option.map_some, named, bind_upd hn h]
  | subRefund g =>
    simp only [World.step, World.subRefund]
    have : (named idx w).refund i = w.refund e := hr.2.2.1
    rw [this]
    cases w.refund e with
    | none => rfl
    | some r =>
      simp only
      by_cases hg : g > r
      · rw [if_pos hg, if_pos hg]; rfl
      · rw [if_neg hg, if_neg hg]; simp only [Option.map_some, named, bind_upd hn h]
  | addAddress a => simp only [World.step, Option.map_some, named_addAddress hn h]
  | addSlot a s => simp only [World.step, Option.map_some, named_addSlot hn h]
  | createAccount a => rfl
  | createContract a =>
    simp only [World.step, World.createContract]
    show _ = match w.acct a with
      | some acc =>
        if acc.isEmpty then some { named idx w with created := upd2 (named idx w).created i a true, acct := upd w.acct a (some (newContractAccount acc.num)) }
        else none
      | none => some { named idx w with created := upd2 (named idx w).created i a true, acct := upd w.acct a (some (newContractAccount w.nextNum)), nextNum := w.nextNum + 1 }
    cases w.acct a with
    | none => simp only [Option.map_some, named, any_upd2 hn h]
    | some acc =>
      simp only
      cases acc.isEmpty
      · rfl
      · simp only [if_true, Option.map_some, named, any_upd2 hn h]
  | setCode a code =>
    have hg := named_getOrNew (idx := idx) (w := w) a
    simp only [World.step, World.setCode, hg]
    generalize w.getOrNew a = q
    obtain ⟨w0, acc⟩ := q
    simp only
    generalize (if acc.isEmpty = true then newContractAccount acc.num else acc) = acc'
    cases acc'.kind <;> rfl
  | setNonce a n =>
    have hg := named_getOrNew (idx := idx) (w := w) a
    simp only [World.step, World.setNonce, hg]
    rfl
  | setState a s v => rfl
  | setTransientState a k v =>
    simp only [World.step, World.setTransientState, hr.1 a k, Option.map_some]
    congr 1
    by_cases hv : w.getTransientState e a k = v
    · rw [if_pos hv, if_pos hv]
    · rw [if_neg hv, if_neg hv]; simp only [named, bind_upd2 hn h]
  | selfDestruct a => exact named_selfDestruct hn h a
  | selfDestruct6780 a =>
    simp only [World.step, World.selfDestruct6780]
    have hc := hr.2.2.2.2.2.2.1 a
    rw [hc]
    show _ = match w.acct a with
      | none => some (named idx w)
      | some _ => if w.created e a = true then (named idx w).selfDestruct i a else some (named idx w)
    cases w.acct a with
    | none => rfl
    | some acc =>
      simp only
      cases w.created e a
      · rfl
      · simp only [if_true]; exact named_selfDestruct hn h a
  | addLog l =>
    simp only [World.step, World.addLog]
    have hs : (named idx w).logSize i = w.logSize e := by simp [named, h]
    rw [hs]
    cases w.logSize e with
    | none => rfl
    | some n => simp only [Option.map_some, named, bind_upd hn h, bind_upd2 hn h]

theorem named_commit (h : idx[i]? = some e) : named idx (w.commitDestructs e) = (named idx w).commitDestructs i := by
  have hd : (named idx w).destructed i = w.destructed e := by funext a; simp [named, h]
  unfold World.commitDestructs
  rw [hd]
  rfl

theorem named_append (hb : Blank w e) : named (idx ++ [e]) w = named idx w := by
  have key : ∀ j : Nat, (idx ++ [e])[j]? = idx[j]? ∨ (idx[j]? = none ∧ (idx ++ [e])[j]? = some e) := by
    intro j
    rcases Nat.lt_trichotomy j idx.length with hj | hj | hj
    · left; simp [List.getElem?_append, hj]
    · right; subst hj; simp
    · left
      rw [List.getElem?_eq_none (by simp; omega), List.getElem?_eq_none (by omega)]
  have e1 : (fun (j : Nat) k => ((idx ++ [e])[j]?).bind fun e' => w.tstate e' k) = fun (j : Nat) k => (idx[j]?).bind fun e' => w.tstate e' k := by
    funext j k; rcases key j with h | ⟨h1, h2⟩ <;> simp [*, hb.tstate]
  have e2 : (fun (j : Nat) a => ((idx ++ [e])[j]?).any fun e' => w.created e' a) = fun (j : Nat) a => (idx[j]?).any fun e' => w.created e' a := by
    funext j k; rcases key j with h | ⟨h1, h2⟩ <;> simp [*, hb.created]
  have e3 : (fun (j : Nat) a => ((idx ++ [e])[j]?).any fun e' => w.destructed e' a) = fun (j : Nat) a => (idx[j]?).any fun e' => w.destructed e' a := by
    funext j k; rcases key j with h | ⟨h1, h2⟩ <;> simp [*, hb.destructed]
  have e4 : (fun (j : Nat) n => ((idx ++ [e])[j]?).bind fun e' => w.logs e' n) = fun (j : Nat) n => (idx[j]?).bind fun e' => w.logs e' n := by
    funext j k; rcases key j with h | ⟨h1, h2⟩ <;> simp [*, hb.logs]
  have e5 : (fun (j : Nat) => ((idx ++ [e])[j]?).bind fun e' => w.logSize e') = fun (j : Nat) => (idx[j]?).bind fun e' => w.logSize e' := by
    funext j; rcases key j with h | ⟨h1, h2⟩ <;> simp [*, hb.logSize]
  have e6 : (fun (j : Nat) b => ((idx ++ [e])[j]?).any fun e' => w.access e' b) = fun (j : Nat) b => (idx[j]?).any fun e' => w.access e' b := by
    funext j k; rcases key j with h | ⟨h1, h2⟩ <;> simp [*, hb.access]
  have e7 : (fun (j : Nat) => ((idx ++ [e])[j]?).bind fun e' => w.refund e') = fun (j : Nat) => (idx[j]?).bind fun e' => w.refund e' := by
    funext j; rcases key j with h | ⟨h1, h2⟩ <;> simp [*, hb.refund]
  unfold named
  rw [e1, e2, e3, e4, e5, e6, e7]

theorem named_start (hn : (idx ++ [e]).Nodup) (hb : Blank w e) :
    named (idx ++ [e]) (w.newStateDB e) = (named idx w).newStateDB idx.length := by
  have h : (idx ++ [e])[idx.length]? = some e := by simp
  have hz := named_append (idx := idx) hb
  rw [← hz]
  simp only [World.newStateDB, named, bind_upd hn h]

/-! ### Invariant -/

/-- Indices are handed out once, and nothing is stored under an index not yet handed out. -/
structure Inv (s : Local) : Prop where
  nodup : s.idx.Nodup
  le : ∀ e ∈ s.idx, e ≤ s.ctr
  blank : ∀ e, s.ctr < e → Blank s.w e
  kept : ∀ w ∈ s.kept, ∀ e, s.ctr < e → Blank w e

theorem begin_inv (c : Nat) (d : Store) : Inv (begin_ c d) :=
  ⟨List.nodup_nil, (by intro e h; cases h), fun e _ => ⟨fun _ => rfl, fun _ => rfl, fun _ => rfl, fun _ => rfl, rfl, fun _ => rfl, rfl⟩,
    (by intro w h; cases h)⟩

theorem Inv.wait {s : Local} (h : Inv s) (n : Nat) : Inv { s with ctr := s.ctr + n } :=
  ⟨h.nodup, fun e he => Nat.le_add_right_of_le (h.le e he), fun e he => h.blank e (by simp only at he; omega),
    fun w hw e he => h.kept w hw e (by simp only at he; omega)⟩

/-- An operation under one index leaves the others as they are. -/
theorem step_blank {w' : World} {op : StateOp} (h : w.step keccak e op = some w') {x : Nat} (hx : x ≠ e) (hb : Blank w x) :
    Blank w' x := by
  have hf := step_frame keccak h
  exact ⟨fun k => (hf.tstate x k (Or.inr hx)).trans (hb.tstate k), fun a => (hf.created x a (Or.inr hx)).trans (hb.created a),
    fun a => (hf.destructed x a (Or.inr hx)).trans (hb.destructed a), fun n => (hf.logs x n (Or.inr hx)).trans (hb.logs n),
    (hf.logSize x (Or.inr hx)).trans hb.logSize, fun b => (hf.access x b hx).trans (hb.access b),
    (hf.refund x (Or.inr hx)).trans hb.refund⟩

theorem act_inv {s s' : Local} {a : Act} (h : Inv s) (ha : act keccak s a = some s') : Inv s' := by
  cases a with
  | start =>
    simp only [act, Option.some.injEq] at ha
    subst ha
    refine ⟨?_, ?_, ?_, ?_⟩
    · rw [List.nodup_append]
      refine ⟨h.nodup, by simp, ?_⟩
      intro x hx y hy hxy
      have := h.le x hx
      simp only [List.mem_singleton] at hy
      omega
    · intro e he
      simp only [List.mem_append, List.mem_singleton] at he
      rcases he with he | he
      · have := h.le e he; simp only; omega
      · simp only; omega
    · intro e he
      simp only at he
      have hb := h.blank e (by omega)
      have hne : e ≠ s.ctr + 1 := by omega
      exact ⟨hb.tstate, hb.created, hb.destructed, hb.logs, by simp [World.newStateDB, upd, hne, hb.logSize], hb.access,
        by simp [World.newStateDB, upd, hne, hb.refund]⟩
    · intro w hw e he
      simp only at he
      exact h.kept w hw e (by omega)
  | perform i op =>
    simp only [act, Option.bind_eq_some_iff, Option.map_eq_some_iff] at ha
    obtain ⟨e, he, w', hw, rfl⟩ := ha
    refine ⟨h.nodup, h.le, ?_, h.kept⟩
    intro x hx
    have := h.le e (List.mem_of_getElem? he)
    exact step_blank keccak hw (by simp only at hx; omega) (h.blank x hx)
  | finish i =>
    simp only [act, Option.map_eq_some_iff] at ha
    obtain ⟨e, he, rfl⟩ := ha
    refine ⟨h.nodup, h.le, ?_, h.kept⟩
    intro x hx
    have hb := h.blank x hx
    exact ⟨hb.tstate, hb.created, hb.destructed, hb.logs, hb.logSize, hb.access, hb.refund⟩
  | keep =>
    simp only [act, Option.some.injEq] at ha
    subst ha
    refine ⟨h.nodup, h.le, h.blank, ?_⟩
    intro w hw e he
    simp only [List.mem_append, List.mem_singleton] at hw
    rcases hw with hw | rfl
    · exact h.kept w hw e he
    · exact h.blank e he
  | back j =>
    simp only [act, Option.map_eq_some_iff] at ha
    obtain ⟨w, hw, rfl⟩ := ha
    exact ⟨h.nodup, h.le, h.kept w (List.mem_of_getElem? hw), fun x hx => h.kept x (List.mem_of_mem_take hx)⟩

/-- One operation on a node is the operation of the reference. -/
theorem act_seen {s : Local} (a : Act) (h : Inv s) : (act keccak s a).map Local.seen = refAct keccak s.seen a := by
  cases a with
  | start =>
    have hb := h.blank (s.ctr + 1) (by omega)
    have hn : (s.idx ++ [s.ctr + 1]).Nodup := (act_inv keccak h (a := .start) rfl).nodup
    have hk : s.kept.map (named (s.idx ++ [s.ctr + 1])) = s.kept.map (named s.idx) :=
      List.map_congr_left fun w hw => named_append (h.kept w hw _ (by omega))
    simp only [act, refAct, Local.seen, Option.map_some, named_start hn hb, hk, List.length_append, List.length_singleton]
  | perform i op =>
    unfold act refAct
    cases he : s.idx[i]? with
    | none =>
      have : ¬ i < s.idx.length := by
        have := List.getElem?_eq_none_iff.mp he; omega
      simp only [he]
      rw [if_neg (show ¬ i < s.seen.started from this)]; rfl
    | some e =>
      have hlt : i < s.idx.length := (List.getElem?_eq_some_iff.mp he).1
      simp only [he]
      rw [if_pos (show i < s.seen.started from hlt)]
      show _ = Option.map _ ((named s.idx s.w).step keccak i op)
      rw [← named_step keccak h.nodup he op]
      simp only [Option.bind_some]
      cases s.w.step keccak e op <;> rfl
  | finish i =>
    unfold act refAct
    cases he : s.idx[i]? with
    | none =>
      have : ¬ i < s.idx.length := by
        have := List.getElem?_eq_none_iff.mp he; omega
      simp only [he]
      rw [if_neg (show ¬ i < s.seen.started from this)]; rfl
    | some e =>
      have hlt : i < s.idx.length := (List.getElem?_eq_some_iff.mp he).1
      simp only [he]
      rw [if_pos (show i < s.seen.started from hlt)]
      show _ = some ({ s.seen with w := (named s.idx s.w).commitDestructs i })
      rw [← named_commit he]
      rfl
  | keep => simp only [act, refAct, Local.seen, Option.map_some, List.map_append, List.map_cons, List.map_nil]
  | back j =>
    simp only [act, refAct, Local.seen, List.getElem?_map]
    cases s.kept[j]? with
    | none => rfl
    | some w => simp only [Option.map_some, List.map_take, Local.seen]

theorem step_seen {s : Local} (prog : Program) (n : Nat) (h : Inv s) :
    (step keccak prog n s).seen = refStep keccak prog s.seen ∧ Inv (step keccak prog n s) := by
  have hw := h.wait n
  have ha := act_seen keccak (prog s.seen) hw
  have hs : Local.seen { s with ctr := s.ctr + n } = s.seen := rfl
  rw [hs] at ha
  unfold step refStep
  rw [← ha]
  cases hx : act keccak { s with ctr := s.ctr + n } (prog s.seen) with
  | none => exact ⟨rfl, hw.nodup, hw.le, hw.blank, hw.kept⟩
  | some s' =>
    have hi := act_inv keccak hw hx
    exact ⟨rfl, hi.nodup, hi.le, hi.blank, hi.kept⟩

theorem steps_seen (prog : Program) (load : Nat → Nat) (n : Nat) {s : Local} (h : Inv s) :
    (steps keccak prog load n s).seen = refSteps keccak prog n s.seen := by
  induction n generalizing s with
  | zero => rfl
  | succ n ih =>
    have := step_seen keccak prog (load n) h
    rw [steps, refSteps, ih this.2, this.1]

theorem begin_seen (c : Nat) (d : Store) : (begin_ c d).seen = refBegin d := rfl

/-! ### C162 -/

/-- **C162** (the reference): what is on disk after every block, and what the code executing it could read, is a function of
the blocks — whatever the node's counter was, whatever executions it began elsewhere before and meanwhile, however often it
was restarted or threw work away. -/
theorem C162_chain (d : Store) (c : Nat) (l : List (Life × Block)) :
    chain keccak d c l = refChain keccak d (l.map (·.2)) := by
  induction l generalizing d c with
  | nil => rfl
  | cons x l ih =>
    obtain ⟨y, b⟩ := x
    have hs := steps_seen keccak b.prog y.load b.len (begin_inv (y.before.foldl (happen keccak d) c) d)
    rw [begin_seen] at hs
    simp only [chain, List.map_cons, refChain, block]
    rw [ih, hs]
    have hstore : (steps keccak b.prog y.load b.len (begin_ (y.before.foldl (happen keccak d) c) d)).w.store =
        (refSteps keccak b.prog b.len (refBegin d)).w.store := by
      rw [← hs]; rfl
    rw [hstore]

/-- **C162** (nodes agree): two nodes that start from the same state and execute the same blocks have the same state on disk
after every block, and the code that executed them read the same everywhere, whatever else the two nodes did. -/
theorem C162_agree (d : Store) (c c' : Nat) (l l' : List (Life × Block)) (h : l.map (·.2) = l'.map (·.2)) :
    chain keccak d c l = chain keccak d c' l' := by
  rw [C162_chain, C162_chain, h]

/-- **C162** (indices): on every node, at every point of a block, no two executions of the block share an index. -/
theorem C162_distinct (d : Store) (c : Nat) (prog : Program) (load : Nat → Nat) (n : Nat) :
    (steps keccak prog load n (begin_ c d)).idx.Nodup := by
  have : ∀ n (s : Local), Inv s → Inv (steps keccak prog load n s) := by
    intro n
    induction n with
    | zero => intro s h; exact h
    | succ n ih => intro s h; exact ih _ (step_seen keccak prog (load n) h).2
  exact (this n _ (begin_inv c d)).nodup

/-! ### The hypotheses are met -/

/-- A block in which an execution stores a value in transient storage, a nested one finds nothing there, and the first then
copies what it finds into its storage. -/
def toyBlock : Block where
  len := 5
  prog v :=
    if v.started = 0 then .start
    else if v.w.getTransientState 0 Addr.zero (Hash.ofNat 1) = Hash.zero then .perform 0 (.setTransientState Addr.zero (Hash.ofNat 1) (Hash.ofNat 9))
    else if v.started = 1 then .start
    else if v.w.exist Addr.zero = false then .perform 1 (.setNonce Addr.zero 3)
    else .perform 0 (.setState Addr.zero (v.w.getTransientState 1 Addr.zero (Hash.ofNat 1)) (v.w.getTransientState 0 Addr.zero (Hash.ofNat 1)))

/-- A new chain. -/
def toyStore : Store := ⟨fun _ => none, 0, fun _ => none, fun _ => 0⟩

/-- A node that does nothing else, and one that answers queries all the time, throws a proposal away, crashes and answers
more queries. -/
def quiet : Life := ⟨[], fun _ => 0⟩
def busy : Life := ⟨[.others 5, .discarded toyBlock.prog (fun _ => 2) 4, .restart, .others 7], fun k => k + 1⟩

/-- Their indices differ … -/
example :
    (steps (fun _ => Hash.zero) toyBlock.prog quiet.load 5 (begin_ 0 toyStore)).idx = [1, 2] ∧
    (steps (fun _ => Hash.zero) toyBlock.prog busy.load 5
      (begin_ (busy.before.foldl (happen (fun _ => Hash.zero) toyStore) 3) toyStore)).idx = [13, 21] := by decide +kernel

/-- … and the value is stored on both. -/
example :
    (chain (fun _ => Hash.zero) toyStore 3 [(busy, toyBlock)]).map
      (fun r => [r.1.vm (stateKey Addr.zero Hash.zero), r.1.vm (stateKey Addr.zero (Hash.ofNat 1))]) =
      [[some (Hash.ofNat 9).bytes, none]] ∧
    [(busy, toyBlock), (quiet, toyBlock)].map (·.2) = [(quiet, toyBlock), (busy, toyBlock)].map (·.2) :=
  ⟨by decide +kernel, rfl⟩

end Verif.Props.Nodes
