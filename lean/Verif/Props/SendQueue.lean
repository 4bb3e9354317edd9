import Verif.Model.SendQueue
import Verif.Props.LockTable
/-
C41: queued transactions are broadcast in nonce order. C63: what the answer to a submission says.
-/
namespace Verif.SendQueue
open Verif
open Verif.LockTable (put put_same put_other)

/-! ### Specification -/

/-- The broadcasts made on behalf of submission `x`, oldest first. -/
def broadcastsBy (s : State) (x : Sub) : List Sent := s.sent.reverse.filter (fun b => b.by_ == x)

/-- The broadcasts of transactions of sender `a`, oldest first. -/
def broadcastsOf (s : State) (a : Nat) : List Sent := s.sent.reverse.filter (fun b => b.tx.sender == a)

/-- Attempts follow the account: each is for the next nonce, which advances exactly when the attempt succeeds. -/
def Ordered : Nat → List Sent → Prop
  | _, [] => True
  | n, b :: l => b.tx.nonce = n ∧ Ordered (if b.ok then (n + 1) % 18446744073709551616 else n) l

/-! ### Queue -/

theorem has_mem {q : Queue} {k : Nat × Nat} {v : Sub} (h : has q k = some v) : (k, v) ∈ q := by
  unfold has at h
  cases hf : q.find? (fun x => x.1 == k) with
  | none => rw [hf] at h; cases h
  | some y =>
    rw [hf] at h
    simp only [Option.map_some, Option.some.injEq] at h
    have h1 := List.mem_of_find?_eq_some hf
    have h2 := List.find?_some hf
    simp only [beq_iff_eq] at h2
    rw [← h2, ← h]; exact h1

theorem has_none {q : Queue} {k : Nat × Nat} (h : has q k = none) : ∀ x ∈ q, x.1 ≠ k := by
  unfold has at h
  intro x hx hk
  have := List.find?_eq_none.1 (Option.map_eq_none_iff.1 h) x hx
  simp [hk] at this

theorem mem_drop {q : Queue} {k : Nat × Nat} {x : (Nat × Nat) × Sub} : x ∈ drop q k ↔ x ∈ q ∧ x.1 ≠ k := by
  simp [drop]

theorem mem_add {cap : Nat} {q : Queue} {k : Nat × Nat} {v : Sub} {x : (Nat × Nat) × Sub} (h : x ∈ add cap q k v) : x = (k, v) ∨ (x ∈ q ∧ x.1 ≠ k) := by
  have := List.mem_of_mem_take h
  rcases List.mem_cons.1 this with h | h
  · exact Or.inl h
  · exact Or.inr (mem_drop.1 h)

theorem mem_touch {q : Queue} {k : Nat × Nat} {x : (Nat × Nat) × Sub} (h : x ∈ touch q k) : x ∈ q := by
  unfold touch at h
  split at h
  · next v hv =>
    rcases List.mem_cons.1 h with h | h
    · rw [h]; exact has_mem hv
    · exact (mem_drop.1 h).1
  · exact h

theorem keys_drop {q : Queue} {k : Nat × Nat} (h : (q.map (·.1)).Nodup) : ((drop q k).map (·.1)).Nodup := by
  have : (drop q k).map (·.1) = (q.map (·.1)).filter (fun x => x != k) := by
    rw [List.filter_map]; rfl
  rw [this]; exact h.filter _

theorem keys_cons {q : Queue} {k : Nat × Nat} {v : Sub} (h : (q.map (·.1)).Nodup) : (((k, v) :: drop q k).map (·.1)).Nodup := by
  rw [List.map_cons, List.nodup_cons]
  refine ⟨fun hm => ?_, keys_drop h⟩
  obtain ⟨x, hx, hk⟩ := List.mem_map.1 hm
  exact (mem_drop.1 hx).2 hk

theorem keys_add {cap : Nat} {q : Queue} {k : Nat × Nat} {v : Sub} (h : (q.map (·.1)).Nodup) : ((add cap q k v).map (·.1)).Nodup := by
  unfold add
  rw [List.map_take]
  exact (List.take_sublist _ _).nodup (keys_cons h)

theorem keys_touch {q : Queue} {k : Nat × Nat} (h : (q.map (·.1)).Nodup) : ((touch q k).map (·.1)).Nodup := by
  unfold touch
  split
  · exact keys_cons h
  · exact h

theorem mem_touch_of {q : Queue} {k : Nat × Nat} {x : (Nat × Nat) × Sub} (hn : (q.map (·.1)).Nodup) (h : x ∈ q) : x ∈ touch q k := by
  unfold touch
  split
  · next v hv =>
    by_cases hk : x.1 = k
    · have hkv := has_mem hv
      have : x = (k, v) := by
        obtain ⟨i, hi, rfl⟩ := List.getElem_of_mem h
        obtain ⟨j, hj, hjv⟩ := List.getElem_of_mem hkv
        have hij : i = j := by
          apply (List.getElem_inj (xs := q.map (fun y => y.1)) (h₀ := by simpa using hi) (h₁ := by simpa using hj) hn).1
          simp only [List.getElem_map]
          rw [hk, hjv]
        subst hij; exact hjv
      rw [this]; exact List.mem_cons_self
    · exact List.mem_cons_of_mem _ (mem_drop.2 ⟨h, hk⟩)
  · exact h

/-! ### Invariant -/

/-- submission a goroutine works for -/
def own : Pc → Option Sub
  | .idle => none
  | .waiting x | .reading x | .adding x _ | .looping x _ _ | .removing x _ _ _ | .sending x _ _ _ => some x

/-- its transaction is not in the queue yet -/
def pre : Pc → Option Sub
  | .waiting x | .reading x | .adding x _ => some x
  | _ => none

/-- it has the lock -/
def locked : Pc → Option Sub
  | .reading x | .adding x _ | .looping x _ _ | .removing x _ _ _ | .sending x _ _ _ => some x
  | _ => none

/-- transaction taken from the queue, with the goroutine's sender and sequence -/
def flight : Pc → Option (Sub × Nat × Sub)
  | .removing x b k e | .sending x b k e => some (x, at_ b k, e)
  | _ => none

structure Inv (s : State) : Prop where
  holder : ∀ a t, s.holder a = some t ↔ ∃ x, locked (s.threads t) = some x ∧ x.sender = a
  keys : (s.queue.map (·.1)).Nodup
  key : ∀ e ∈ s.queue, e.1 = (e.2.sender, e.2.nonce)
  fl : ∀ t x n e, flight (s.threads t) = some (x, n, e) → e.sender = x.sender ∧ e.nonce = n
  freshQ : ∀ e ∈ s.queue, e.2.id < s.fresh
  freshO : ∀ t x, own (s.threads t) = some x → x.id < s.fresh
  freshF : ∀ t x n e, flight (s.threads t) = some (x, n, e) → e.id < s.fresh
  freshS : ∀ b ∈ s.sent, b.tx.id < s.fresh ∧ b.by_.id < s.fresh
  freshR : ∀ r ∈ s.results, r.1.id < s.fresh
  sent1 : (s.sent.map (·.tx)).Nodup
  sent2 : ∀ e ∈ s.queue, e.2 ∉ s.sent.map (·.tx)
  sent3 : ∀ t x n e, flight (s.threads t) = some (x, n, e) → e ∉ s.sent.map (·.tx)
  sending : ∀ t x b k e, s.threads t = .sending x b k e → ∀ q ∈ s.queue, q.2 ≠ e
  pre1 : ∀ t x, pre (s.threads t) = some x → (∀ q ∈ s.queue, q.2 ≠ x) ∧ x ∉ s.sent.map (·.tx) ∧
    (∀ u y n e, flight (s.threads u) = some (y, n, e) → e ≠ x)
  own1 : ∀ t u x, own (s.threads t) = some x → own (s.threads u) = some x → t = u
  ownR : ∀ t x, own (s.threads t) = some x → ∀ r ∈ s.results, r.1 ≠ x
  preB : ∀ t x, pre (s.threads t) = some x → ∀ b ∈ s.sent, b.by_ ≠ x

theorem inv_init (cap : Nat) (seq : Nat → Nat) : Inv (State.init cap seq) := by
  constructor <;> simp [State.init, locked, flight, own, pre]


theorem flight_locked {pc : Pc} {x : Sub} {n : Nat} {e : Sub} (h : flight pc = some (x, n, e)) : locked pc = some x := by
  cases pc <;> simp [flight] at h <;> simp [locked, h.1]

theorem flight_own {pc : Pc} {x : Sub} {n : Nat} {e : Sub} (h : flight pc = some (x, n, e)) : own pc = some x ∧ pre pc = none := by
  cases pc <;> simp [flight] at h <;> simp [own, pre, h.1]

theorem pre_own {pc : Pc} {x : Sub} (h : pre pc = some x) : own pc = some x ∧ flight pc = none := by
  cases pc <;> simp [pre] at h <;> simp [own, flight, h]

theorem flight_unique {s : State} (h : Inv s) {t u : Nat} {x y e : Sub} {n m : Nat} (ht : flight (s.threads t) = some (x, n, e))
    (hu : flight (s.threads u) = some (y, m, e)) : t = u := by
  have h1 := (h.holder x.sender t).2 ⟨x, flight_locked ht, rfl⟩
  have hs : y.sender = x.sender := by rw [← (h.fl _ _ _ _ ht).1, ← (h.fl _ _ _ _ hu).1]
  have h2 := (h.holder x.sender u).2 ⟨y, flight_locked hu, hs⟩
  rw [h1] at h2; exact Option.some.inj h2

/-- Preservation, for every kind of step of a goroutine. -/
theorem inv_gen (s s' : State) (t : Nat) (pc : Pc) (h : Inv s) (hth : s'.threads = put s.threads t pc) (hfr : s'.fresh = s.fresh)
    (hholder : ∀ a u, s'.holder a = some u ↔ ∃ x, locked (s'.threads u) = some x ∧ x.sender = a)
    (hkeys : (s'.queue.map (·.1)).Nodup)
    (hq : ∀ e ∈ s'.queue, e ∈ s.queue ∨ (pre (s.threads t) = some e.2 ∧ pre pc = none ∧ flight pc = none ∧ e.1 = (e.2.sender, e.2.nonce)))
    (hfl : ∀ x n e, flight pc = some (x, n, e) → e.sender = x.sender ∧ e.nonce = n ∧ (flight (s.threads t) = some (x, n, e) ∨ ∃ k, (k, e) ∈ s.queue))
    (hs : s'.sent = s.sent ∨ ∃ x b k e ok n, s.threads t = .sending x b k e ∧ s'.sent = ⟨x, e, ok, n⟩ :: s.sent ∧ flight pc = none ∧ s'.queue = s.queue)
    (hr : s'.results = s.results ∨ ∃ x r, own (s.threads t) = some x ∧ s'.results = (x, r) :: s.results ∧ own pc = none)
    (hown : ∀ x, own pc = some x → own (s.threads t) = some x) (hpre : ∀ x, pre pc = some x → pre (s.threads t) = some x)
    (hsending : ∀ x b k e, pc = .sending x b k e → ∀ q ∈ s'.queue, q.2 ≠ e) : Inv s' := by
  have hne : ∀ u, u ≠ t → s'.threads u = s.threads u := fun u hu => by rw [hth, put_other _ _ _ _ hu]
  have heq : s'.threads t = pc := by rw [hth, put_same]
  have hownU : ∀ u x, own (s'.threads u) = some x → own (s.threads u) = some x := by
    intro u x hx
    by_cases hut : u = t
    · subst hut; rw [heq] at hx; exact hown x hx
    · rw [hne u hut] at hx; exact hx
  have hpreU : ∀ u x, pre (s'.threads u) = some x → pre (s.threads u) = some x := by
    intro u x hx
    by_cases hut : u = t
    · subst hut; rw [heq] at hx; exact hpre x hx
    · rw [hne u hut] at hx; exact hx
  have hflU : ∀ u x n e, flight (s'.threads u) = some (x, n, e) → e.sender = x.sender ∧ e.nonce = n ∧
      (flight (s.threads u) = some (x, n, e) ∨ (u = t ∧ ∃ k, (k, e) ∈ s.queue)) := by
    intro u x n e hx
    by_cases hut : u = t
    · subst hut
      rw [heq] at hx
      obtain ⟨h1, h2, h3⟩ := hfl x n e hx
      refine ⟨h1, h2, ?_⟩
      rcases h3 with h3 | h3
      · exact Or.inl h3
      · exact Or.inr ⟨rfl, h3⟩
    · rw [hne u hut] at hx; exact ⟨(h.fl _ _ _ _ hx).1, (h.fl _ _ _ _ hx).2, Or.inl hx⟩
  -- a queue entry of the new state, seen from a list of sent transactions
  have hqs : ∀ e ∈ s'.queue, e.2 ∉ s.sent.map (·.tx) := by
    intro e he
    rcases hq e he with h1 | ⟨h1, _⟩
    · exact h.sent2 e h1
    · exact (h.pre1 t _ h1).2.1
  have hfs : ∀ u x n e, flight (s'.threads u) = some (x, n, e) → e ∉ s.sent.map (·.tx) := by
    intro u x n e hx
    obtain ⟨_, _, h3 | ⟨_, k, h3⟩⟩ := hflU u x n e hx
    · exact h.sent3 u x n e h3
    · exact h.sent2 _ h3
  refine ⟨hholder, hkeys, ?_, fun u x n e hx => ⟨(hflU u x n e hx).1, (hflU u x n e hx).2.1⟩, ?_, ?_, ?_, ?_, ?_, ?_, ?_, ?_, ?_, ?_, ?_, ?_, ?_⟩
  · intro e he
    rcases hq e he with h1 | ⟨_, _, _, h1⟩
    · exact h.key e h1
    · exact h1
  · intro e he
    rw [hfr]
    rcases hq e he with h1 | ⟨h1, _⟩
    · exact h.freshQ e h1
    · exact h.freshO t _ (pre_own h1).1
  · intro u x hx; rw [hfr]; exact h.freshO u x (hownU u x hx)
  · intro u x n e hx
    rw [hfr]
    obtain ⟨_, _, h3 | ⟨_, k, h3⟩⟩ := hflU u x n e hx
    · exact h.freshF u x n e h3
    · exact h.freshQ _ h3
  · intro b hb
    rw [hfr]
    rcases hs with hs | ⟨x, bb, k, e, ok, n, h1, h2, _, _⟩
    · rw [hs] at hb; exact h.freshS b hb
    · rw [h2] at hb
      rcases List.mem_cons.1 hb with rfl | hb
      · exact ⟨h.freshF t x (at_ bb k) e (by rw [h1]; rfl), h.freshO t x (by rw [h1]; rfl)⟩
      · exact h.freshS b hb
  · intro r hrr
    rw [hfr]
    rcases hr with hr | ⟨x, r', h1, h2, _⟩
    · rw [hr] at hrr; exact h.freshR r hrr
    · rw [h2] at hrr
      rcases List.mem_cons.1 hrr with rfl | hrr
      · exact h.freshO t x h1
      · exact h.freshR r hrr
  · rcases hs with hs | ⟨x, bb, k, e, ok, n, h1, h2, _, _⟩
    · rw [hs]; exact h.sent1
    · rw [h2, List.map_cons, List.nodup_cons]
      exact ⟨h.sent3 t x (at_ bb k) e (by rw [h1]; rfl), h.sent1⟩
  · intro e he
    rcases hs with hs | ⟨x, bb, k, e', ok, n, h1, h2, _, h4⟩
    · rw [hs]; exact hqs e he
    · rw [h2, List.map_cons, List.mem_cons]
      rintro (hc | hc)
      · rw [h4] at he; exact h.sending t x bb k e' h1 e he hc
      · exact hqs e he hc
  · intro u x n e hx
    rcases hs with hs | ⟨x', bb, k, e', ok, n', h1, h2, h3, _⟩
    · rw [hs]; exact hfs u x n e hx
    · rw [h2, List.map_cons, List.mem_cons]
      rintro (hc | hc)
      · have hut : u ≠ t := by rintro rfl; rw [heq, h3] at hx; cases hx
        rw [hne u hut] at hx
        simp only at hc
        subst hc
        exact hut (flight_unique h hx (show flight (s.threads t) = some (x', at_ bb k, e) by rw [h1]; rfl))
      · exact hfs u x n e hx hc
  · intro u x bb k e hx q hqq
    by_cases hut : u = t
    · subst hut; rw [heq] at hx; exact hsending x bb k e hx q hqq
    · rw [hne u hut] at hx
      rcases hq q hqq with h1 | ⟨h1, _⟩
      · exact h.sending u x bb k e hx q h1
      · have := (h.pre1 t _ h1).2.2 u x (at_ bb k) e (by rw [hx]; rfl)
        exact fun hc => this hc.symm
  · intro u x hx
    have hxo := hpreU u x hx
    obtain ⟨p1, p2, p3⟩ := h.pre1 u x hxo
    refine ⟨fun q hqq => ?_, ?_, fun v y n e hv => ?_⟩
    · rcases hq q hqq with h1 | ⟨h1, h2, _⟩
      · exact p1 q h1
      · intro hc
        subst hc
        have : u = t := h.own1 u t _ (pre_own hxo).1 (pre_own h1).1
        subst this
        rw [heq, h2] at hx; cases hx
    · rcases hs with hs | ⟨x', bb, k, e', ok, n', h1, h2, h3, _⟩
      · rw [hs]; exact p2
      · rw [h2, List.map_cons, List.mem_cons]
        rintro (hc | hc)
        · exact p3 t x' (at_ bb k) e' (by rw [h1]; rfl) hc.symm
        · exact p2 hc
    · obtain ⟨_, _, h3 | ⟨_, k, h3⟩⟩ := hflU v y n e hv
      · exact p3 v y n e h3
      · exact p1 _ h3
  · intro u v x hu hv; exact h.own1 u v x (hownU u x hu) (hownU v x hv)
  · intro u x hx r hrr
    have hxo := hownU u x hx
    rcases hr with hr | ⟨x', r', h1, h2, h3⟩
    · rw [hr] at hrr; exact h.ownR u x hxo r hrr
    · rw [h2] at hrr
      rcases List.mem_cons.1 hrr with rfl | hrr
      · intro hc
        simp only at hc
        subst hc
        have : u = t := h.own1 u t _ hxo h1
        subst this
        rw [heq, h3] at hx; cases hx
      · exact h.ownR u x hxo r hrr
  · intro u x hx b hb
    have hxo := hpreU u x hx
    rcases hs with hs | ⟨x', bb, k, e', ok, n', h1, h2, h3, _⟩
    · rw [hs] at hb; exact h.preB u x hxo b hb
    · rw [h2] at hb
      rcases List.mem_cons.1 hb with rfl | hb
      · intro hc
        simp only at hc
        subst hc
        have : u = t := h.own1 u t _ (pre_own hxo).1 (by rw [h1]; rfl)
        subst this
        rw [h1] at hxo; cases hxo
      · exact h.preB u x hxo b hb

/-- lock bookkeeping of a step that neither takes nor releases the lock -/
theorem holder_keep (s : State) (t : Nat) (pc : Pc) (h : Inv s) (hl : locked pc = locked (s.threads t)) :
    ∀ a u, s.holder a = some u ↔ ∃ x, locked (put s.threads t pc u) = some x ∧ x.sender = a := by
  intro a u
  by_cases hut : u = t
  · subst hut; rw [put_same, hl]; exact h.holder a u
  · rw [put_other _ _ _ _ hut]; exact h.holder a u

/-- and of one that releases it -/
theorem holder_release (s : State) (t : Nat) (x : Sub) (h : Inv s) (hl : locked (s.threads t) = some x) :
    ∀ a u, put s.holder x.sender none a = some u ↔ ∃ y, locked (put s.threads t .idle u) = some y ∧ y.sender = a := by
  intro a u
  have ht := (h.holder x.sender t).2 ⟨x, hl, rfl⟩
  by_cases ha : a = x.sender
  · subst ha
    rw [put_same]
    constructor
    · intro hc; cases hc
    · rintro ⟨y, h1, h2⟩
      by_cases hut : u = t
      · subst hut; rw [put_same] at h1; cases h1
      · rw [put_other _ _ _ _ hut] at h1
        have := (h.holder x.sender u).2 ⟨y, h1, h2⟩
        rw [ht] at this; exact absurd (Option.some.inj this).symm hut
  · rw [put_other _ _ _ _ ha]
    by_cases hut : u = t
    · subst hut
      rw [put_same, h.holder, hl]
      constructor
      · rintro ⟨y, h1, h2⟩; cases h1; exact absurd h2.symm ha
      · rintro ⟨y, h1, _⟩; cases h1
    · rw [put_other _ _ _ _ hut]; exact h.holder a u

theorem inv_act (s s' : State) (a : Act) (h : Inv s) (hs : s.act a = some s') : Inv s' := by
  cases a with
  | chain b n =>
    simp only [State.act] at hs; cases hs
    exact ⟨h.holder, h.keys, h.key, h.fl, h.freshQ, h.freshO, h.freshF, h.freshS, h.freshR, h.sent1, h.sent2, h.sent3, h.sending, h.pre1, h.own1, h.ownR, h.preB⟩
  | submit t sender nonce =>
    simp only [State.act] at hs
    split at hs
    · next hi =>
      cases hs
      have hne : ∀ u, u ≠ t → put s.threads t (Pc.waiting ⟨s.fresh, sender, nonce⟩) u = s.threads u := fun u hu => put_other _ _ _ _ hu
      have hflU : ∀ u x n e, flight (put s.threads t (Pc.waiting ⟨s.fresh, sender, nonce⟩) u) = some (x, n, e) → flight (s.threads u) = some (x, n, e) := by
        intro u x n e hx
        by_cases hut : u = t
        · subst hut; rw [put_same] at hx; cases hx
        · rw [hne u hut] at hx; exact hx
      refine ⟨fun a u => ?_, h.keys, h.key, fun u x n e hx => h.fl u x n e (hflU u x n e hx), fun e he => ?_, fun u x hx => ?_, fun u x n e hx => ?_,
        fun b hb => ?_, fun r hr => ?_, h.sent1, h.sent2, fun u x n e hx => h.sent3 u x n e (hflU u x n e hx), fun u x b k e hx => ?_,
        fun u x hx => ?_, fun u v x hu hv => ?_, fun u x hx r hr => ?_, fun u x hx b hb => ?_⟩
      · by_cases hut : u = t
        · subst hut; simp only [put_same]; rw [h.holder, hi]; simp [locked]
        · simp only [hne u hut]; exact h.holder a u
      · have := h.freshQ e he; simp only; omega
      · by_cases hut : u = t
        · subst hut; simp only [put_same, own, Option.some.injEq] at hx; rw [← hx]; simp
        · simp only [hne u hut] at hx; have := h.freshO u x hx; simp only; omega
      · have := h.freshF u x n e (hflU u x n e hx); simp only; omega
      · have := h.freshS b hb; simp only; omega
      · have := h.freshR r hr; simp only; omega
      · by_cases hut : u = t
        · subst hut; simp only [put_same] at hx; cases hx
        · simp only [hne u hut] at hx; exact h.sending u x b k e hx
      · by_cases hut : u = t
        · subst hut
          simp only [put_same, pre, Option.some.injEq] at hx
          subst hx
          refine ⟨fun q hq hc => ?_, fun hc => ?_, fun v y n e hv hc => ?_⟩
          · have := h.freshQ q hq; rw [hc] at this; simp at this
          · obtain ⟨b, hb, hbe⟩ := List.mem_map.1 hc
            have := (h.freshS b hb).1; rw [hbe] at this; simp at this
          · have := h.freshF v y n e (hflU v y n e hv); rw [hc] at this; simp at this
        · simp only [hne u hut] at hx
          obtain ⟨p1, p2, p3⟩ := h.pre1 u x hx
          exact ⟨p1, p2, fun v y n e hv => p3 v y n e (hflU v y n e hv)⟩
      · have key : ∀ w, w ≠ t → own (s.threads w) ≠ some ⟨s.fresh, sender, nonce⟩ := by
          intro w _ hc; have := h.freshO w _ hc; simp at this
        by_cases hut : u = t <;> by_cases hvt : v = t
        · rw [hut, hvt]
        · subst hut
          simp only [put_same, own, Option.some.injEq] at hu
          simp only [hne v hvt] at hv
          rw [← hu] at hv; exact absurd hv (key v hvt)
        · subst hvt
          simp only [put_same, own, Option.some.injEq] at hv
          simp only [hne u hut] at hu
          rw [← hv] at hu; exact absurd hu (key u hut)
        · simp only [hne u hut] at hu
          simp only [hne v hvt] at hv
          exact h.own1 u v x hu hv
      · by_cases hut : u = t
        · subst hut
          simp only [put_same, own, Option.some.injEq] at hx
          intro hc
          have := h.freshR r hr; rw [hc, ← hx] at this; simp at this
        · simp only [hne u hut] at hx; exact h.ownR u x hx r hr
      · by_cases hut : u = t
        · subst hut
          simp only [put_same, pre, Option.some.injEq] at hx
          intro hc
          have := (h.freshS b hb).2; rw [hc, ← hx] at this; simp at this
        · simp only [hne u hut] at hx; exact h.preB u x hx b hb
    · cases hs
  | step t ok =>
    simp only [State.act] at hs
    cases hpc : s.threads t with
    | idle => simp only [hpc] at hs; cases hs
    | waiting x =>
      simp only [hpc] at hs
      cases hh : s.holder x.sender with
      | some u => simp only [hh] at hs; cases hs
      | none =>
        simp only [hh] at hs
        cases hs
        refine inv_gen s _ t (.reading x) h rfl rfl (fun a u => ?_) h.keys (fun e he => Or.inl he) (by simp [flight]) (Or.inl rfl) (Or.inl rfl)
          (by simp [own, hpc]) (by simp [pre, hpc]) (by simp)
        simp only
        by_cases ha : a = x.sender
        · subst ha
          rw [put_same]
          by_cases hut : u = t
          · subst hut; simp [put_same, locked]
          · rw [put_other _ _ _ _ hut, ← h.holder, hh]; simp [Ne.symm hut]
        · rw [put_other _ _ _ _ ha]
          by_cases hut : u = t
          · subst hut
            rw [put_same, h.holder, hpc]
            simp only [locked, Option.some.injEq, reduceCtorEq, false_and, exists_false, false_iff]
            rintro ⟨y, rfl, hy⟩; exact ha hy.symm
          · rw [put_other _ _ _ _ hut]; exact h.holder a u
    | reading x =>
      simp only [hpc] at hs
      split at hs
      · cases hs
        exact inv_gen s _ t .idle h rfl rfl (holder_release s t x h (by rw [hpc]; rfl)) h.keys (fun e he => Or.inl he) (by simp [flight]) (Or.inl rfl)
          (Or.inr ⟨x, _, by rw [hpc]; rfl, rfl, rfl⟩) (by simp [own]) (by simp [pre]) (by simp)
      · cases hs
        exact inv_gen s _ t _ h rfl rfl (holder_keep s t _ h (by rw [hpc]; rfl)) h.keys (fun e he => Or.inl he) (by simp [flight]) (Or.inl rfl) (Or.inl rfl)
          (by simp [own, hpc]) (by simp [pre, hpc]) (by simp)
    | adding x acc =>
      simp only [hpc] at hs
      cases hs
      refine inv_gen s _ t (.looping x acc 0) h rfl rfl (holder_keep s t _ h (by rw [hpc]; rfl)) (keys_add h.keys) (fun e he => ?_) (by simp [flight])
        (Or.inl rfl) (Or.inl rfl) (by simp [own, hpc]) (by simp [pre]) (by simp)
      rcases mem_add he with rfl | he
      · exact Or.inr ⟨by rw [hpc]; rfl, rfl, rfl, rfl⟩
      · exact Or.inl he.1
    | looping x base k =>
      simp only [hpc] at hs
      cases hh : has s.queue (x.sender, at_ base k) with
      | some e =>
        simp only [hh] at hs
        cases hs
        have hm := has_mem hh
        have hk := h.key _ hm
        simp only [Prod.mk.injEq] at hk
        refine inv_gen s _ t (.removing x base k e) h rfl rfl (holder_keep s t _ h (by rw [hpc]; rfl)) (keys_touch h.keys) (fun e he => Or.inl (mem_touch he))
          (fun x' n e' hf => ?_) (Or.inl rfl) (Or.inl rfl) (by simp [own, hpc]) (by simp [pre]) (by simp)
        simp only [flight, Option.some.injEq, Prod.mk.injEq] at hf
        obtain ⟨rfl, rfl, rfl⟩ := hf
        exact ⟨hk.1.symm, hk.2.symm, Or.inr ⟨_, hm⟩⟩
      | none =>
        simp only [hh] at hs
        cases hs
        exact inv_gen s _ t .idle h rfl rfl (holder_release s t x h (by rw [hpc]; rfl)) h.keys (fun e he => Or.inl he) (by simp [flight]) (Or.inl rfl)
          (Or.inr ⟨x, _, by rw [hpc]; rfl, rfl, rfl⟩) (by simp [own]) (by simp [pre]) (by simp)
    | removing x base k e =>
      simp only [hpc] at hs
      cases hs
      have hfl := h.fl t x (at_ base k) e (by rw [hpc]; rfl)
      refine inv_gen s _ t (.sending x base k e) h rfl rfl (holder_keep s t _ h (by rw [hpc]; rfl)) (keys_drop h.keys) (fun e he => Or.inl (mem_drop.1 he).1)
        (fun x' n e' hf => ?_) (Or.inl rfl) (Or.inl rfl) (by simp [own, hpc]) (by simp [pre]) (fun x' b' k' e' he q hq => ?_)
      · simp only [flight, Option.some.injEq, Prod.mk.injEq] at hf
        obtain ⟨rfl, rfl, rfl⟩ := hf
        exact ⟨hfl.1, hfl.2, Or.inl (by rw [hpc]; rfl)⟩
      · cases he
        obtain ⟨h1, h2⟩ := mem_drop.1 hq
        intro hc
        apply h2
        rw [h.key q h1, hc, hfl.1, hfl.2]
    | sending x base k e =>
      simp only [hpc] at hs
      split at hs
      · split at hs
        · cases hs
          exact inv_gen s _ t _ h rfl rfl (holder_keep s t _ h (by rw [hpc]; rfl)) h.keys (fun e he => Or.inl he) (by simp [flight])
            (Or.inr ⟨x, base, k, e, true, _, hpc, rfl, rfl, rfl⟩) (Or.inl rfl) (by simp [own, hpc]) (by simp [pre]) (by simp)
        · cases hs
      · cases hs
        exact inv_gen s _ t .idle h rfl rfl (holder_release s t x h (by rw [hpc]; rfl)) h.keys (fun e he => Or.inl he) (by simp [flight])
          (Or.inr ⟨x, base, k, e, false, _, hpc, rfl, rfl, rfl⟩) (Or.inr ⟨x, _, by rw [hpc]; rfl, rfl, rfl⟩) (by simp [own]) (by simp [pre]) (by simp)


theorem inv_run : ∀ (l : List Act) (s s' : State), Inv s → s.run l = some s' → Inv s'
  | [], s, s', h, hr => by cases hr; exact h
  | a :: l, s, s', h, hr => by
    simp only [State.run] at hr
    cases ha : s.act a with
    | none => rw [ha] at hr; cases hr
    | some s1 => rw [ha] at hr; exact inv_run l s1 s' (inv_act s s1 a h ha) hr

/-! ### Consecutive attempts -/

/-- sequence read and rounds done -/
def prog : Pc → Option (Sub × Nat × Nat)
  | .adding x a => some (x, a, 0)
  | .looping x b k | .removing x b k _ | .sending x b k _ => some (x, b, k)
  | _ => none

/-- consecutive nonces from `base`, all but the last accepted -/
def Consecutive (base : Nat) (l : List Sent) : Prop :=
  l.map (·.tx.nonce) = (List.range l.length).map (at_ base) ∧ ∀ (i : Nat) b, l[i]? = some b → i + 1 < l.length → b.ok = true

structure Inv2 (s : State) : Prop where
  snd : ∀ b ∈ s.sent, b.tx.sender = b.by_.sender
  run : ∀ t x base k, prog (s.threads t) = some (x, base, k) → (x, base) ∈ s.reads ∧ (broadcastsBy s x).length = k ∧
    Consecutive base (broadcastsBy s x) ∧ ∀ b ∈ broadcastsBy s x, b.ok = true
  fin : ∀ x, broadcastsBy s x ≠ [] → ∃ base, (x, base) ∈ s.reads ∧ Consecutive base (broadcastsBy s x)
  rd : ∀ r ∈ s.reads, r.2 ≤ r.1.nonce

theorem consecutive_snoc {base : Nat} {l : List Sent} {b : Sent} (h : Consecutive base l) (hok : ∀ c ∈ l, c.ok = true) (hb : b.tx.nonce = at_ base l.length) :
    Consecutive base (l ++ [b]) := by
  refine ⟨?_, fun i c hc hi => ?_⟩
  · rw [List.map_append, h.1, List.length_append, List.length_singleton, List.range_succ, List.map_append]
    simp [hb]
  · rw [List.length_append, List.length_singleton] at hi
    rw [List.getElem?_append_left (by omega)] at hc
    exact hok c (List.mem_of_getElem? hc)

theorem prog_own {pc : Pc} {x : Sub} {b k : Nat} (h : prog pc = some (x, b, k)) : own pc = some x := by
  cases pc <;> simp [prog] at h <;> simp [own, h.1]

theorem by_keep (s s' : State) (x : Sub) (h : s'.sent = s.sent) : broadcastsBy s' x = broadcastsBy s x := by
  simp [broadcastsBy, h]

theorem by_cons (s s' : State) (x : Sub) (b : Sent) (h : s'.sent = b :: s.sent) :
    broadcastsBy s' x = broadcastsBy s x ++ (if b.by_ = x then [b] else []) := by
  simp only [broadcastsBy, h, List.reverse_cons, List.filter_append, List.filter_cons, List.filter_nil, beq_iff_eq]

/-- steps that send nothing -/
theorem inv2_quiet (s s' : State) (t : Nat) (pc : Pc) (h : Inv2 s) (hth : s'.threads = put s.threads t pc) (hs : s'.sent = s.sent)
    (hrd : ∀ r ∈ s.reads, r ∈ s'.reads) (hrd2 : ∀ r ∈ s'.reads, r.2 ≤ r.1.nonce)
    (hp : ∀ x b k, prog pc = some (x, b, k) → prog (s.threads t) = some (x, b, k) ∨ ((x, b) ∈ s'.reads ∧ k = 0 ∧ broadcastsBy s x = [])) : Inv2 s' := by
  refine ⟨by rw [hs]; exact h.snd, fun u x b k hx => ?_, fun x hx => ?_, hrd2⟩
  · rw [by_keep s s' x hs]
    by_cases hut : u = t
    · subst hut
      rw [hth, put_same] at hx
      rcases hp x b k hx with h1 | ⟨h1, rfl, h3⟩
      · obtain ⟨g1, g2⟩ := h.run u x b k h1
        exact ⟨hrd _ g1, g2⟩
      · rw [h3]; exact ⟨h1, rfl, ⟨rfl, fun i c hc => by simp at hc⟩, fun c hc => by simp at hc⟩
    · rw [hth, put_other _ _ _ _ hut] at hx
      obtain ⟨g1, g2⟩ := h.run u x b k hx
      exact ⟨hrd _ g1, g2⟩
  · rw [by_keep s s' x hs] at hx ⊢
    obtain ⟨b, h1, h2⟩ := h.fin x hx
    exact ⟨b, hrd _ h1, h2⟩

/-- steps that send -/
theorem inv2_send (s s' : State) (t : Nat) (pc : Pc) (x : Sub) (base k : Nat) (e : Sub) (ok : Bool) (n : Nat) (hi : Inv s) (h : Inv2 s)
    (hpc : s.threads t = .sending x base k e) (hth : s'.threads = put s.threads t pc) (hs : s'.sent = ⟨x, e, ok, n⟩ :: s.sent)
    (hrd : s'.reads = s.reads) (hp : prog pc = none ∨ (ok = true ∧ prog pc = some (x, base, k + 1))) : Inv2 s' := by
  obtain ⟨g1, g2, g3, g4⟩ := h.run t x base k (by rw [hpc]; rfl)
  obtain ⟨f1, f2⟩ := hi.fl t x (at_ base k) e (by rw [hpc]; rfl)
  have hx : broadcastsBy s' x = broadcastsBy s x ++ [⟨x, e, ok, n⟩] := by rw [by_cons s s' x _ hs]; simp
  have hy : ∀ y, y ≠ x → broadcastsBy s' y = broadcastsBy s y := by
    intro y hy; rw [by_cons s s' y _ hs]; simp [Ne.symm hy]
  have hcons : Consecutive base (broadcastsBy s' x) := by
    rw [hx]; exact consecutive_snoc g3 g4 (by rw [g2]; exact f2)
  refine ⟨fun b hb => ?_, fun u y b m hu => ?_, fun y hne => ?_, by rw [hrd]; exact h.rd⟩
  · rw [hs] at hb
    rcases List.mem_cons.1 hb with rfl | hb
    · exact f1
    · exact h.snd b hb
  · rw [hrd]
    by_cases hut : u = t
    · subst hut
      rw [hth, put_same] at hu
      rcases hp with hp | ⟨hok, hp⟩
      · rw [hp] at hu; cases hu
      · rw [hp] at hu
        cases hu
        refine ⟨g1, by rw [hx]; simp [g2], hcons, fun c hc => ?_⟩
        rw [hx] at hc
        rcases List.mem_append.1 hc with hc | hc
        · exact g4 c hc
        · rw [List.mem_singleton] at hc; rw [hc]; exact hok
    · rw [hth, put_other _ _ _ _ hut] at hu
      have hyx : y ≠ x := by
        rintro rfl
        exact hut (hi.own1 u t _ (prog_own hu) (by rw [hpc]; rfl))
      rw [hy y hyx]; exact h.run u y b m hu
  · rw [hrd]
    by_cases hyx : y = x
    · subst hyx; exact ⟨base, g1, hcons⟩
    · rw [hy y hyx] at hne ⊢; exact h.fin y hne

theorem inv2_act (s s' : State) (a : Act) (hi : Inv s) (h : Inv2 s) (hs : s.act a = some s') : Inv2 s' := by
  cases a with
  | chain b n => simp only [State.act] at hs; cases hs; exact ⟨h.snd, h.run, h.fin, h.rd⟩
  | submit t sender nonce =>
    simp only [State.act] at hs
    split at hs
    · cases hs; exact inv2_quiet s _ t _ h rfl rfl (fun r hr => hr) h.rd (by simp [prog])
    · cases hs
  | step t ok =>
    simp only [State.act] at hs
    cases hpc : s.threads t with
    | idle => simp only [hpc] at hs; cases hs
    | waiting x =>
      simp only [hpc] at hs
      split at hs
      · cases hs; exact inv2_quiet s _ t _ h rfl rfl (fun r hr => hr) h.rd (by simp [prog])
      · cases hs
    | reading x =>
      simp only [hpc] at hs
      split at hs
      · cases hs; exact inv2_quiet s _ t _ h rfl rfl (fun r hr => hr) h.rd (by simp [prog])
      · next hle =>
        cases hs
        refine inv2_quiet s _ t _ h rfl rfl (fun r hr => List.mem_cons_of_mem _ hr) (fun r hr => ?_) (fun y b k hy => ?_)
        · rcases List.mem_cons.1 hr with rfl | hr
          · simp only; omega
          · exact h.rd r hr
        · simp only [prog, Option.some.injEq, Prod.mk.injEq] at hy
          obtain ⟨rfl, rfl, rfl⟩ := hy
          refine Or.inr ⟨by simp, rfl, ?_⟩
          simp only [broadcastsBy, List.filter_eq_nil_iff, List.mem_reverse, beq_iff_eq]
          exact fun b hb => hi.preB t x (by rw [hpc]; rfl) b hb
    | adding x acc =>
      simp only [hpc] at hs
      cases hs
      exact inv2_quiet s _ t _ h rfl rfl (fun r hr => hr) h.rd (fun y b k hy => Or.inl (by rw [hpc]; exact hy))
    | looping x base k =>
      simp only [hpc] at hs
      split at hs
      · cases hs
        exact inv2_quiet s _ t _ h rfl rfl (fun r hr => hr) h.rd (fun y b k hy => Or.inl (by rw [hpc]; exact hy))
      · cases hs; exact inv2_quiet s _ t _ h rfl rfl (fun r hr => hr) h.rd (by simp [prog])
    | removing x base k e =>
      simp only [hpc] at hs
      cases hs
      exact inv2_quiet s _ t _ h rfl rfl (fun r hr => hr) h.rd (fun y b k hy => Or.inl (by rw [hpc]; exact hy))
    | sending x base k e =>
      simp only [hpc] at hs
      split at hs
      · split at hs
        · cases hs; exact inv2_send s _ t _ x base k e true _ hi h hpc rfl rfl rfl (Or.inr ⟨rfl, rfl⟩)
        · cases hs
      · cases hs; exact inv2_send s _ t _ x base k e false _ hi h hpc rfl rfl rfl (Or.inl rfl)

theorem inv2_run : ∀ (l : List Act) (s s' : State), Inv s → Inv2 s → s.run l = some s' → Inv2 s'
  | [], s, s', _, h, hr => by cases hr; exact h
  | a :: l, s, s', hi, h, hr => by
    simp only [State.run] at hr
    cases ha : s.act a with
    | none => rw [ha] at hr; cases hr
    | some s1 => rw [ha] at hr; exact inv2_run l s1 s' (inv_act s s1 a hi ha) (inv2_act s s1 a hi h ha) hr

theorem inv2_init (cap : Nat) (seq : Nat → Nat) : Inv2 (State.init cap seq) :=
  ⟨by simp [State.init], by simp [State.init, prog], by simp [State.init, broadcastsBy], by simp [State.init]⟩

/-- C41: whatever happens, the transactions broadcast on behalf of one submission are of its sender and have consecutive nonces starting
at the account's sequence as read then, which is not above its own nonce; it stops at the first refusal. -/
theorem C41_consecutive (cap : Nat) (seq : Nat → Nat) (l : List Act) (s : State) (hr : (State.init cap seq).run l = some s) (x : Sub)
    (hne : broadcastsBy s x ≠ []) :
    (∀ b ∈ broadcastsBy s x, b.tx.sender = x.sender) ∧ ∃ base, (x, base) ∈ s.reads ∧ base ≤ x.nonce ∧ Consecutive base (broadcastsBy s x) := by
  have h2 := inv2_run l _ s (inv_init cap seq) (inv2_init cap seq) hr
  obtain ⟨base, h3, h4⟩ := h2.fin x hne
  refine ⟨fun b hb => ?_, base, h3, h2.rd _ h3, h4⟩
  simp only [broadcastsBy, List.mem_filter, List.mem_reverse, beq_iff_eq] at hb
  rw [h2.snd b hb.1, hb.2]

/-- C41: no submission's transaction is broadcast twice. -/
theorem C41_once (cap : Nat) (seq : Nat → Nat) (l : List Act) (s : State) (hr : (State.init cap seq).run l = some s) : (s.sent.map (·.tx)).Nodup :=
  (inv_run l _ s (inv_init cap seq) hr).sent1

/-! ### Order, when nothing else changes the account -/

/-- cursor after attempts -/
def cursor : Nat → List Sent → Nat
  | n, [] => n
  | n, b :: l => cursor (if b.ok then (n + 1) % 18446744073709551616 else n) l

theorem ordered_snoc : ∀ (l : List Sent) (n : Nat) (b : Sent), Ordered n l → b.tx.nonce = cursor n l → Ordered n (l ++ [b])
  | [], n, b, _, h => ⟨h, trivial⟩
  | c :: l, n, b, h, hb => ⟨h.1, ordered_snoc l _ b h.2 hb⟩

theorem cursor_snoc : ∀ (l : List Sent) (n : Nat) (b : Sent), cursor n (l ++ [b]) = if b.ok then (cursor n l + 1) % 18446744073709551616 else cursor n l
  | [], _, _ => rfl
  | _ :: l, _, b => cursor_snoc l _ b

/-- what is read or expected is the account's sequence -/
structure Inv3 (seq0 : Nat → Nat) (s : State) : Prop where
  small : ∀ a, s.seq a < 18446744073709551616
  cur : ∀ t x b k, prog (s.threads t) = some (x, b, k) → at_ b k = s.seq x.sender
  ord : ∀ a, Ordered (seq0 a) (broadcastsOf s a) ∧ cursor (seq0 a) (broadcastsOf s a) = s.seq a
  seqs : ∀ b ∈ s.sent, b.seq = b.tx.nonce

theorem of_keep (s s' : State) (a : Nat) (h : s'.sent = s.sent) : broadcastsOf s' a = broadcastsOf s a := by
  simp [broadcastsOf, h]

theorem of_cons (s s' : State) (a : Nat) (b : Sent) (h : s'.sent = b :: s.sent) :
    broadcastsOf s' a = broadcastsOf s a ++ (if b.tx.sender = a then [b] else []) := by
  simp only [broadcastsOf, h, List.reverse_cons, List.filter_append, List.filter_cons, List.filter_nil, beq_iff_eq]

theorem inv3_quiet (seq0 : Nat → Nat) (s s' : State) (t : Nat) (pc : Pc) (h : Inv3 seq0 s) (hth : s'.threads = put s.threads t pc) (hs : s'.sent = s.sent)
    (hq : s'.seq = s.seq)
    (hp : ∀ x b k, prog pc = some (x, b, k) → prog (s.threads t) = some (x, b, k) ∨ at_ b k = s.seq x.sender) : Inv3 seq0 s' := by
  refine ⟨by rw [hq]; exact h.small, fun u x b k hx => ?_, fun a => by rw [of_keep s s' a hs, hq]; exact h.ord a, by rw [hs]; exact h.seqs⟩
  rw [hq]
  by_cases hut : u = t
  · subst hut
    rw [hth, put_same] at hx
    rcases hp x b k hx with h1 | h1
    · exact h.cur u x b k h1
    · exact h1
  · rw [hth, put_other _ _ _ _ hut] at hx; exact h.cur u x b k hx

theorem prog_locked {pc : Pc} {x : Sub} {b k : Nat} (h : prog pc = some (x, b, k)) : locked pc = some x := by
  cases pc <;> simp [prog] at h <;> simp [locked, h.1]

theorem inv3_act (seq0 : Nat → Nat) (s s' : State) (a : Act) (hi : Inv s) (h : Inv3 seq0 s) (hno : ∀ b n, a ≠ .chain b n) (hs : s.act a = some s') : Inv3 seq0 s' := by
  cases a with
  | chain b n => exact absurd rfl (hno b n)
  | submit t sender nonce =>
    simp only [State.act] at hs
    split at hs
    · cases hs; exact inv3_quiet seq0 s _ t _ h rfl rfl rfl (by simp [prog])
    · cases hs
  | step t ok =>
    simp only [State.act] at hs
    cases hpc : s.threads t with
    | idle => simp only [hpc] at hs; cases hs
    | waiting x =>
      simp only [hpc] at hs
      split at hs
      · cases hs; exact inv3_quiet seq0 s _ t _ h rfl rfl rfl (by simp [prog])
      · cases hs
    | reading x =>
      simp only [hpc] at hs
      split at hs
      · cases hs; exact inv3_quiet seq0 s _ t _ h rfl rfl rfl (by simp [prog])
      · cases hs
        refine inv3_quiet seq0 s _ t _ h rfl rfl rfl (fun y b k hy => Or.inr ?_)
        simp only [prog, Option.some.injEq, Prod.mk.injEq] at hy
        obtain ⟨rfl, rfl, rfl⟩ := hy
        simp only [at_, Nat.add_zero]
        exact Nat.mod_eq_of_lt (h.small _)
    | adding x acc =>
      simp only [hpc] at hs
      cases hs
      exact inv3_quiet seq0 s _ t _ h rfl rfl rfl (fun y b k hy => Or.inl (by rw [hpc]; exact hy))
    | looping x base k =>
      simp only [hpc] at hs
      split at hs
      · cases hs
        exact inv3_quiet seq0 s _ t _ h rfl rfl rfl (fun y b k hy => Or.inl (by rw [hpc]; exact hy))
      · cases hs; exact inv3_quiet seq0 s _ t _ h rfl rfl rfl (by simp [prog])
    | removing x base k e =>
      simp only [hpc] at hs
      cases hs
      exact inv3_quiet seq0 s _ t _ h rfl rfl rfl (fun y b k hy => Or.inl (by rw [hpc]; exact hy))
    | sending x base k e =>
      simp only [hpc] at hs
      obtain ⟨f1, f2⟩ := hi.fl t x (at_ base k) e (by rw [hpc]; rfl)
      have hcur := h.cur t x base k (by rw [hpc]; rfl)
      have hen : e.nonce = s.seq x.sender := by rw [f2, hcur]
      have hlk := (hi.holder x.sender t).2 ⟨x, by rw [hpc]; rfl, rfl⟩
      have hothers : ∀ u y b m, u ≠ t → prog (s.threads u) = some (y, b, m) → y.sender ≠ x.sender := by
        intro u y b m hut hu hc
        have := (hi.holder x.sender u).2 ⟨y, prog_locked hu, hc⟩
        rw [hlk] at this; exact hut (Option.some.inj this).symm
      split at hs
      · split at hs
        · cases hs
          refine ⟨fun a => ?_, fun u y b m hu => ?_, fun a => ?_, fun b hb => ?_⟩
          · simp only
            by_cases ha : a = x.sender
            · subst ha; rw [put_same]; exact Nat.mod_lt _ (by decide)
            · rw [put_other _ _ _ _ ha]; exact h.small a
          · simp only at hu ⊢
            by_cases hut : u = t
            · subst hut
              rw [put_same] at hu
              simp only [prog, Option.some.injEq, Prod.mk.injEq] at hu
              obtain ⟨rfl, rfl, rfl⟩ := hu
              rw [put_same, ← hcur]
              simp only [at_]; omega
            · rw [put_other _ _ _ _ hut] at hu
              rw [put_other _ _ _ _ (hothers u y b m hut hu)]
              exact h.cur u y b m hu
          · rw [of_cons s _ a _ rfl]
            obtain ⟨o1, o2⟩ := h.ord a
            simp only
            by_cases ha : a = x.sender
            · subst ha
              rw [if_pos f1, put_same]
              exact ⟨ordered_snoc _ _ _ o1 (by simp only; rw [hen, o2]), by rw [cursor_snoc, o2]; simp⟩
            · have : ¬ e.sender = a := fun hc => ha (by rw [← hc, f1])
              rw [if_neg this, List.append_nil, put_other _ _ _ _ ha]
              exact ⟨o1, o2⟩
          · rcases List.mem_cons.1 hb with rfl | hb
            · exact hen.symm
            · exact h.seqs b hb
        · cases hs
      · cases hs
        refine ⟨h.small, fun u y b m hu => ?_, fun a => ?_, fun b hb => ?_⟩
        · simp only [State.finish] at hu ⊢
          by_cases hut : u = t
          · subst hut; rw [put_same] at hu; cases hu
          · rw [put_other _ _ _ _ hut] at hu
            exact h.cur u y b m hu
        · rw [of_cons s _ a _ rfl]
          obtain ⟨o1, o2⟩ := h.ord a
          simp only [State.finish]
          by_cases ha : a = x.sender
          · subst ha
            rw [if_pos f1]
            exact ⟨ordered_snoc _ _ _ o1 (by simp only; rw [hen, o2]), by rw [cursor_snoc, o2]; simp⟩
          · have : ¬ e.sender = a := fun hc => ha (by rw [← hc, f1])
            rw [if_neg this, List.append_nil]
            exact ⟨o1, o2⟩
        · rcases List.mem_cons.1 hb with rfl | hb
          · exact hen.symm
          · exact h.seqs b hb

theorem inv3_run (seq0 : Nat → Nat) : ∀ (l : List Act) (s s' : State), (∀ a ∈ l, ∀ b n, a ≠ .chain b n) → Inv s → Inv3 seq0 s → s.run l = some s' → Inv3 seq0 s'
  | [], s, s', _, _, h, hr => by cases hr; exact h
  | a :: l, s, s', hn, hi, h, hr => by
    simp only [State.run] at hr
    cases ha : s.act a with
    | none => rw [ha] at hr; cases hr
    | some s1 =>
      rw [ha] at hr
      exact inv3_run seq0 l s1 s' (fun c hc => hn c (List.mem_cons_of_mem _ hc)) (inv_act s s1 a hi ha) (inv3_act seq0 s s1 a hi h (hn a (by simp)) ha) hr

/-- C41: as long as nothing else changes the account, all broadcasts for a sender, of all its submissions together, are made in
nonce order without gaps, starting at the account's sequence; the nonce of each is the sequence the node then has. -/
theorem C41_in_order (cap : Nat) (seq : Nat → Nat) (hsmall : ∀ a, seq a < 2 ^ 64) (l : List Act) (hno : ∀ a ∈ l, ∀ b n, a ≠ .chain b n) (s : State)
    (hr : (State.init cap seq).run l = some s) : (∀ a, Ordered (seq a) (broadcastsOf s a)) ∧ ∀ b ∈ s.sent, b.seq = b.tx.nonce := by
  have h := inv3_run seq l _ s hno (inv_init cap seq)
    ⟨hsmall, by simp [State.init, prog], fun a => ⟨trivial, rfl⟩, by simp [State.init]⟩ hr
  exact ⟨fun a => (h.ord a).1, h.seqs⟩

/-- C41: a stale nonce is refused, and changes neither queue nor broadcasts. -/
theorem C41_stale (s : State) (t : Nat) (x : Sub) (ok : Bool) (hp : s.threads t = .reading x) (hlt : s.seq x.sender > x.nonce) :
    ∃ s', s.act (.step t ok) = some s' ∧ s'.queue = s.queue ∧ s'.sent = s.sent ∧ s'.results = (x, .nonceTooLow) :: s.results := by
  refine ⟨s.finish t x .nonceTooLow, ?_, rfl, rfl, rfl⟩
  simp only [State.act, hp, hlt, if_true]

/-- Between finding an entry and removing it, nobody replaces it. -/
def Inv4 (s : State) : Prop := ∀ t x b k e, s.threads t = .removing x b k e → ∀ q ∈ s.queue, q.1 = (x.sender, at_ b k) → q.2 = e

theorem key_unique {q : Queue} (hn : (q.map (·.1)).Nodup) {x y : (Nat × Nat) × Sub} (hx : x ∈ q) (hy : y ∈ q) (hk : x.1 = y.1) : x = y := by
  obtain ⟨i, hi, rfl⟩ := List.getElem_of_mem hx
  obtain ⟨j, hj, rfl⟩ := List.getElem_of_mem hy
  have hij : i = j := by
    apply (List.getElem_inj (xs := q.map (fun y => y.1)) (h₀ := by simpa using hi) (h₁ := by simpa using hj) hn).1
    simpa only [List.getElem_map] using hk
  subst hij; rfl

theorem inv4_quiet (s s' : State) (t : Nat) (pc : Pc) (h : Inv4 s) (hth : s'.threads = put s.threads t pc) (hq : ∀ q ∈ s'.queue, q ∈ s.queue)
    (hp : ∀ x b k e, pc ≠ .removing x b k e) : Inv4 s' := by
  intro u x b k e hu q hm
  by_cases hut : u = t
  · subst hut; rw [hth, put_same] at hu; exact absurd hu (hp x b k e)
  · rw [hth, put_other _ _ _ _ hut] at hu; exact h u x b k e hu q (hq q hm)

theorem inv4_act (s s' : State) (a : Act) (hi : Inv s) (h : Inv4 s) (hs : s.act a = some s') : Inv4 s' := by
  cases a with
  | chain b n => simp only [State.act] at hs; cases hs; exact h
  | submit t sender nonce =>
    simp only [State.act] at hs
    split at hs
    · cases hs; exact inv4_quiet s _ t _ h rfl (fun q hq => hq) (by simp)
    · cases hs
  | step t ok =>
    simp only [State.act] at hs
    cases hpc : s.threads t with
    | idle => simp only [hpc] at hs; cases hs
    | waiting x =>
      simp only [hpc] at hs
      split at hs
      · cases hs; exact inv4_quiet s _ t _ h rfl (fun q hq => hq) (by simp)
      · cases hs
    | reading x =>
      simp only [hpc] at hs
      split at hs
      · cases hs; exact inv4_quiet s _ t _ h rfl (fun q hq => hq) (by simp)
      · cases hs; exact inv4_quiet s _ t _ h rfl (fun q hq => hq) (by simp)
    | adding x acc =>
      simp only [hpc] at hs
      cases hs
      intro u y b k e hu q hm hk
      by_cases hut : u = t
      · subst hut; simp only [put_same] at hu; cases hu
      · simp only [put_other _ _ _ _ hut] at hu
        rcases mem_add hm with rfl | ⟨hm, _⟩
        · have h1 := (hi.holder x.sender t).2 ⟨x, by rw [hpc]; rfl, rfl⟩
          simp only [Prod.mk.injEq] at hk
          have h2 := (hi.holder x.sender u).2 ⟨y, by rw [hu]; rfl, hk.1.symm⟩
          rw [h1] at h2; exact absurd (Option.some.inj h2).symm hut
        · exact h u y b k e hu q hm hk
    | looping x base k =>
      simp only [hpc] at hs
      cases hh : has s.queue (x.sender, at_ base k) with
      | some e =>
        simp only [hh] at hs
        cases hs
        intro u y b m e' hu q hm hk
        by_cases hut : u = t
        · subst hut
          simp only [put_same] at hu
          cases hu
          have := key_unique hi.keys (mem_touch hm) (has_mem hh) hk
          rw [this]
        · simp only [put_other _ _ _ _ hut] at hu
          exact h u y b m e' hu q (mem_touch hm) hk
      | none =>
        simp only [hh] at hs
        cases hs; exact inv4_quiet s _ t _ h rfl (fun q hq => hq) (by simp)
    | removing x base k e =>
      simp only [hpc] at hs
      cases hs
      exact inv4_quiet s _ t _ h rfl (fun q hq => (mem_drop.1 hq).1) (by simp)
    | sending x base k e =>
      simp only [hpc] at hs
      split at hs
      · split at hs
        · cases hs; exact inv4_quiet s _ t _ h rfl (fun q hq => hq) (by simp)
        · cases hs
      · cases hs; exact inv4_quiet s _ t _ h rfl (fun q hq => hq) (by simp)

theorem inv4_run : ∀ (l : List Act) (s s' : State), Inv s → Inv4 s → s.run l = some s' → Inv4 s'
  | [], s, s', _, h, hr => by cases hr; exact h
  | a :: l, s, s', hi, h, hr => by
    simp only [State.run] at hr
    cases ha : s.act a with
    | none => rw [ha] at hr; cases hr
    | some s1 => rw [ha] at hr; exact inv4_run l s1 s' (inv_act s s1 a hi ha) (inv4_act s s1 a hi h ha) hr

/-- C41: a transaction leaves the queue only to be broadcast next by a submission of its sender, or because another one with the same
sender and nonce replaces it, or because the queue is full (`C41_evicted_violated`). -/
theorem C41_waits_partial (cap : Nat) (seq : Nat → Nat) (l : List Act) (s s' : State) (hr : (State.init cap seq).run l = some s) (a : Act)
    (ha : s.act a = some s') (q : (Nat × Nat) × Sub) (hq : q ∈ s.queue) (hq' : q ∉ s'.queue) :
    (∃ t x b k, s'.threads t = .sending x b k q.2) ∨
    ∃ t x acc, s.threads t = .adding x acc ∧ ((x.sender, x.nonce) = q.1 ∨ s.cap ≤ s.queue.length) := by
  have hi := inv_run l _ s (inv_init cap seq) hr
  cases a with
  | chain b n => simp only [State.act] at ha; cases ha; exact absurd hq hq'
  | submit t sender nonce =>
    simp only [State.act] at ha
    split at ha
    · cases ha; exact absurd hq hq'
    · cases ha
  | step t ok =>
    simp only [State.act] at ha
    cases hpc : s.threads t with
    | idle => simp only [hpc] at ha; cases ha
    | waiting x =>
      simp only [hpc] at ha
      split at ha
      · cases ha; exact absurd hq hq'
      · cases ha
    | reading x =>
      simp only [hpc] at ha
      split at ha
      · cases ha; exact absurd hq hq'
      · cases ha; exact absurd hq hq'
    | adding x acc =>
      simp only [hpc] at ha
      cases ha
      refine Or.inr ⟨t, x, acc, hpc, ?_⟩
      by_cases hk : q.1 = (x.sender, x.nonce)
      · exact Or.inl hk.symm
      · right
        simp only [add] at hq'
        have hm : q ∈ ((x.sender, x.nonce), x) :: drop s.queue (x.sender, x.nonce) := List.mem_cons_of_mem _ (mem_drop.2 ⟨hq, hk⟩)
        by_cases hc : s.queue.length < s.cap
        · have hlen : (((x.sender, x.nonce), x) :: drop s.queue (x.sender, x.nonce)).length ≤ s.cap := by
            rw [List.length_cons]
            have := List.length_filter_le (fun y : (Nat × Nat) × Sub => y.1 != (x.sender, x.nonce)) s.queue
            unfold drop; omega
          rw [List.take_of_length_le hlen] at hq'
          exact absurd hm hq'
        · omega
    | looping x base k =>
      simp only [hpc] at ha
      split at ha
      · cases ha; exact absurd (mem_touch_of hi.keys hq) hq'
      · cases ha; exact absurd hq hq'
    | removing x base k e =>
      simp only [hpc] at ha
      cases ha
      refine Or.inl ⟨t, x, base, k, ?_⟩
      simp only [put_same]
      have hk : q.1 = (x.sender, at_ base k) := by
        by_cases hk : q.1 = (x.sender, at_ base k)
        · exact hk
        · exact absurd (mem_drop.2 ⟨hq, hk⟩) hq'
      rw [inv4_run l _ s (inv_init cap seq) (fun t x b k e h => by simp [State.init] at h) hr t x base k e hpc q hq hk]
    | sending x base k e =>
      simp only [hpc] at ha
      split at ha
      · split at ha
        · cases ha; exact absurd hq hq'
        · cases ha
      · cases ha; exact absurd hq hq'


/-- C41: when a submission returns without error, nothing that could be sent next by it is still queued. -/
theorem C41_drained (s s' : State) (t : Nat) (x : Sub) (base k : Nat) (ok : Bool) (hp : s.threads t = .looping x base k)
    (hs : s.act (.step t ok) = some s') (hd : s'.threads t = .idle) :
    s'.results = (x, .ok) :: s.results ∧ ∀ q ∈ s'.queue, q.1 ≠ (x.sender, at_ base k) := by
  simp only [State.act, hp] at hs
  cases hh : has s.queue (x.sender, at_ base k) with
  | some e => simp only [hh] at hs; cases hs; simp [put_same] at hd
  | none => simp only [hh] at hs; cases hs; exact ⟨rfl, has_none hh⟩

/-! ### Concrete runs -/

/-- goroutine `t` makes `n` steps, all broadcasts accepted -/
def go (t n : Nat) : List Act := List.replicate n (.step t true)

/-- Nonces 2, 1, 0 arrive in that order: they are broadcast in the order 0, 1, 2. Afterwards nonce 1 is stale. -/
example : ((State.init 4 (fun _ => 0)).run ([.submit 0 7 2] ++ go 0 4 ++ [.submit 1 7 1] ++ go 1 4 ++ [.submit 2 7 0] ++ go 2 13 ++ [.submit 3 7 1] ++ go 3 2)).map
    (fun s => (s.sent.reverse.map (fun b => (b.by_.nonce, b.tx.nonce, b.ok)), s.results.map (fun r => (r.1.nonce, r.2)), s.queue.length)) =
    some ([(0, 0, true), (0, 1, true), (0, 2, true)], [(1, .nonceTooLow), (0, .ok), (1, .ok), (2, .ok)], 0) := by decide +kernel

/-- C41 does not hold when the queue is full: the waiting transaction of one sender, which was answered without an error, is dropped by
a submission of another sender, and is not broadcast when the gap is filled. -/
theorem C41_evicted_violated : ((State.init 1 (fun _ => 0)).run ([.submit 0 7 1] ++ go 0 4 ++ [.submit 1 8 1] ++ go 1 4 ++ [.submit 2 7 0] ++ go 2 7)).map
    (fun s => (s.sent.map (fun b => (b.tx.sender, b.tx.nonce)), s.results, s.queue)) =
    some ([(7, 0)], [(⟨2, 7, 0⟩, .ok), (⟨1, 8, 1⟩, .ok), (⟨0, 7, 1⟩, .ok)], []) := by decide +kernel

/-- C63: an error because of a low nonce means that the transaction was not sent. -/
theorem C63_low_nonce_partial (cap : Nat) (seq : Nat → Nat) (l : List Act) (s s' : State) (hr : (State.init cap seq).run l = some s) (t : Nat) (x : Sub) (ok : Bool)
    (hp : s.threads t = .reading x) (hs : s.act (.step t ok) = some s') (hres : s'.results = (x, .nonceTooLow) :: s.results) :
    x ∉ s'.sent.map (·.tx) ∧ ∀ q ∈ s'.queue, q.2 ≠ x := by
  have hi := inv_run l _ s (inv_init cap seq) hr
  obtain ⟨p1, p2, _⟩ := hi.pre1 t x (by rw [hp]; rfl)
  simp only [State.act, hp] at hs
  split at hs
  · cases hs; exact ⟨p2, p1⟩
  · cases hs
    exact absurd (congrArg List.length hres) (by simp)

/-- C63 does not hold: nonce 1 waits in the queue; nonce 0 arrives and is accepted by the node, but the answer is an error, because the
transaction with nonce 1, sent after it, is refused. The refused transaction, answered without an error before, is lost. -/
theorem C63_violated : ((State.init 4 (fun _ => 0)).run ([.submit 0 7 1] ++ go 0 4 ++ [.submit 1 7 0] ++ go 1 8 ++ [.step 1 false])).map
    (fun s => (s.sent.reverse.map (fun b => (b.tx.id, b.ok)), s.results, s.queue.length)) =
    some ([(1, true), (0, false)], [(⟨1, 7, 0⟩, .refused), (⟨0, 7, 1⟩, .ok)], 0) := by decide +kernel

/-- C63 does not hold: a second transaction with the same nonce silently replaces the waiting one; both are answered without an error. -/
theorem C63_replaced_violated : ((State.init 4 (fun _ => 0)).run ([.submit 0 7 1] ++ go 0 4 ++ [.submit 1 7 1] ++ go 1 4)).map
    (fun s => (s.results, s.queue)) = some ([(⟨1, 7, 1⟩, .ok), (⟨0, 7, 1⟩, .ok)], [((7, 1), ⟨1, 7, 1⟩)]) := by decide +kernel

end Verif.SendQueue
