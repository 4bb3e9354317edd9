import Verif.Model.Endpoints
import Verif.Props.SendQueue
/-
C104: a client may use the HTTP and the WebSocket endpoint of a node interchangeably.
-/
namespace Verif.Endpoints
open Verif Verif.SendQueue
open Verif.LockTable (put)

theorem run_append (s : State) : ∀ (l m : List Act), s.run (l ++ m) = (s.run l).bind fun s' => s'.run m
  | [], m => rfl
  | a :: l, m => by
    simp only [List.cons_append, State.run]
    cases h : s.act a with
    | none => rfl
    | some s' => simp only [Option.bind_some]; exact run_append s' l m

/-- A step changes the sequences not at all, or that of one account, as a chain event may. -/
theorem seq_change {s s' : State} {a : Act} (h : s.act a = some s') :
    s'.seq = s.seq ∨ ∃ b n, s'.seq = put s.seq b (n % 18446744073709551616) := by
  cases a with
  | submit t sender nonce =>
    simp only [State.act] at h
    split at h
    · cases h; exact .inl rfl
    · cases h
  | chain b n => simp only [State.act] at h; cases h; exact .inr ⟨b, n, rfl⟩
  | step t ok =>
    simp only [State.act] at h
    split at h
    · cases h
    · split at h <;> cases h; exact .inl rfl
    · split at h <;> cases h <;> exact .inl rfl
    · cases h; exact .inl rfl
    · split at h <;> cases h <;> exact .inl rfl
    · cases h; exact .inl rfl
    · split at h
      · split at h
        · cases h; exact .inr ⟨_, _, rfl⟩
        · cases h
      · cases h; exact .inl rfl

/-- What the other endpoint does looks to a backend like nothing, or like an event of the chain. -/
theorem other_step (w : State) {s s' : State} {a : Act} (h : s.act a = some s') (hq : w.seq = s.seq) :
    ∃ l, (∀ x ∈ l, ∃ b n, x = .chain b n) ∧ w.run l = some { w with seq := s'.seq } := by
  rcases seq_change h with e | ⟨b, n, e⟩
  · exact ⟨[], by simp, by rw [e, ← hq]; rfl⟩
  · exact ⟨[.chain b n], by intro x hx; simp at hx; exact ⟨b, n, hx⟩, by rw [e, ← hq]; rfl⟩

/-- **C104** (each endpoint by itself): whatever happens at the two endpoints, in any interleaving, each backend is in a state it
could have reached as the only one, with the other's transactions reaching the chain another way. So everything proved about one
backend (C41, C60, C63) holds of each of the two. -/
theorem C104_each (cap : Nat) (seq : Nat → Nat) (l : List (Bool × Act)) (s : Two) (h : (Two.start cap seq).run l = some s) :
    (∃ l', (State.init cap seq).run l' = some s.http) ∧ (∃ l', (State.init cap seq).run l' = some s.ws) ∧ s.http.seq = s.ws.seq := by
  suffices H : ∀ (l : List (Bool × Act)) (s0 s : Two), s0.http.seq = s0.ws.seq → s0.run l = some s →
      (∃ l', s0.http.run l' = some s.http) ∧ (∃ l', s0.ws.run l' = some s.ws) ∧ s.http.seq = s.ws.seq from
    H l _ s rfl h
  intro l
  induction l with
  | nil => intro s0 s hq h; cases h; exact ⟨⟨[], rfl⟩, ⟨[], rfl⟩, hq⟩
  | cons a l ih =>
    intro s0 s hq h
    simp only [Two.run] at h
    obtain ⟨s1, h1, h2⟩ := Option.bind_eq_some_iff.1 h
    obtain ⟨b, a⟩ := a
    cases b with
    | false =>
      simp only [Two.act] at h1
      obtain ⟨x, h3, h4⟩ := Option.map_eq_some_iff.1 h1
      subst h4
      obtain ⟨⟨l1, i1⟩, ⟨l2, i2⟩, i3⟩ := ih ⟨x, { s0.ws with seq := x.seq }⟩ s rfl h2
      obtain ⟨m, _, hm⟩ := other_step s0.ws h3 hq.symm
      refine ⟨⟨a :: l1, ?_⟩, ⟨m ++ l2, ?_⟩, i3⟩
      · simp only [State.run, h3, Option.bind_some]; exact i1
      · rw [run_append, hm]; exact i2
    | true =>
      simp only [Two.act] at h1
      obtain ⟨x, h3, h4⟩ := Option.map_eq_some_iff.1 h1
      subst h4
      obtain ⟨⟨l1, i1⟩, ⟨l2, i2⟩, i3⟩ := ih ⟨{ s0.http with seq := x.seq }, x⟩ s rfl h2
      obtain ⟨m, _, hm⟩ := other_step s0.http h3 hq
      refine ⟨⟨m ++ l1, ?_⟩, ⟨a :: l2, ?_⟩, i3⟩
      · rw [run_append, hm]; exact i1
      · simp only [State.run, h3, Option.bind_some]; exact i2

/-- **C104** (consequence, order): over each endpoint no submission's transaction is handed to the chain twice, and what is handed
over on behalf of one submission has consecutive nonces. -/
theorem C104_order (cap : Nat) (seq : Nat → Nat) (l : List (Bool × Act)) (s : Two) (h : (Two.start cap seq).run l = some s) :
    ∀ e ∈ [s.http, s.ws], (e.sent.map (·.tx)).Nodup ∧
      ∀ x, broadcastsBy e x ≠ [] → ∃ base, base ≤ x.nonce ∧ Consecutive base (broadcastsBy e x) := by
  obtain ⟨⟨l1, i1⟩, ⟨l2, i2⟩, _⟩ := C104_each cap seq l s h
  intro e he
  rcases List.mem_cons.1 he with rfl | he
  · exact ⟨C41_once cap seq l1 _ i1, fun x hx => by
      obtain ⟨_, b, _, h1, h2⟩ := C41_consecutive cap seq l1 _ i1 x hx; exact ⟨b, h1, h2⟩⟩
  · rcases List.mem_cons.1 he with rfl | he
    · exact ⟨C41_once cap seq l2 _ i2, fun x hx => by
        obtain ⟨_, b, _, h1, h2⟩ := C41_consecutive cap seq l2 _ i2 x hx; exact ⟨b, h1, h2⟩⟩
    · cases he

/-- Nothing that happens at the WebSocket endpoint or on the chain changes what waits at the HTTP endpoint. -/
theorem queue_kept : ∀ (l : List (Bool × Act)) (s s' : Two), (∀ a ∈ l, a.1 = true ∨ ∃ b n, a.2 = .chain b n) →
    s.run l = some s' → s'.http.queue = s.http.queue
  | [], s, s', _, h => by cases h; rfl
  | (e, a) :: l, s, s', hl, h => by
    simp only [Two.run] at h
    obtain ⟨s1, h1, h2⟩ := Option.bind_eq_some_iff.1 h
    have ih := queue_kept l s1 s' (fun x hx => hl x (by simp [hx])) h2
    rw [ih]
    cases e with
    | true =>
      simp only [Two.act] at h1
      obtain ⟨x, _, h4⟩ := Option.map_eq_some_iff.1 h1
      rw [← h4]
    | false =>
      rcases hl (false, a) (by simp) with h' | ⟨b, n, rfl⟩
      · cases h'
      · simp only [Two.act, State.act, Option.map_some] at h1
        cases h1; rfl

/-- goroutine `t` of an endpoint makes `n` steps, all broadcasts accepted -/
def goAt (e : Bool) (t n : Nat) : List (Bool × Act) := (go t n).map (e, ·)

/-- A transaction with nonce 1 sent over HTTP, then the one with nonce 0 over WebSocket. -/
def gapRun : List (Bool × Act) := [(false, .submit 0 7 1)] ++ goAt false 0 4 ++ [(true, .submit 0 7 0)] ++ goAt true 0 7

/-- **C104 does not hold**: a transaction waiting at one endpoint is not sent when the gap before it is filled at the other. Sender 7
sends nonce 1 over HTTP and nonce 0 over WebSocket; both are answered without error, only nonce 0 is sent, and however long everything
else goes on — at the WebSocket endpoint and on the chain, including further transactions of this sender there — the transaction
still waits, until the next submission over HTTP. Over one endpoint both are sent. -/
theorem C104_gap_violated :
    (∃ s, (Two.start 4 (fun _ => 0)).run gapRun = some s ∧ s.http.results = [(⟨0, 7, 1⟩, .ok)] ∧ s.ws.results = [(⟨0, 7, 0⟩, .ok)] ∧
      s.http.sent = [] ∧ s.ws.sent.map (·.tx.nonce) = [0] ∧ s.http.seq 7 = 1 ∧
      ∀ l s', (∀ a ∈ l, a.1 = true ∨ ∃ b n, a.2 = .chain b n) → s.run l = some s' → ((7, 1), ⟨0, 7, 1⟩) ∈ s'.http.queue) ∧
    ((State.init 4 (fun _ => 0)).run ([.submit 0 7 1] ++ go 0 4 ++ [.submit 1 7 0] ++ go 1 10)).map
      (fun s => (s.sent.map (·.tx.nonce), s.queue.length)) = some ([1, 0], 0) := by
  constructor
  · have h : ((Two.start 4 (fun _ => 0)).run gapRun).map (fun s => (s.http.results, s.ws.results, s.http.sent.length)) =
        some ([((⟨0, 7, 1⟩ : Sub), Res.ok)], [((⟨0, 7, 0⟩ : Sub), Res.ok)], 0) := by decide +kernel
    have h' : ((Two.start 4 (fun _ => 0)).run gapRun).map (fun s => (s.ws.sent.map (·.tx.nonce), s.http.seq 7, s.http.queue)) =
        some ([0], 1, [((7, 1), (⟨0, 7, 1⟩ : Sub))]) := by decide +kernel
    obtain ⟨s, hs, he⟩ := Option.map_eq_some_iff.1 h
    obtain ⟨s2, hs2, he'⟩ := Option.map_eq_some_iff.1 h'
    cases hs.symm.trans hs2
    simp only [Prod.mk.injEq] at he he'
    refine ⟨s, hs, he.1, he.2.1, List.length_eq_zero_iff.1 he.2.2, he'.1, he'.2.1, ?_⟩
    intro l s' hl hr
    rw [queue_kept l s s' hl hr, he'.2.2]; simp
  · decide +kernel

/-- **C104 does not hold** for the views of the pool: what waits at one endpoint is not in the other's queue, which is all that its
txpool methods list. -/
theorem C104_view_violated : ∃ s, (Two.start 4 (fun _ => 0)).run ([(false, .submit 0 7 1)] ++ goAt false 0 4) = some s ∧
    s.http.queue.length = 1 ∧ s.ws.queue.length = 0 := by
  have h : ((Two.start 4 (fun _ => 0)).run ([(false, .submit 0 7 1)] ++ goAt false 0 4)).map (fun s => (s.http.queue.length, s.ws.queue.length)) =
      some (1, 0) := by decide +kernel
  obtain ⟨s, hs, he⟩ := Option.map_eq_some_iff.1 h
  simp only [Prod.mk.injEq] at he
  exact ⟨s, hs, he⟩

/-- **C104 does not hold** for one sender's order: the locks that make a sender's submissions wait for each other are per endpoint;
two submissions of one sender are processed at the same time. -/
theorem C104_lock_violated : ∃ s, (Two.start 4 (fun _ => 0)).run
      [(false, .submit 0 7 0), (true, .submit 0 7 0), (false, .step 0 true), (true, .step 0 true)] = some s ∧
    s.http.holder 7 = some 0 ∧ s.ws.holder 7 = some 0 := by
  have h : ((Two.start 4 (fun _ => 0)).run
      [(false, .submit 0 7 0), (true, .submit 0 7 0), (false, .step 0 true), (true, .step 0 true)]).map
      (fun s => (s.http.holder 7, s.ws.holder 7)) = some (some 0, some 0) := by decide +kernel
  obtain ⟨s, hs, he⟩ := Option.map_eq_some_iff.1 h
  simp only [Prod.mk.injEq] at he
  exact ⟨s, hs, he⟩

/-! ### Filters -/

theorem filt_none (info : Nat → Filters.Sub) (timeout : Nat) (id : Nat) : ∀ (l : List Filters.Label) (s s' : Filters.State),
    s.filt id = none → (∀ x ∈ l, x ≠ .add id) → runFilters info timeout s l = some s' → s'.filt id = none := by
  intro l
  induction l with
  | nil => intro s s' h0 _ h; cases h; exact h0
  | cons x l ih =>
    intro s s' h0 hl h
    simp only [runFilters] at h
    obtain ⟨s1, h1, h2⟩ := Option.bind_eq_some_iff.1 h
    refine ih s1 s' ?_ (fun y hy => hl y (by simp [hy])) h2
    have hp : ∀ (k : Nat) (v : Option Filters.Filter), k ≠ id → put s.filt k v id = none := by
      intro k v hk; simp [put, h0, Ne.symm hk]
    have hx := hl x (by simp)
    cases x with
    | emit evs => simp only [Filters.step] at h1; cases h1; exact h0
    | recv i => simp only [Filters.step] at h1; split at h1 <;> cases h1; exact h0
    | send k =>
      simp only [Filters.step] at h1
      split at h1
      · split at h1 <;> cases h1; exact h0
      · cases h1
    | drain k =>
      simp only [Filters.step] at h1
      split at h1
      · split at h1 <;> cases h1; exact h0
      · cases h1
    | loopDone => simp only [Filters.step] at h1; split at h1 <;> cases h1; exact h0
    | process k =>
      simp only [Filters.step] at h1
      split at h1
      · split at h1
        · cases h1; exact h0
        · split at h1
          · next f hf =>
            cases h1
            by_cases hk : k = id
            · rw [hk, h0] at hf; cases hf
            · exact hp k _ hk
          · cases h1; exact h0
      · cases h1
    | install k => simp only [Filters.step] at h1; split at h1 <;> cases h1; exact h0
    | add k =>
      simp only [Filters.step] at h1
      split at h1 <;> cases h1
      exact hp k _ (fun e => hx (by rw [e]))
    | spawn k =>
      simp only [Filters.step] at h1
      by_cases hc : s.api k = (if (info k).ws then .installed else .added)
      · rw [if_pos hc] at h1; cases h1; exact h0
      · rw [if_neg hc] at h1; cases h1
    | poll k =>
      simp only [Filters.step] at h1
      split at h1
      · next f hf =>
        cases h1
        by_cases hk : k = id
        · rw [hk, h0] at hf; cases hf
        · exact hp k _ hk
      · cases h1
    | uninstall k =>
      simp only [Filters.step] at h1
      split at h1
      · cases h1
        by_cases hk : k = id
        · simp [hk, put]
        · exact hp k _ hk
      · cases h1
    | close k => simp only [Filters.step] at h1; split at h1 <;> cases h1; exact h0
    | tick => simp only [Filters.step] at h1; cases h1; simp [Filters.sweepFilt, h0]
    | unsub k => simp only [Filters.step] at h1; split at h1 <;> cases h1; exact h0
    | exit k => simp only [Filters.step] at h1; split at h1 <;> cases h1; exact h0
    | wait d => simp only [Filters.step] at h1; cases h1; exact h0

/-- **C104 does not hold** for filters: a filter made at one endpoint can be polled there, but at the other, whatever happens there,
neither be polled nor uninstalled: it is not found. -/
theorem C104_filter_violated (info : Nat → Filters.Sub) (timeout id : Nat) (hw : (info id).ws = false) :
    (∃ s, runFilters info timeout Filters.State.init [.install id, .add id, .spawn id] = some s ∧
      (Filters.step info timeout s (.poll id)).isSome ∧ (Filters.step info timeout s (.uninstall id)).isSome) ∧
    ∀ l s, (∀ x ∈ l, x ≠ .add id) → runFilters info timeout Filters.State.init l = some s →
      Filters.step info timeout s (.poll id) = none ∧ Filters.step info timeout s (.uninstall id) = none := by
  constructor
  · refine ⟨_, by simp [runFilters, Filters.step, Filters.State.init, hw, put]; rfl, ?_⟩
    constructor <;> simp [Filters.step, put]
  · intro l s hl h
    have := filt_none info timeout id l _ s rfl hl h
    constructor <;> simp [Filters.step, this]

/-- Non-vacuity: there are polling filters. -/
example : ∃ info : Nat → Filters.Sub, (info 3).ws = false := ⟨fun _ => ⟨.blocks, false, ⟨none, none, none, [], []⟩, false⟩, rfl⟩

end Verif.Endpoints
