import Verif.Model.Routes
/-
C151: what interchain accounts may do. C152: limits on IBC transfers. C153, C154: the default genesis.
-/
namespace Verif.Props.Routes
open Verif.Routes

section
variable {A B S : Type} [DecidableEq A]

/-! ### C151 -/

/-- **C151 (only the account's own, listed messages).** A packet is acknowledged as successful only if each of its
messages is of an allowed type and signed by the interchain account alone; otherwise nothing changes. -/
theorem C151_listed_partial (app : App A B S) (allow : List String) (ica : A) (ms : List (Msg A B)) (s : S) :
    ((recv app allow ica ms s).2 = true → ∀ m ∈ ms, (m.url ∈ allow ∨ allow = ["*"]) ∧ ∀ x ∈ m.signers, x = ica) ∧
    ((recv app allow ica ms s).2 = false → (recv app allow ica ms s).1 = s) := by
  unfold recv
  by_cases h : authenticated allow ica ms = true
  · rw [if_pos h]
    constructor
    · intro _ m hm
      simp only [authenticated, List.all_eq_true, Bool.and_eq_true, allowed, Bool.or_eq_true, decide_eq_true_eq,
        List.contains_iff_mem] at h
      exact ⟨(h m hm).1.symm, (h m hm).2⟩
    · unfold deliver
      cases runAll app ms s with
      | none => intro _; rfl
      | some s1 => intro h; cases h
  · rw [if_neg h]
    exact ⟨fun h => (by cases h), fun _ => rfl⟩

theorem dispatch_own (app : App A B S) (a : A) : ∀ (ms : List (Msg A B)) (s : S), (∀ m ∈ ms, m.signers = [a]) →
    dispatch app a ms s = runAll app ms s
  | [], s, _ => rfl
  | m :: ms, s, h => by
    rw [dispatch, runAll, h m (List.mem_cons_self ..)]
    simp only [if_true]
    cases run app m s with
    | none => rfl
    | some s1 => exact dispatch_own app a ms s1 fun x hx => h x (List.mem_cons_of_mem _ hx)

/-- **C151 (violated: the list restricts nothing).** Since `MsgExec` is allowed, whatever else is on the list: an
interchain account that wraps its messages into a `MsgExec` of its own gets exactly what it would get if every message
were allowed. -/
theorem C151_wrapped_violated (app : App A B S) (allow : List String) (ha : authzMsgExec ∈ allow) (ica : A)
    (ms : List (Msg A B)) (hne : ms ≠ []) (hs : ∀ m ∈ ms, m.signers = [ica]) (s : S) :
    recv app allow ica [.exec ica ms] s = recv app ["*"] ica ms s := by
  have h1 : authenticated allow ica [(.exec ica ms : Msg A B)] = true := by
    simp [authenticated, allowed, Msg.url, Msg.signers, ha]
  have h2 : authenticated ["*"] ica ms = true := by
    simp only [authenticated, List.all_eq_true, Bool.and_eq_true, allowed]
    intro m hm
    rw [hs m hm]
    simp
  unfold recv
  rw [if_pos h1, if_pos h2]
  unfold deliver
  have h3 : runAll app [(.exec ica ms : Msg A B)] s = runAll app ms s := by
    rw [runAll, run, if_neg (by simpa using hne), dispatch_own app ica ms s hs]
    cases runAll app ms s with
    | none => rfl
    | some _ => rfl
  rw [h3]

/-- **C151 (violated: no contracts).** With the default list every packet with a message of x/evm in it — to call or to
create a contract — is refused, in every state. -/
theorem C151_evm_violated (app : App A B S) (ica : A) (ms : List (Msg A B)) (s : S) (m : Msg A B) (hm : m ∈ ms)
    (hu : m.url = evmMsgCall ∨ m.url = evmMsgCreate ∨ m.url = evmMsgCreate2) : recv app icaAllow ica ms s = (s, false) := by
  unfold recv
  rw [if_neg]
  intro h
  simp only [authenticated, List.all_eq_true, Bool.and_eq_true] at h
  have := (h m hm).1
  rcases hu with e | e | e <;> rw [e] at this <;> revert this <;> decide

/-- **C151 (violated: dead entries).** The default list names messages of modules this chain does not have: a packet with
one of them is refused, in every state. -/
theorem C151_dead_violated (app : App A B S) (hi : app.Installed) (ica : A) (ms : List (Msg A B)) (s : S)
    (u : String) (sg : List A) (b : B) (hm : .plain u sg b ∈ ms)
    (hu : u ∈ [sftTransferMsgTransfer, moveMsgPublishModuleBundle, moveMsgExecuteEntryFunction, moveMsgExecuteScript]) :
    u ∈ icaAllow ∧ recv app icaAllow ica ms s = (s, false) := by
  have hin : u ∈ icaAllow := by
    simp only [List.mem_cons, List.not_mem_nil, or_false] at hu
    rcases hu with e | e | e | e <;> subst e <;> decide
  refine ⟨hin, ?_⟩
  have hn : app.handler u = none := by
    cases h : app.handler u with
    | none => rfl
    | some x =>
      have := hi u (by rw [h]; rfl)
      simp only [List.mem_cons, List.not_mem_nil, or_false] at hu
      exfalso; rcases hu with e | e | e | e <;> subst e <;> clear h hin hm <;> revert this <;> decide
  have hr : ∀ (l : List (Msg A B)) (s : S), .plain u sg b ∈ l → runAll app l s = none := by
    intro l
    induction l with
    | nil => intro s h; cases h
    | cons x xs ih =>
      intro s h
      rw [runAll]
      rcases List.mem_cons.mp h with e | h
      · subst e; rw [run, hn]
      · cases run app x s with
        | none => rfl
        | some s1 => exact ih s1 h
  unfold recv deliver
  split
  · rw [hr ms s hm]
  · rfl

mutual
/-- What one message does, as a relation: a module's message is handled by its module; a `MsgExec` does its messages, which are not none,
for its grantee. -/
inductive Did (app : App A B S) : Msg A B → S → S → Prop
  | plain {u : String} {sg : List A} {b : B} {h : B → S → Option S} {s s' : S} (hh : app.handler u = some h) (hr : h b s = some s') :
      Did app (.plain u sg b) s s'
  | exec {g : A} {ms : List (Msg A B)} {s s' : S} (hne : ms ≠ []) (hd : DidFor app g ms s s') : Did app (.exec g ms) s s'
/-- What messages done for a grantee do: each has one signer, who is the grantee or has given a grant that is then used up. -/
inductive DidFor (app : App A B S) : A → List (Msg A B) → S → S → Prop
  | nil {g : A} {s : S} : DidFor app g [] s s
  | own {g : A} {m : Msg A B} {ms : List (Msg A B)} {s s1 s2 : S} (hs : m.signers = [g]) (hm : Did app m s s1)
      (hd : DidFor app g ms s1 s2) : DidFor app g (m :: ms) s s2
  | granted {g x : A} {m : Msg A B} {ms : List (Msg A B)} {s s0 s1 s2 : S} (hs : m.signers = [x]) (hx : x ≠ g)
      (ha : app.accept x g m.url s = some s0) (hm : Did app m s0 s1) (hd : DidFor app g ms s1 s2) : DidFor app g (m :: ms) s s2
end

/-- Messages done one after the other. -/
inductive DidAll (app : App A B S) : List (Msg A B) → S → S → Prop
  | nil {s : S} : DidAll app [] s s
  | cons {m : Msg A B} {ms : List (Msg A B)} {s s1 s2 : S} (hm : Did app m s s1) (hd : DidAll app ms s1 s2) : DidAll app (m :: ms) s s2

mutual
theorem run_iff (app : App A B S) : ∀ (m : Msg A B) (s s' : S), run app m s = some s' ↔ Did app m s s'
  | .plain u sg b, s, s' => by
    rw [run]
    constructor
    · intro h
      split at h
      · cases h
      · rename_i f hf; exact .plain hf h
    · intro h
      cases h with
      | plain hh hr => simp only [hh]; exact hr
  | .exec g ms, s, s' => by
    rw [run]
    constructor
    · intro h
      cases ms with
      | nil => simp at h
      | cons m ms =>
        rw [if_neg (by simp)] at h
        exact .exec (by simp) ((dispatch_iff app g (m :: ms) s s').mp h)
    · intro h
      cases h with
      | exec hne hd =>
        cases ms with
        | nil => exact absurd rfl hne
        | cons m ms =>
          rw [if_neg (by simp)]
          exact (dispatch_iff app g (m :: ms) s s').mpr hd
theorem dispatch_iff (app : App A B S) (g : A) : ∀ (ms : List (Msg A B)) (s s' : S), dispatch app g ms s = some s' ↔ DidFor app g ms s s'
  | [], s, s' => by
    rw [dispatch]
    constructor
    · intro h; cases h; exact .nil
    · intro h; cases h; rfl
  | m :: ms, s, s' => by
    rw [dispatch]
    constructor
    · intro h
      split at h
      · rename_i x hx
        split at h
        · cases h
        · rename_i s0 h0
          split at h
          · cases h
          · rename_i s1 h1
            have hm := (run_iff app m s0 s1).mp h1
            have hd := (dispatch_iff app g ms s1 s').mp h
            by_cases e : x = g
            · subst e
              rw [if_pos rfl] at h0
              cases h0
              exact .own hx hm hd
            · rw [if_neg e] at h0
              exact .granted hx e h0 hm hd
      · cases h
    · intro h
      cases h with
      | own hs hm hd =>
        simp only [hs, if_true, (run_iff app m _ _).mpr hm]
        exact (dispatch_iff app g ms _ s').mpr hd
      | granted hs hx ha hm hd =>
        simp only [hs, if_neg hx, ha, (run_iff app m _ _).mpr hm]
        exact (dispatch_iff app g ms _ s').mpr hd
end

theorem runAll_iff (app : App A B S) : ∀ (ms : List (Msg A B)) (s s' : S), runAll app ms s = some s' ↔ DidAll app ms s s'
  | [], s, s' => by
    rw [runAll]
    constructor
    · intro h; cases h; exact .nil
    · intro h; cases h; rfl
  | m :: ms, s, s' => by
    rw [runAll]
    constructor
    · intro h
      split at h
      · cases h
      · rename_i s1 h1
        exact .cons ((run_iff app m s s1).mp h1) ((runAll_iff app ms s1 s').mp h)
    · intro h
      cases h with
      | cons hm hd =>
        simp only [(run_iff app m s _).mpr hm]
        exact (runAll_iff app ms _ s').mpr hd

/-- **C151 (exactly, partial: the content of a `MsgExec` is not checked against the list).** A packet is acknowledged as successful, and
changes the state to `s'`, exactly if every message in it is of an allowed type and signed by nobody but the account, and the messages
done one after the other, with what they contain done under grants, lead from the state to `s'`. -/
theorem C151_exact_partial (app : App A B S) (allow : List String) (ica : A) (ms : List (Msg A B)) (s s' : S) :
    recv app allow ica ms s = (s', true) ↔
      (∀ m ∈ ms, (allow = ["*"] ∨ m.url ∈ allow) ∧ ∀ x ∈ m.signers, x = ica) ∧ DidAll app ms s s' := by
  have ha : authenticated allow ica ms = true ↔ ∀ m ∈ ms, (allow = ["*"] ∨ m.url ∈ allow) ∧ ∀ x ∈ m.signers, x = ica := by
    simp only [authenticated, List.all_eq_true, Bool.and_eq_true, allowed, Bool.or_eq_true, decide_eq_true_eq, List.contains_iff_mem]
  rw [← runAll_iff, ← ha]
  unfold recv deliver
  by_cases h : authenticated allow ica ms = true
  · rw [if_pos h]
    cases hr : runAll app ms s with
    | none => simp
    | some s1 => simp [h]
  · rw [if_neg h]; simp [h]

/-- A `MsgExec` around another one, by the account for itself, and a message under a grant of account 2 which is used up. -/
def toyGranted : App Nat Nat Nat where
  handler := fun u => if u = bankMsgSend then some fun b s => some (s + b) else none
  accept := fun x g _ s => if x = 2 ∧ g = 1 ∧ 100 ≤ s then some (s - 100) else none

example : DidAll toyGranted [.exec 1 [.exec 1 [.plain bankMsgSend [1] 5], .plain bankMsgSend [2] 7]] 200 112 := by
  rw [← runAll_iff]
  simp [runAll, run, dispatch, toyGranted, Msg.signers, Msg.url]

/-- Listed messages of modules this chain has do run (if their handler accepts them). -/
theorem C151_runs (app : App A B S) (ica : A) (u : String) (b : B) (s s' : S) (h : B → S → Option S)
    (hu : u ∈ icaAllow) (hh : app.handler u = some h) (hr : h b s = some s') :
    recv app icaAllow ica [.plain u [ica] b] s = (s', true) := by
  have : authenticated icaAllow ica [(.plain u [ica] b : Msg A B)] = true := by
    simp [authenticated, allowed, Msg.url, Msg.signers, hu]
  unfold recv deliver
  rw [if_pos this]
  simp [runAll, run, hh, hr]

/-! ### C152 -/

/-- What can happen on the chain: a transaction or a packet for an interchain account. -/
inductive Ev (A B : Type) where
  | tx (ms : List (Msg A B))
  | packet (allow : List String) (ica : A) (ms : List (Msg A B))

def step (app : App A B S) (s : S) : Ev A B → S
  | .tx ms => (deliver app ms s).1
  | .packet allow ica ms => (recv app allow ica ms s).1

/-- The rate limits are changed by no handlers but those of the rate limiting module (package `ratelimit.v1`). -/
structure Frame {L : Type} (app : App A B S) (limits : S → L) : Prop where
  handler : ∀ u h b s s', app.handler u = some h → h b s = some s' → package u ≠ "ratelimit.v1".toList →
    limits s' = limits s
  accept : ∀ x g u s s', app.accept x g u s = some s' → limits s' = limits s

mutual
theorem run_keeps {L : Type} (app : App A B S) (limits : S → L) (hi : app.Installed) (hf : Frame app limits) :
    ∀ (m : Msg A B) (s s' : S), run app m s = some s' → limits s' = limits s
  | .exec g ms, s, s', h => by
    rw [run] at h
    split at h
    · cases h
    · exact dispatch_keeps app limits hi hf g ms s s' h
  | .plain u sg b, s, s', h => by
    rw [run] at h
    cases hh : app.handler u with
    | none => rw [hh] at h; cases h
    | some f =>
      rw [hh] at h
      refine hf.handler u f b s s' hh h ?_
      intro e
      have := hi u (by rw [hh]; rfl)
      rw [e] at this
      revert this
      decide

theorem dispatch_keeps {L : Type} (app : App A B S) (limits : S → L) (hi : app.Installed) (hf : Frame app limits) (g : A) :
    ∀ (ms : List (Msg A B)) (s s' : S), dispatch app g ms s = some s' → limits s' = limits s
  | [], s, s', h => by rw [dispatch] at h; cases h; rfl
  | m :: ms, s, s', h => by
    rw [dispatch] at h
    cases hsg : m.signers with
    | nil => rw [hsg] at h; cases h
    | cons x r =>
      cases r with
      | cons _ _ => rw [hsg] at h; cases h
      | nil =>
        rw [hsg] at h
        simp only at h
        cases ha : (if x = g then some s else app.accept x g m.url s) with
        | none => rw [ha] at h; cases h
        | some s1 =>
          rw [ha] at h
          simp only at h
          cases hr : run app m s1 with
          | none => rw [hr] at h; cases h
          | some s2 =>
            rw [hr] at h
            have e1 : limits s1 = limits s := by
              by_cases e : x = g
              · rw [if_pos e] at ha; cases ha; rfl
              · rw [if_neg e] at ha; exact hf.accept x g _ s s1 ha
            rw [dispatch_keeps app limits hi hf g ms s2 s' h, run_keeps app limits hi hf m s1 s2 hr, e1]
end

theorem deliver_keeps {L : Type} (app : App A B S) (limits : S → L) (hi : app.Installed) (hf : Frame app limits)
    (ms : List (Msg A B)) (s : S) : limits (deliver app ms s).1 = limits s := by
  have key : ∀ (l : List (Msg A B)) (s s' : S), runAll app l s = some s' → limits s' = limits s := by
    intro l
    induction l with
    | nil => intro s s' h; cases h; rfl
    | cons x xs ih =>
      intro s s' h
      rw [runAll] at h
      cases hr : run app x s with
      | none => rw [hr] at h; cases h
      | some s1 => rw [hr] at h; rw [ih s1 s' h, run_keeps app limits hi hf x s s1 hr]
  unfold deliver
  cases h : runAll app ms s with
  | none => rfl
  | some s1 => exact key ms s s1 h

/-- **C152 (violated).** The rate limits of IBC transfers are never more than none: the module that would set them is not
part of the application, so a chain that starts without limits has none after any history — whoever signs, authority
or interchain account, directly or through grants — and every transfer of any amount passes. -/
theorem C152_violated {D C : Type} (app : App A B S) (hi : app.Installed) (limits : S → D → C → Option Nat)
    (hf : Frame app limits) (s0 : S) (h0 : ∀ d c, limits s0 d c = none) (es : List (Ev A B)) (flow : D → C → Nat) (d : D)
    (c : C) (amount : Nat) :
    passes (limits (es.foldl (step app) s0)) flow d c amount = true := by
  have : ∀ (es : List (Ev A B)) (s : S), limits (es.foldl (step app) s) = limits s := by
    intro es
    induction es with
    | nil => intro s; rfl
    | cons e es ih =>
      intro s
      rw [List.foldl_cons, ih]
      cases e with
      | tx ms => exact deliver_keeps app limits hi hf ms s
      | packet allow ica ms =>
        show limits (recv app allow ica ms s).1 = limits s
        unfold recv
        split
        · exact deliver_keeps app limits hi hf ms s
        · rfl
  rw [this, passes, h0]

end

/-- A chain that had been given a limit would have applied it: only transfers within the quota pass. -/
theorem C152_limited {D C : Type} (limits : D → C → Option Nat) (flow : D → C → Nat) (d : D) (c : C) (amount q : Nat)
    (h : limits d c = some q) : passes limits flow d c amount = true ↔ flow d c + amount ≤ q := by
  simp [passes, h]

/-- A toy chain: the state counts sends (and grants used), calls of contracts, and holds the limits. -/
def toyApp : App Nat Nat (Nat × Nat × (Nat → Nat → Option Nat)) where
  handler u :=
    if u = bankMsgSend then some fun b s => if b = 0 then none else some (s.1 + b, s.2)
    else if u = evmMsgCall then some fun b s => some (s.1, s.2.1 + b, s.2.2)
    else none
  accept x g _ s := if x = 7 ∧ g = 8 then some (s.1 + 1, s.2) else none

theorem toyApp_installed : toyApp.Installed := by
  intro u h
  by_cases h1 : u = bankMsgSend
  · subst h1; decide
  · by_cases h2 : u = evmMsgCall
    · subst h2; decide
    · simp [toyApp, h1, h2] at h

theorem toyApp_frame : Frame toyApp (fun s => s.2.2) where
  handler u h b s s' hh hr _ := by
    simp only [toyApp] at hh
    split at hh
    · cases hh
      simp only at hr
      split at hr
      · cases hr
      · cases hr; rfl
    · split at hh
      · cases hh; cases hr; rfl
      · cases hh
  accept x g u s s' h := by
    simp only [toyApp] at h
    split at h
    · cases h; rfl
    · cases h

/-- A send is executed; a contract call is refused, and executed when wrapped; a stranger's is not. -/
example :
    let s : Nat × Nat × (Nat → Nat → Option Nat) := (0, 0, fun _ _ => none)
    let out := fun ms => let r := recv toyApp icaAllow 5 ms s; (r.1.1, r.1.2.1, r.2)
    [out [.plain bankMsgSend [5] 3], out [.plain evmMsgCall [5] 3], out [.exec 5 [.plain evmMsgCall [5] 3]],
      out [.exec 5 [.exec 5 [.plain evmMsgCall [5] 3, .plain bankMsgSend [5] 4]]], out [.exec 5 [.plain evmMsgCall [6] 3]],
      out [.plain bankMsgSend [5] 3, .plain bankMsgSend [5] 0]] =
    [(3, 0, true), (0, 0, false), (0, 3, true), (4, 3, true), (0, 0, false), (0, 0, false)] := by decide +kernel

/-- With a grant another's messages can be sent. -/
example :
    let s : Nat × Nat × (Nat → Nat → Option Nat) := (0, 0, fun _ _ => none)
    let r := deliver toyApp [.exec 8 [.plain evmMsgCall [7] 3]] s
    (r.1.1, r.1.2.1, r.2) = (1, 3, true) := by decide +kernel

/-- And the limits stay away. -/
example (es : List (Ev Nat Nat)) : passes (es.foldl (step toyApp) (0, 0, fun _ _ => none)).2.2 (fun _ _ => 0) 1 2 1000 = true :=
  C152_violated toyApp toyApp_installed (fun s => s.2.2) toyApp_frame _ (fun _ _ => rfl) es _ 1 2 1000

/-! ### C153 -/

section
variable {P R : Type}

theorem number_spec : ∀ (ms : List P) (id : Nat),
    (number id ms).2 = id + ms.length ∧ (number id ms).1.map Prod.fst = ms ∧
    (number id ms).1.map Prod.snd = List.range' id ms.length
  | [], id => by simp [number]
  | m :: ms, id => by
    obtain ⟨h1, h2, h3⟩ := number_spec ms (id + 1)
    simp only [number, List.map_cons, List.length_cons, h1, h2, h3, List.range'_succ]
    exact ⟨by omega, trivial, trivial⟩

/-- **C153 (prices).** In the default genesis the reserved timestamp pair and then all markets have consecutive ids from
0, and the next id is the first free one: no two pairs share an id, and no pair added later will get one that is taken. -/
theorem C153_pairs (ts : P) (ms : List P) (admin denom : String) (g : Gen P R) :
    let g' := defaultGenesis ts ms admin denom g
    g'.pairs.map Prod.fst = ts :: ms ∧ g'.pairs.map Prod.snd = List.range (ms.length + 1) ∧
      g'.nextId = ms.length + 1 ∧ g'.markets = ms ∧ (g'.pairs.map Prod.snd).Nodup ∧ ∀ x ∈ g'.pairs, x.2 < g'.nextId := by
  obtain ⟨h1, h2, h3⟩ := number_spec ms 1
  have e : (defaultGenesis ts ms admin denom g).pairs.map Prod.snd = List.range (ms.length + 1) := by
    show 0 :: (number 1 ms).1.map Prod.snd = _
    rw [h3, List.range_eq_range', List.range'_succ]
  have n : (defaultGenesis ts ms admin denom g).nextId = ms.length + 1 := by
    show (number 1 ms).2 = _
    omega
  refine ⟨?_, e, n, rfl, by rw [e]; exact List.nodup_range, ?_⟩
  · show ts :: (number 1 ms).1.map Prod.fst = _
    rw [h2]
  · intro x hx
    have : x.2 ∈ (defaultGenesis ts ms admin denom g).pairs.map Prod.snd := List.mem_map_of_mem hx
    rw [e, List.mem_range] at this
    rw [n]; exact this

/-- **C153 (each pair once, exactly when).** A pair has one id exactly if the markets the chain is set up with name no pair twice and not
the reserved timestamp pair; otherwise it is listed under several. -/
theorem C153_once_iff (ts : P) (ms : List P) (admin denom : String) (g : Gen P R) :
    (∀ p i j, (p, i) ∈ (defaultGenesis ts ms admin denom g).pairs → (p, j) ∈ (defaultGenesis ts ms admin denom g).pairs → i = j) ↔
    ts ∉ ms ∧ ms.Nodup := by
  obtain ⟨h1, _, _, _, h5, _⟩ := C153_pairs ts ms admin denom g
  rw [← List.nodup_cons, ← h1]
  generalize (defaultGenesis ts ms admin denom g).pairs = l at h5 ⊢
  clear h1
  induction l with
  | nil => simp
  | cons x xs ih =>
    simp only [List.map_cons, List.nodup_cons] at h5 ⊢
    rw [← ih h5.2]
    constructor
    · intro h
      refine ⟨?_, fun p i j hi hj => h p i j (List.mem_cons_of_mem _ hi) (List.mem_cons_of_mem _ hj)⟩
      intro hm
      obtain ⟨y, hy, e⟩ := List.mem_map.mp hm
      have := h x.1 x.2 y.2 (List.mem_cons_self ..) (List.mem_cons_of_mem _ (by rw [← e]; exact hy))
      exact h5.1 (by rw [this]; exact List.mem_map.mpr ⟨y, hy, rfl⟩)
    · rintro ⟨h1, h2⟩ p i j hi hj
      rcases List.mem_cons.mp hi with ei | hi <;> rcases List.mem_cons.mp hj with ej | hj
      · rw [← ei] at ej; exact (Prod.mk.inj ej).2.symm
      · exact absurd (List.mem_map.mpr ⟨_, hj, by rw [← ei]⟩) h1
      · exact absurd (List.mem_map.mpr ⟨_, hi, by rw [← ej]⟩) h1
      · exact h2 p i j hi hj

/-- **C153 (denoms and the rest).** Fees and auction bids of a new chain are in the denom it was set up for, no minimum
gas price is set, interchain accounts are on with the default list, and nothing else of the genesis is touched. -/
theorem C153_denom (ts : P) (ms : List P) (admin denom : String) (g : Gen P R) :
    let g' := defaultGenesis ts ms admin denom g
    g'.feeDenom = denom ∧ g'.reserveFeeDenom = denom ∧ g'.minBidDenom = denom ∧ g'.minGasPrices = [] ∧
      g'.controllerEnabled = true ∧ g'.hostEnabled = true ∧ g'.icaAllow = icaAllow ∧ g'.admin = admin ∧ g'.rest = g.rest :=
  ⟨rfl, rfl, rfl, rfl, rfl, rfl, rfl, rfl, rfl⟩

/-- **C154 (launch).** A launched chain uses the denom it was launched for, unless that is the launch tool's default. -/
theorem C154_launch_partial (ts : P) (ms : List P) (admin denom : String) (g : Gen P R) (h : denom ≠ "umin") :
    (launchGenesis ts ms admin denom g).feeDenom = denom := by
  simp [launchGenesis, h, defaultGenesis, addMarketData, configureDenom]

/-- **C154 (launch, violated).** Launched for the denom `umin`, its fee denom is another. -/
theorem C154_launch_violated (ts : P) (ms : List P) (admin : String) (g : Gen P R) :
    (launchGenesis ts ms admin "umin" g).feeDenom = "GAS" ∧
    (launchGenesis ts ms admin "umin" g).feeDenom = (launchGenesis ts ms admin "GAS" g).feeDenom := by
  simp [launchGenesis, defaultGenesis, addMarketData, configureDenom, baseDenom]

/-- **C154 (clients).** If the default client list names its types one by one, each once, a new chain allows exactly the
same types without the localhost client. -/
theorem C154_clients_partial (ts : P) (ms : List P) (admin denom : String) (g : Gen P R) (hn : g.allowedClients.Nodup)
    (hw : "*" ∉ g.allowedClients) (client : String) :
    clientAllowed (defaultGenesis ts ms admin denom g).allowedClients client = true ↔
      clientAllowed g.allowedClients client = true ∧ client ≠ "09-localhost" := by
  show clientAllowed (g.allowedClients.erase localhost) client = true ↔ _
  have h1 : g.allowedClients ≠ ["*"] := by intro e; rw [e] at hw; exact hw (List.mem_cons_self ..)
  have h2 : g.allowedClients.erase localhost ≠ ["*"] := by
    intro e
    exact hw (List.mem_of_mem_erase (b := localhost) (by rw [e]; exact List.mem_cons_self ..))
  simp only [clientAllowed, h1, h2, decide_false, Bool.false_or, List.contains_iff_mem, hn.mem_erase_iff]
  exact And.comm

/-- **C154 (clients, violated).** If the default list is the wildcard, taking the localhost client out has no effect: it
stays allowed. -/
theorem C154_clients_violated (ts : P) (ms : List P) (admin denom : String) (g : Gen P R) (hw : g.allowedClients = ["*"]) :
    clientAllowed (defaultGenesis ts ms admin denom g).allowedClients "09-localhost" = true := by
  show clientAllowed (g.allowedClients.erase localhost) "09-localhost" = true
  rw [hw]
  decide

end

/-- A genesis with two markets. -/
def toyGen : Gen String Nat :=
  ⟨[("x", 1)], false, false, ["a"], ["06-solomachine", "09-localhost", "07-tendermint"], "stake", "stake", "stake", [], 0, [], "",
    42⟩

example : defaultGenesis "TIMESTAMP/NANOSECOND" ["BTC/USD", "ETH/USD"] "init1admin" "GAS" toyGen =
    ⟨[], true, true, icaAllow, ["06-solomachine", "07-tendermint"], "GAS", "GAS", "GAS",
      [("TIMESTAMP/NANOSECOND", 0), ("BTC/USD", 1), ("ETH/USD", 2)], 3, ["BTC/USD", "ETH/USD"], "init1admin", 42⟩ := by
  decide +kernel

example : (defaultGenesis "T" ["T"] "a" "GAS" toyGen).pairs = [("T", 0), ("T", 1)] := by decide +kernel

example : clientAllowed (defaultGenesis "T" [] "a" "GAS" toyGen).allowedClients "09-localhost" = false := by decide +kernel

end Verif.Props.Routes
