import Verif.Model.Filters
import Verif.Props.LockTable
import Verif.Props.LogFilter
/-
C42: filter lifecycle.
-/
namespace Verif.Filters
open Verif Verif.Indexer Verif.LogFilter
open Verif.LockTable (put put_same put_other)

/-! ### Specification -/

/-- The items a subscription made after the first `start` events is owed, given all events in the order the node's event loop
got them. -/
def owed (s : Sub) (start : Nat) (recvd : List Ev) : List Item := ((recvd.drop start).filter (wants s)).flatMap (items s)

/-- Items on the way to the client: collected by the filter, held by its goroutine, not yet handed over by the event loop. -/
def onTheWay (info : Nat → Sub) (s : State) (id : Nat) : List Item :=
  (match s.filt id with | some f => f.buf | none => []) ++
  (match s.go_ id with | .holding e => items (info id) e | _ => []) ++
  (match s.loop with | some (e, r) => if id ∈ r then items (info id) e else [] | none => [])

/-! ### Invariant -/

/-- What concerns one identifier. -/
structure View where
  inSubs : Bool
  pend : Option Ev
  filt : Option Filter
  go_ : Go
  api : Api
  rem : Rem
  recvd : List Ev
  start : Nat
  out : List Item
  touched : Nat
  polled : Bool

def State.view (s : State) (id : Nat) : View :=
  { inSubs := decide (id ∈ s.subs)
    pend := match s.loop with | some (e, r) => if id ∈ r then some e else none | none => none
    filt := s.filt id, go_ := s.go_ id, api := s.api id, rem := s.rem id, recvd := s.recvd, start := s.start id, out := s.out id
    touched := s.touched id, polled := s.polled id }

def View.way (i : Sub) (v : View) : List Item :=
  (match v.filt with | some f => f.buf | none => []) ++
  (match v.go_ with | .holding e => items i e | _ => []) ++
  (match v.pend with | some e => items i e | none => [])

theorem way_eq (info : Nat → Sub) (s : State) (id : Nat) : onTheWay info s id = (s.view id).way (info id) := by
  unfold onTheWay View.way State.view
  dsimp only
  congr 1
  cases s.loop with
  | none => rfl
  | some x => obtain ⟨e, r⟩ := x; by_cases h : id ∈ r <;> simp [h]

structure Ok (i : Sub) (v : View) : Prop where
  fresh : v.api = .fresh → v.inSubs = false ∧ v.filt = none ∧ v.go_ = .none ∧ v.rem = .none ∧ v.out = []
  unpolled : v.api = .fresh ∨ v.api = .installed → v.polled = false
  inst : v.api = .installed → v.filt = none ∧ v.go_ = .none ∧ v.rem = .none ∧ v.out = []
  live : v.go_ = .none ↔ v.api ≠ .live
  added : v.api = .added → i.ws = false
  ws : i.ws = true → v.filt = none
  some_ : v.rem = .none → (v.api = .added ∨ v.api = .live) → i.ws = false → v.filt.isSome
  gone : v.rem ≠ .none → v.filt = none
  subs : v.inSubs = true ↔ v.api ≠ .fresh ∧ v.rem ≠ .done
  exited : v.go_ = .exited → v.rem ≠ .none
  start : v.start ≤ v.recvd.length
  pend : v.pend.isSome → v.inSubs = true
  used : ∀ f, v.filt = some f → (∀ t, f.lastUsed = some t → t = v.touched) ∧ (f.lastUsed = none → i.ty ≠ .logs ∧ v.polled = false)
  deliv : v.rem = .none → v.api ≠ .fresh → v.out ++ v.way i = owed i v.start v.recvd
  wsr : i.ws = true → v.rem ≠ .none → v.go_ = .exited

structure Inv (info : Nat → Sub) (s : State) : Prop where
  nodup : s.subs.Nodup
  rnodup : ∀ e r, s.loop = some (e, r) → r.Nodup
  ok : ∀ id, Ok (info id) (s.view id)

theorem inv_init (info : Nat → Sub) : Inv info State.init where
  nodup := List.Pairwise.nil
  rnodup := by intro e r h; cases h
  ok id := by
    constructor <;> simp [State.view, State.init]

theorem owed_snoc (i : Sub) (start : Nat) (recvd : List Ev) (e : Ev) (h : start ≤ recvd.length) :
    owed i start (recvd ++ [e]) = owed i start recvd ++ (if wants i e then items i e else []) := by
  unfold owed
  rw [List.drop_append_of_le_length h, List.filter_append, List.flatMap_append]
  congr 1
  by_cases hw : wants i e = true <;> simp [hw]

/-- Identifiers that a step does not concern keep their view. -/
theorem step_inv (info : Nat → Sub) (timeout : Nat) (s s' : State) (l : Label) (hi : Inv info s) (hs : step info timeout s l = some s') : Inv info s' := by
  obtain ⟨hn, hr, hok⟩ := hi
  cases l with
  | emit evs =>
    simp only [step, Option.some.injEq] at hs; subst hs
    exact ⟨hn, hr, hok⟩
  | wait d =>
    simp only [step, Option.some.injEq] at hs; subst hs
    exact ⟨hn, hr, hok⟩
  | recv i =>
    simp only [step] at hs
    split at hs
    · next hl he =>
      cases hs
      refine ⟨hn, fun e' r' h => ?_, fun id => ?_⟩
      · simp only [Option.some.injEq, Prod.mk.injEq] at h
        rw [← h.2]; exact hn.filter _
      · rename_i e rest
        have hv := hok id
        have hp0 : (s.view id).pend = none := by simp [State.view, hl]
        generalize hV : s.view id = V at hv hp0
        have hv' : ({ s with emitters := s.emitters.set i rest, loop := some (e, s.subs.filter (fun id => wants (info id) e)), recvd := s.recvd ++ [e] } : State).view id =
            { V with pend := if V.inSubs = true ∧ wants (info id) e = true then some e else none, recvd := V.recvd ++ [e] } := by
          rw [← hV]; simp [State.view]
        rw [hv']
        refine ⟨hv.fresh, hv.unpolled, hv.inst, hv.live, hv.added, hv.ws, hv.some_, hv.gone, hv.subs, hv.exited, ?_, ?_, hv.used, ?_, hv.wsr⟩
        · have := hv.start; simp; omega
        · dsimp only
          split
          · next h => exact fun _ => h.1
          · intro h; cases h
        · intro h1 h2
          have hd := hv.deliv h1 h2
          dsimp only at h1 h2 ⊢
          rw [owed_snoc _ _ _ _ hv.start, ← hd]
          have hin : V.inSubs = true := hv.subs.2 ⟨h2, by rw [h1]; simp⟩
          simp only [View.way, hp0, List.append_nil, hin, true_and]
          by_cases hw : wants (info id) e = true <;> simp [hw, List.append_assoc]
    · cases hs
  | send id =>
    simp only [step] at hs
    split at hs
    · rename_i e r hl
      split at hs
      · next hc =>
        cases hs
        have hrn := hr e r hl
        refine ⟨hn, fun e' r' h => ?_, fun x => ?_⟩
        · simp only [Option.some.injEq, Prod.mk.injEq] at h
          rw [← h.2]; exact hrn.erase _
        · have hv := hok x
          by_cases hx : x = id
          · subst hx
            have hpend : (s.view x).pend = some e := by simp [State.view, hl, hc.1]
            have hgo : (s.view x).go_ = .listening := hc.2
            generalize hV : s.view x = V at hv hpend hgo
            have hv' : ({ s with loop := some (e, r.erase x), go_ := put s.go_ x (.holding e) } : State).view x = { V with pend := none, go_ := .holding e } := by
              rw [← hV]; simp [State.view, put_same, hrn.mem_erase_iff]
            rw [hv']
            have hlive : V.api = .live := by
              by_cases h : V.api = .live
              · exact h
              · have := hv.live.2 h; rw [hgo] at this; cases this
            refine ⟨?_, hv.unpolled, ?_, ?_, hv.added, hv.ws, hv.some_, hv.gone, hv.subs, ?_, hv.start, ?_, hv.used, ?_, (fun a b => by have := hv.wsr a b; rw [hgo] at this; cases this)⟩
            · intro h; dsimp only at h; rw [hlive] at h; cases h
            · intro h; dsimp only at h; rw [hlive] at h; cases h
            · simp [hlive]
            · intro h; cases h
            · intro h; cases h
            · intro h1 h2
              have hd := hv.deliv h1 h2
              rw [← hd]; simp [View.way, hpend, hgo]
          · have hv' : ({ s with loop := some (e, r.erase id), go_ := put s.go_ id (.holding e) } : State).view x = s.view x := by
              simp [State.view, put_other _ _ _ _ hx, hl, List.mem_erase_of_ne hx]
            rw [hv']; exact hv
      · cases hs
    · cases hs
  | drain id =>
    simp only [step] at hs
    split at hs
    · rename_i e r hl
      split at hs
      · next hc =>
        cases hs
        have hrn := hr e r hl
        refine ⟨hn, fun e' r' h => ?_, fun x => ?_⟩
        · simp only [Option.some.injEq, Prod.mk.injEq] at h
          rw [← h.2]; exact hrn.erase _
        · have hv := hok x
          by_cases hx : x = id
          · subst hx
            have hrem : (s.view x).rem = .draining := hc.2
            generalize hV : s.view x = V at hv hrem
            have hv' : ({ s with loop := some (e, r.erase x) } : State).view x = { V with pend := none } := by
              rw [← hV]; simp [State.view, hrn.mem_erase_iff]
            rw [hv']
            exact ⟨hv.fresh, hv.unpolled, hv.inst, hv.live, hv.added, hv.ws, hv.some_, hv.gone, hv.subs, hv.exited, hv.start, fun h => (by cases h), hv.used,
              fun h => (by dsimp only at h; rw [hrem] at h; cases h), hv.wsr⟩
          · have hv' : ({ s with loop := some (e, r.erase id) } : State).view x = s.view x := by
              simp [State.view, hl, List.mem_erase_of_ne hx]
            rw [hv']; exact hv
      · cases hs
    · cases hs
  | loopDone =>
    simp only [step] at hs
    split at hs
    · next hl =>
      cases hs
      refine ⟨hn, fun e' r' h => (by cases h), fun x => ?_⟩
      have hv' : ({ s with loop := none } : State).view x = s.view x := by
        simp [State.view, hl]
      rw [hv']; exact hok x
    · cases hs
  | process id =>
    simp only [step] at hs
    split at hs
    · rename_i e hg
      have hv := hok id
      have hgo : (s.view id).go_ = .holding e := hg
      have hlive : (s.view id).api = .live := by
        by_cases h : (s.view id).api = .live
        · exact h
        · have := hv.live.2 h; rw [hgo] at this; cases this
      split at hs
      · next hws =>
        cases hs
        refine ⟨hn, hr, fun x => ?_⟩
        by_cases hx : x = id
        · subst hx
          generalize hV : s.view x = V at hv hgo hlive
          have hv' : ({ s with go_ := put s.go_ x .listening, out := put s.out x (s.out x ++ items (info x) e) } : State).view x =
              { V with go_ := .listening, out := V.out ++ items (info x) e } := by
            rw [← hV]; simp [State.view, put_same]
          rw [hv']
          refine ⟨?_, hv.unpolled, ?_, ?_, hv.added, hv.ws, hv.some_, hv.gone, hv.subs, ?_, hv.start, hv.pend, hv.used, ?_, (fun a b => by have := hv.wsr a b; rw [hgo] at this; cases this)⟩
          · intro h; dsimp only at h; rw [hlive] at h; cases h
          · intro h; dsimp only at h; rw [hlive] at h; cases h
          · simp [hlive]
          · intro h; cases h
          · intro h1 h2
            have hd := hv.deliv h1 h2
            rw [← hd]; simp [View.way, hgo, hv.ws hws]
        · have hv' : ({ s with go_ := put s.go_ id .listening, out := put s.out id (s.out id ++ items (info id) e) } : State).view x = s.view x := by
            simp [State.view, put_other _ _ _ _ hx]
          rw [hv']; exact hok x
      · next hws =>
        split at hs
        · rename_i f hf
          cases hs
          refine ⟨hn, hr, fun x => ?_⟩
          by_cases hx : x = id
          · subst hx
            have hfl : (s.view x).filt = some f := hf
            generalize hV : s.view x = V at hv hgo hlive hfl
            have hv' : ({ s with go_ := put s.go_ x .listening, filt := put s.filt x (some { f with buf := f.buf ++ items (info x) e }) } : State).view x =
                { V with go_ := .listening, filt := some { f with buf := f.buf ++ items (info x) e } } := by
              rw [← hV]; simp [State.view, put_same]
            rw [hv']
            refine ⟨?_, hv.unpolled, ?_, ?_, hv.added, ?_, ?_, ?_, hv.subs, ?_, hv.start, hv.pend, ?_, ?_, (fun a _ => absurd a hws)⟩
            · intro h; dsimp only at h; rw [hlive] at h; cases h
            · intro h; dsimp only at h; rw [hlive] at h; cases h
            · simp [hlive]
            · intro h; exact absurd h hws
            · intro _ _ _; rfl
            · intro h; have := hv.gone h; rw [hfl] at this; cases this
            · intro h; cases h
            · intro g hg'
              simp only [Option.some.injEq] at hg'
              subst hg'
              exact hv.used f hfl
            · intro h1 h2
              have hd := hv.deliv h1 h2
              rw [← hd]; simp [View.way, hgo, hfl]
          · have hv' : ({ s with go_ := put s.go_ id .listening, filt := put s.filt id (some { f with buf := f.buf ++ items (info id) e }) } : State).view x = s.view x := by
              simp [State.view, put_other _ _ _ _ hx]
            rw [hv']; exact hok x
        · next hf =>
          cases hs
          refine ⟨hn, hr, fun x => ?_⟩
          by_cases hx : x = id
          · subst hx
            have hfl : (s.view x).filt = none := hf
            generalize hV : s.view x = V at hv hgo hlive hfl
            have hv' : ({ s with go_ := put s.go_ x .listening } : State).view x = { V with go_ := .listening } := by
              rw [← hV]; simp [State.view, put_same]
            rw [hv']
            refine ⟨?_, hv.unpolled, ?_, ?_, hv.added, hv.ws, hv.some_, hv.gone, hv.subs, ?_, hv.start, hv.pend, hv.used, ?_, (fun a _ => absurd a hws)⟩
            · intro h; dsimp only at h; rw [hlive] at h; cases h
            · intro h; dsimp only at h; rw [hlive] at h; cases h
            · simp [hlive]
            · intro h; cases h
            · intro h1 _
              have := hv.some_ h1 (Or.inr hlive) (by simpa using hws)
              rw [hfl] at this; cases this
          · have hv' : ({ s with go_ := put s.go_ id .listening } : State).view x = s.view x := by
              simp [State.view, put_other _ _ _ _ hx]
            rw [hv']; exact hok x
    · cases hs
  | install id =>
    simp only [step] at hs
    split at hs
    · next hc =>
      cases hs
      have hv := hok id
      have hapi : (s.view id).api = .fresh := hc.1
      have hnot : id ∉ s.subs := by have := (hv.fresh hapi).1; simpa [State.view] using this
      refine ⟨?_, hr, fun x => ?_⟩
      · dsimp only
        rw [List.nodup_append]
        exact ⟨hn, by simp, fun a ha b hb => by simp at hb; subst hb; intro h; subst h; exact hnot ha⟩
      · by_cases hx : x = id
        · subst hx
          obtain ⟨f1, f2, f3, f4, f5⟩ := hv.fresh hapi
          have hp : (s.view x).pend = none := by simp [State.view, hc.2]
          generalize hV : s.view x = V at hv hapi hp f1 f2 f3 f4 f5
          have hv' : ({ s with api := put s.api x .installed, subs := s.subs ++ [x], start := put s.start x s.recvd.length } : State).view x =
              { V with api := .installed, inSubs := true, start := V.recvd.length } := by
            rw [← hV]; simp [State.view, put_same]
          rw [hv']
          refine ⟨?_, (fun _ => hv.unpolled (Or.inl hapi)), ?_, ?_, ?_, hv.ws, ?_, hv.gone, ?_, hv.exited, Nat.le_refl _, fun _ => rfl, hv.used, ?_, hv.wsr⟩
          · intro h; cases h
          · exact fun _ => ⟨f2, f3, f4, f5⟩
          · simp [f3]
          · intro h; cases h
          · intro _ h; rcases h with h | h <;> cases h
          · simp [f4]
          · intro _ _
            simp [View.way, f2, f3, f5, hp, owed]
        · have hv' : ({ s with api := put s.api id .installed, subs := s.subs ++ [id], start := put s.start id s.recvd.length } : State).view x = s.view x := by
            simp [State.view, put_other _ _ _ _ hx, hx]
          rw [hv']; exact hok x
    · cases hs
  | add id =>
    simp only [step] at hs
    split at hs
    · next hc =>
      cases hs
      have hv := hok id
      have hapi : (s.view id).api = .installed := hc.1
      refine ⟨hn, hr, fun x => ?_⟩
      by_cases hx : x = id
      · subst hx
        obtain ⟨f2, f3, f4, f5⟩ := hv.inst hapi
        generalize hV : s.view x = V at hv hapi f2 f3 f4 f5
        have hv' : ({ s with api := put s.api x .added, touched := put s.touched x s.now, filt := put s.filt x (some ⟨[], if (info x).ty = .logs then some s.now else none⟩) } : State).view x =
            { V with api := .added, touched := s.now, filt := some ⟨[], if (info x).ty = .logs then some s.now else none⟩ } := by
          rw [← hV]; simp [State.view, put_same]
        rw [hv']
        refine ⟨?_, (fun h => by rcases h with h | h <;> cases h), ?_, ?_, fun _ => hc.2, ?_, fun _ _ _ => rfl, ?_, ?_, hv.exited, hv.start, hv.pend, ?_, ?_, hv.wsr⟩
        · intro h; cases h
        · intro h; cases h
        · simp [f3]
        · intro h; rw [hc.2] at h; cases h
        · intro h; exact absurd f4 h
        · have := hv.subs; rw [hapi] at this; simpa using this
        · intro g hg
          simp only [Option.some.injEq] at hg
          subst hg
          by_cases ht : (info x).ty = .logs
          · simp [ht]
          · simp [ht, hv.unpolled (Or.inr hapi)]
        · intro h1 _
          have hd := hv.deliv h1 (by rw [hapi]; simp)
          rw [← hd]; simp [View.way, f2]
      · have hv' : ({ s with api := put s.api id .added, touched := put s.touched id s.now, filt := put s.filt id (some ⟨[], if (info id).ty = .logs then some s.now else none⟩) } : State).view x = s.view x := by
          simp [State.view, put_other _ _ _ _ hx]
        rw [hv']; exact hok x
    · cases hs
  | spawn id =>
    simp only [step] at hs
    by_cases hc : s.api id = (if (info id).ws then .installed else .added)
    · rw [if_pos hc] at hs
      cases hs
      have hv := hok id
      have hapi : (s.view id).api = (if (info id).ws then .installed else .added) := hc
      refine ⟨hn, hr, fun x => ?_⟩
      by_cases hx : x = id
      · subst hx
        generalize hV : s.view x = V at hv hapi
        have hv' : ({ s with api := put s.api x .live, go_ := put s.go_ x .listening } : State).view x = { V with api := .live, go_ := .listening } := by
          rw [← hV]; simp [State.view, put_same]
        rw [hv']
        have hne : V.api ≠ .live := by rw [hapi]; split <;> simp
        have hnf : V.api ≠ .fresh := by rw [hapi]; split <;> simp
        refine ⟨?_, (fun h => by rcases h with h | h <;> cases h), ?_, ?_, ?_, hv.ws, ?_, hv.gone, ?_, ?_, hv.start, hv.pend, hv.used, ?_, (fun a b => by have := hv.wsr a b; rw [hv.live.2 hne] at this; cases this)⟩
        · intro h; cases h
        · intro h; cases h
        · simp
        · intro h; cases h
        · intro h1 _ h3
          dsimp only at h1 ⊢
          rw [h3] at hapi
          exact hv.some_ h1 (Or.inl hapi) h3
        · have := hv.subs; simpa [hnf] using this
        · intro h; cases h
        · intro h1 _
          have hd := hv.deliv h1 hnf
          rw [← hd]; simp [View.way, hv.live.2 hne]
      · have hv' : ({ s with api := put s.api id .live, go_ := put s.go_ id .listening } : State).view x = s.view x := by
          simp [State.view, put_other _ _ _ _ hx]
        rw [hv']; exact hok x
    · rw [if_neg hc] at hs; cases hs
  | poll id =>
    simp only [step] at hs
    split at hs
    · rename_i f hf
      cases hs
      have hv := hok id
      have hfl : (s.view id).filt = some f := hf
      refine ⟨hn, hr, fun x => ?_⟩
      by_cases hx : x = id
      · subst hx
        generalize hV : s.view x = V at hv hfl
        have hv' : ({ s with filt := put s.filt x (some ⟨[], some s.now⟩), out := put s.out x (s.out x ++ f.buf), touched := put s.touched x s.now, polled := put s.polled x true } : State).view x =
            { V with filt := some ⟨[], some s.now⟩, out := V.out ++ f.buf, touched := s.now, polled := true } := by
          rw [← hV]; simp [State.view, put_same]
        rw [hv']
        refine ⟨?_, (fun h => by rcases h with h | h; (have := (hv.fresh h).2.1; rw [hfl] at this; cases this); (have := (hv.inst h).1; rw [hfl] at this; cases this)), ?_, hv.live, hv.added, ?_, fun _ _ _ => rfl, ?_, hv.subs, hv.exited, hv.start, hv.pend, ?_, ?_, hv.wsr⟩
        · intro h; have := (hv.fresh h).2.1; rw [hfl] at this; cases this
        · intro h; have := (hv.inst h).1; rw [hfl] at this; cases this
        · intro h; have := hv.ws h; rw [hfl] at this; cases this
        · intro h; have := hv.gone h; rw [hfl] at this; cases this
        · intro g hg
          simp only [Option.some.injEq] at hg
          subst hg
          exact ⟨fun t ht => by simpa using ht.symm, fun h => by cases h⟩
        · intro h1 h2
          have hd := hv.deliv h1 h2
          rw [← hd]; simp [View.way, hfl]
      · have hv' : ({ s with filt := put s.filt id (some ⟨[], some s.now⟩), out := put s.out id (s.out id ++ f.buf), touched := put s.touched id s.now, polled := put s.polled id true } : State).view x = s.view x := by
          simp [State.view, put_other _ _ _ _ hx]
        rw [hv']; exact hok x
    · cases hs
  | uninstall id =>
    simp only [step] at hs
    split at hs
    · rename_i f hf
      cases hs
      have hv := hok id
      have hfl : (s.view id).filt = some f := hf
      refine ⟨hn, hr, fun x => ?_⟩
      by_cases hx : x = id
      · subst hx
        generalize hV : s.view x = V at hv hfl
        have hv' : ({ s with filt := put s.filt x none, rem := put s.rem x .draining } : State).view x = { V with filt := none, rem := .draining } := by
          rw [← hV]; simp [State.view, put_same]
        rw [hv']
        have hrn : V.rem = .none := by
          by_cases h : V.rem = .none
          · exact h
          · have := hv.gone h; rw [hfl] at this; cases this
        refine ⟨?_, hv.unpolled, ?_, hv.live, hv.added, fun _ => rfl, ?_, fun _ => rfl, ?_, ?_, hv.start, hv.pend, ?_, ?_, (fun a _ => by have := hv.ws a; rw [hfl] at this; cases this)⟩
        · intro h; have := (hv.fresh h).2.1; rw [hfl] at this; cases this
        · intro h; have := (hv.inst h).1; rw [hfl] at this; cases this
        · intro h; cases h
        · have := hv.subs; rw [hrn] at this; simpa using this
        · intro _ h; cases h
        · intro g hg; cases hg
        · intro h; cases h
      · have hv' : ({ s with filt := put s.filt id none, rem := put s.rem id .draining } : State).view x = s.view x := by
          simp [State.view, put_other _ _ _ _ hx]
        rw [hv']; exact hok x
    · cases hs
  | close id =>
    simp only [step] at hs
    split at hs
    · next hc =>
      cases hs
      have hv := hok id
      have hgo : (s.view id).go_ = .listening := hc.2
      refine ⟨hn, hr, fun x => ?_⟩
      by_cases hx : x = id
      · subst hx
        generalize hV : s.view x = V at hv hgo
        have hv' : ({ s with go_ := put s.go_ x .exited, rem := put s.rem x .draining } : State).view x = { V with go_ := .exited, rem := .draining } := by
          rw [← hV]; simp [State.view, put_same]
        rw [hv']
        have hlive : V.api = .live := by
          by_cases h : V.api = .live
          · exact h
          · have := hv.live.2 h; rw [hgo] at this; cases this
        refine ⟨?_, hv.unpolled, ?_, ?_, hv.added, hv.ws, ?_, fun _ => hv.ws hc.1, ?_, ?_, hv.start, ?_, hv.used, ?_, (fun _ _ => rfl)⟩
        · intro h; dsimp only at h; rw [hlive] at h; cases h
        · intro h; dsimp only at h; rw [hlive] at h; cases h
        · simp [hlive]
        · intro h; cases h
        · have := hv.subs
          have hdone : V.rem ≠ .done := fun h => by
            have := hv.wsr hc.1 (by rw [h]; simp)
            rw [hgo] at this; cases this
          simpa [hdone] using this
        · intro _ h; cases h
        · exact hv.pend
        · intro h; cases h
      · have hv' : ({ s with go_ := put s.go_ id .exited, rem := put s.rem id .draining } : State).view x = s.view x := by
          simp [State.view, put_other _ _ _ _ hx]
        rw [hv']; exact hok x
    · cases hs
  | tick =>
    simp only [step, Option.some.injEq] at hs; subst hs
    refine ⟨hn, hr, fun x => ?_⟩
    have hv := hok x
    cases hf : s.filt x with
    | none =>
      have hv' : ({ s with filt := sweepFilt timeout s, rem := sweepRem timeout s } : State).view x = s.view x := by
        simp [State.view, sweepFilt, sweepRem, hf]
      rw [hv']; exact hv
    | some f =>
      by_cases he : expired timeout s.now f = true
      · have hfl : (s.view x).filt = some f := hf
        generalize hV : s.view x = V at hv hfl
        have hv' : ({ s with filt := sweepFilt timeout s, rem := sweepRem timeout s } : State).view x =
            { V with filt := none, rem := .draining } := by
          rw [← hV]; simp [State.view, sweepFilt, sweepRem, hf, he]
        rw [hv']
        have hrn : V.rem = .none := by
          by_cases h : V.rem = .none
          · exact h
          · have := hv.gone h; rw [hfl] at this; cases this
        refine ⟨?_, hv.unpolled, ?_, hv.live, hv.added, fun _ => rfl, ?_, fun _ => rfl, ?_, ?_, hv.start, hv.pend, ?_, ?_, (fun a _ => by have := hv.ws a; rw [hfl] at this; cases this)⟩
        · intro h; have := (hv.fresh h).2.1; rw [hfl] at this; cases this
        · intro h; have := (hv.inst h).1; rw [hfl] at this; cases this
        · intro h; cases h
        · have := hv.subs; rw [hrn] at this; simpa using this
        · intro _ h; cases h
        · intro g hg; cases hg
        · intro h; cases h
      · have hv' : ({ s with filt := sweepFilt timeout s, rem := sweepRem timeout s } : State).view x = s.view x := by
          simp [State.view, sweepFilt, sweepRem, hf, he]
        rw [hv']; exact hv
  | unsub id =>
    simp only [step] at hs
    split at hs
    · next hc =>
      cases hs
      have hv := hok id
      have hrem : (s.view id).rem = .draining := hc.1
      have hp : (s.view id).pend = none := by simp [State.view, hc.2]
      refine ⟨hn.erase _, hr, fun x => ?_⟩
      by_cases hx : x = id
      · subst hx
        generalize hV : s.view x = V at hv hrem hp
        have hv' : ({ s with subs := s.subs.erase x, rem := put s.rem x .done } : State).view x = { V with inSubs := false, rem := .done } := by
          rw [← hV]; simp [State.view, put_same, hn.mem_erase_iff]
        rw [hv']
        refine ⟨?_, hv.unpolled, ?_, hv.live, hv.added, hv.ws, ?_, ?_, ?_, ?_, hv.start, ?_, hv.used, ?_, (fun a _ => hv.wsr a (by rw [hrem]; simp))⟩
        · intro h; have := (hv.fresh h).2.2.2.1; rw [hrem] at this; cases this
        · intro h; have := (hv.inst h).2.2.1; rw [hrem] at this; cases this
        · intro h; cases h
        · intro _; exact hv.gone (by rw [hrem]; simp)
        · simp
        · intro _ h; cases h
        · intro h; dsimp only at h; rw [hp] at h; cases h
        · intro h; cases h
      · have hv' : ({ s with subs := s.subs.erase id, rem := put s.rem id .done } : State).view x = s.view x := by
          simp [State.view, put_other _ _ _ _ hx, List.mem_erase_of_ne hx]
        rw [hv']; exact hok x
    · cases hs
  | exit id =>
    simp only [step] at hs
    split at hs
    · next hc =>
      cases hs
      have hv := hok id
      have hgo : (s.view id).go_ = .listening := hc.2
      have hrem : (s.view id).rem = .done := hc.1
      refine ⟨hn, hr, fun x => ?_⟩
      by_cases hx : x = id
      · subst hx
        generalize hV : s.view x = V at hv hgo hrem
        have hv' : ({ s with go_ := put s.go_ x .exited } : State).view x = { V with go_ := .exited } := by
          rw [← hV]; simp [State.view, put_same]
        rw [hv']
        have hlive : V.api = .live := by
          by_cases h : V.api = .live
          · exact h
          · have := hv.live.2 h; rw [hgo] at this; cases this
        refine ⟨?_, hv.unpolled, ?_, ?_, hv.added, hv.ws, hv.some_, hv.gone, hv.subs, ?_, hv.start, hv.pend, hv.used, ?_, (fun _ _ => rfl)⟩
        · intro h; dsimp only at h; rw [hlive] at h; cases h
        · intro h; dsimp only at h; rw [hlive] at h; cases h
        · simp [hlive]
        · intro _; dsimp only; rw [hrem]; simp
        · intro h; dsimp only at h; rw [hrem] at h; cases h
      · have hv' : ({ s with go_ := put s.go_ id .exited } : State).view x = s.view x := by
          simp [State.view, put_other _ _ _ _ hx]
        rw [hv']; exact hok x
    · cases hs

theorem inv (info : Nat → Sub) (timeout : Nat) (s : State) (h : Reach info timeout s) : Inv info s := by
  induction h with
  | init => exact inv_init info
  | next l _ hs ih => exact step_inv info timeout _ _ l ih hs

/-! ### C42 -/

open Verif.LogFilter in
/-- What a client is owed for one event, independently of the code: a block filter the block's hash, a log filter the logs that
match its criteria (addresses, topics and block range), a filter for pending transactions the transaction or its hash as asked;
nothing for events of another kind. -/
def due (s : Sub) (e : Ev) : List Item :=
  match s.ty, e with
  | .blocks, .block h => [.hash h]
  | .logs, .logs l => (l.filter fun x => decide (InRange s.crit x ∧ Matches s.crit x.raw)).map .log
  | .pending, .pending h => if s.fullTx then [.tx h] else [.hash h]
  | _, _ => []

theorem due_eq (s : Sub) (e : Ev) : due s e = if wants s e then items s e else [] := by
  cases hty : s.ty <;> cases e <;> simp [due, wants, items, hty, filterLogs]
  rename_i l
  have hf : (l.filter fun x => decide (InRange s.crit x ∧ Matches s.crit x.raw)) =
      l.filter (check s.crit.fromBlock s.crit.toBlock s.crit.addresses s.crit.topics) := by
    congr 1
    funext x
    rw [Bool.eq_iff_iff, decide_eq_true_iff]
    exact (Verif.LogFilter.check_range s.crit x).symm
  cases l with
  | nil => simp
  | cons y ys =>
    simp only [reduceCtorEq, if_false]
    rw [← hf]
    simp only [Bool.decide_and]

theorem owed_eq (s : Sub) (start : Nat) (recvd : List Ev) : owed s start recvd = (recvd.drop start).flatMap (due s) := by
  unfold owed
  induction recvd.drop start with
  | nil => rfl
  | cons e l ih =>
    simp only [List.flatMap_cons, due_eq, List.filter_cons]
    split
    · rename_i h; rw [List.flatMap_cons, ih]
    · rw [ih]; simp

/-- C42: each event is delivered exactly once and in order. In every reachable state, for a filter or subscription that is
installed and not being removed, the items returned so far, followed by those on the way, are those due for the events the event
loop got since the installation, in that order; nothing is lost, doubled or reordered, whatever the goroutines' schedule. -/
theorem C42_delivery (info : Nat → Sub) (timeout : Nat) (s : State) (h : Reach info timeout s) (id : Nat) (h1 : s.api id ≠ .fresh)
    (h2 : s.rem id = .none) : s.out id ++ onTheWay info s id = (s.recvd.drop (s.start id)).flatMap (due (info id)) := by
  rw [way_eq, ← owed_eq]
  exact ((inv info timeout s h).ok id).deliv h2 h1

/-- C42: a poll returns everything collected, and nothing is returned twice. -/
theorem C42_poll (info : Nat → Sub) (timeout : Nat) (s s' : State) (id : Nat) (hs : step info timeout s (.poll id) = some s') :
    ∃ f, s.filt id = some f ∧ s'.out id = s.out id ++ f.buf ∧ (∃ f', s'.filt id = some f' ∧ f'.buf = []) ∧ (∀ x, x ≠ id → s'.out x = s.out x ∧ s'.filt x = s.filt x) := by
  simp only [step] at hs
  split at hs
  · rename_i f hf
    cases hs
    exact ⟨f, hf, (by simp [put_same]), ⟨⟨[], some s.now⟩, (by simp [put_same]), rfl⟩, fun x hx => by simp [put_other _ _ _ _ hx]⟩
  · cases hs

theorem rem_stable (info : Nat → Sub) (timeout : Nat) (s s' : State) (l : Label) (id : Nat) (hs : step info timeout s l = some s')
    (hr : s.rem id ≠ .none) : s'.rem id ≠ .none := by
  cases l with
  | uninstall x =>
    simp only [step] at hs
    split at hs
    · cases hs
      by_cases hx : id = x
      · subst hx; simp [put_same]
      · simp only [put_other _ _ _ _ hx]; exact hr
    · cases hs
  | close x =>
    simp only [step] at hs
    split at hs
    · cases hs
      by_cases hx : id = x
      · subst hx; simp [put_same]
      · simp only [put_other _ _ _ _ hx]; exact hr
    · cases hs
  | unsub x =>
    simp only [step] at hs
    split at hs
    · cases hs
      by_cases hx : id = x
      · subst hx; simp [put_same]
      · simp only [put_other _ _ _ _ hx]; exact hr
    · cases hs
  | tick =>
    simp only [step, Option.some.injEq] at hs
    subst hs
    simp only [sweepRem]
    split
    · split
      · simp
      · exact hr
    · exact hr
  | emit => simp only [step, Option.some.injEq] at hs; subst hs; exact hr
  | wait => simp only [step, Option.some.injEq] at hs; subst hs; exact hr
  | recv =>
    simp only [step] at hs
    split at hs
    · cases hs; exact hr
    · cases hs
  | send =>
    simp only [step] at hs
    split at hs
    · split at hs
      · cases hs; exact hr
      · cases hs
    · cases hs
  | drain =>
    simp only [step] at hs
    split at hs
    · split at hs
      · cases hs; exact hr
      · cases hs
    · cases hs
  | loopDone =>
    simp only [step] at hs
    split at hs
    · cases hs; exact hr
    · cases hs
  | process =>
    simp only [step] at hs
    split at hs
    · split at hs
      · cases hs; exact hr
      · split at hs
        · cases hs; exact hr
        · cases hs; exact hr
    · cases hs
  | install =>
    simp only [step] at hs
    split at hs
    · cases hs; exact hr
    · cases hs
  | add =>
    simp only [step] at hs
    split at hs
    · cases hs; exact hr
    · cases hs
  | spawn x =>
    simp only [step] at hs
    by_cases hc : s.api x = (if (info x).ws then .installed else .added)
    · rw [if_pos hc] at hs; cases hs; exact hr
    · rw [if_neg hc] at hs; cases hs
  | poll =>
    simp only [step] at hs
    split at hs
    · cases hs; exact hr
    · cases hs
  | exit =>
    simp only [step] at hs
    split at hs
    · cases hs; exact hr
    · cases hs

/-- States after more steps. -/
inductive Later (info : Nat → Sub) (timeout : Nat) : State → State → Prop
  | refl (s : State) : Later info timeout s s
  | next {s s' s'' : State} (l : Label) : Later info timeout s s' → step info timeout s' l = some s'' → Later info timeout s s''

/-- C42: an uninstalled filter stays uninstalled: no later poll finds it, and it holds no items. -/
theorem C42_uninstalled (info : Nat → Sub) (timeout : Nat) (s s1 s2 : State) (h : Reach info timeout s) (id : Nat)
    (hu : step info timeout s (.uninstall id) = some s1) (hl : Later info timeout s1 s2) :
    s2.filt id = none ∧ step info timeout s2 (.poll id) = none ∧ step info timeout s2 (.uninstall id) = none := by
  have h1 : Reach info timeout s1 := .next _ h hu
  have hr1 : s1.rem id ≠ .none := by
    simp only [step] at hu
    split at hu
    · cases hu; simp [put_same]
    · cases hu
  have : Reach info timeout s2 ∧ s2.rem id ≠ .none := by
    induction hl with
    | refl => exact ⟨h1, hr1⟩
    | next l _ hs ih => exact ⟨.next l ih.1 hs, rem_stable info timeout _ _ l id hs ih.2⟩
  have hf : s2.filt id = none := ((inv info timeout s2 this.1).ok id).gone this.2
  exact ⟨hf, by simp [step, hf], by simp [step, hf]⟩

/-- C42: a filter that is a log filter or was polled at least once disappears only when it is uninstalled or when a tick finds
that more than the timeout has passed since its creation or last poll. -/
theorem C42_kept_partial (info : Nat → Sub) (timeout : Nat) (s s' : State) (h : Reach info timeout s) (l : Label) (id : Nat)
    (hs : step info timeout s l = some s') (hf : (s.filt id).isSome) (hg : s'.filt id = none) (hk : (info id).ty = .logs ∨ s.polled id = true) :
    l = .uninstall id ∨ (l = .tick ∧ s.touched id + timeout < s.now) := by
  obtain ⟨f, hf⟩ := Option.isSome_iff_exists.1 hf
  have hu := ((inv info timeout s h).ok id).used f hf
  have hlast : f.lastUsed = some (s.touched id) := by
    cases hl : f.lastUsed with
    | none =>
      have := hu.2 hl
      rcases hk with hk | hk
      · exact absurd hk this.1
      · have h2 : s.polled id = false := this.2
        rw [hk] at h2; cases h2
    | some t => rw [hu.1 t hl]; rfl
  have hcontra : ∀ {g : Filter}, s.filt id = none → s.filt id = some g → False := fun a b => by rw [a] at b; cases b
  cases l with
  | uninstall x =>
    simp only [step] at hs
    split at hs
    · cases hs
      by_cases hx : id = x
      · subst hx; exact Or.inl rfl
      · simp only [put_other _ _ _ _ hx] at hg; rw [hg] at hf; cases hf
    · cases hs
  | tick =>
    simp only [step, Option.some.injEq] at hs
    subst hs
    simp only [sweepFilt, hf] at hg
    split at hg
    · next he =>
      refine Or.inr ⟨rfl, ?_⟩
      simp only [expired, hlast, decide_eq_true_eq] at he
      omega
    · cases hg
  | process x =>
    simp only [step] at hs
    split at hs
    · split at hs
      · cases hs; exact (hcontra hg hf).elim
      · split at hs
        · cases hs
          by_cases hx : id = x
          · subst hx; simp [put_same] at hg
          · simp only [put_other _ _ _ _ hx] at hg; exact (hcontra hg hf).elim
        · cases hs; exact (hcontra hg hf).elim
    · cases hs
  | add x =>
    simp only [step] at hs
    split at hs
    · cases hs
      by_cases hx : id = x
      · subst hx; simp [put_same] at hg
      · simp only [put_other _ _ _ _ hx] at hg; exact (hcontra hg hf).elim
    · cases hs
  | poll x =>
    simp only [step] at hs
    split at hs
    · cases hs
      by_cases hx : id = x
      · subst hx; simp [put_same] at hg
      · simp only [put_other _ _ _ _ hx] at hg; exact (hcontra hg hf).elim
    · cases hs
  | emit => simp only [step, Option.some.injEq] at hs; subst hs; exact (hcontra hg hf).elim
  | wait => simp only [step, Option.some.injEq] at hs; subst hs; exact (hcontra hg hf).elim
  | recv =>
    simp only [step] at hs
    split at hs
    · cases hs; exact (hcontra hg hf).elim
    · cases hs
  | send =>
    simp only [step] at hs
    split at hs
    · split at hs
      · cases hs; exact (hcontra hg hf).elim
      · cases hs
    · cases hs
  | drain =>
    simp only [step] at hs
    split at hs
    · split at hs
      · cases hs; exact (hcontra hg hf).elim
      · cases hs
    · cases hs
  | loopDone =>
    simp only [step] at hs
    split at hs
    · cases hs; exact (hcontra hg hf).elim
    · cases hs
  | install =>
    simp only [step] at hs
    split at hs
    · cases hs; exact (hcontra hg hf).elim
    · cases hs
  | spawn x =>
    simp only [step] at hs
    by_cases hc : s.api x = (if (info x).ws then .installed else .added)
    · rw [if_pos hc] at hs; cases hs; exact (hcontra hg hf).elim
    · rw [if_neg hc] at hs; cases hs
  | close =>
    simp only [step] at hs
    split at hs
    · cases hs; exact (hcontra hg hf).elim
    · cases hs
  | unsub =>
    simp only [step] at hs
    split at hs
    · cases hs; exact (hcontra hg hf).elim
    · cases hs
  | exit =>
    simp only [step] at hs
    split at hs
    · cases hs; exact (hcontra hg hf).elim
    · cases hs

/-- Steps that do not come from outside: no new block, request, client or tick, and no time. -/
def Label.internal : Label → Bool
  | .send _ | .drain _ | .loopDone | .process _ | .add _ | .spawn _ => true
  | _ => false

/-- C42: the event loop is never stuck: while it is handing out an event, some goroutine can go on without anything from
outside. -/
theorem C42_no_deadlock (info : Nat → Sub) (timeout : Nat) (s : State) (h : Reach info timeout s) (hl : s.loop ≠ none) :
    ∃ l, l.internal = true ∧ (step info timeout s l).isSome := by
  cases hlp : s.loop with
  | none => exact absurd hlp hl
  | some x =>
    obtain ⟨e, r⟩ := x
    cases r with
    | nil => exact ⟨.loopDone, rfl, by simp [step, hlp]⟩
    | cons id r =>
      have hv := (inv info timeout s h).ok id
      have hp : (s.view id).pend.isSome := by simp [State.view, hlp]
      obtain ⟨hnf, hnd⟩ := hv.subs.1 (hv.pend hp)
      have hnf : s.api id ≠ .fresh := hnf
      have hnd : s.rem id ≠ .done := hnd
      cases hg : s.go_ id with
      | listening => exact ⟨.send id, rfl, by simp [step, hlp, hg]⟩
      | holding e' =>
        refine ⟨.process id, rfl, ?_⟩
        simp only [step, hg]
        split
        · rfl
        · cases s.filt id <;> rfl
      | exited =>
        have hr : s.rem id ≠ .none := hv.exited hg
        refine ⟨.drain id, rfl, ?_⟩
        cases hr' : s.rem id with
        | none => exact absurd hr' hr
        | done => exact absurd hr' hnd
        | draining => simp [step, hlp, hr']
      | none =>
        have hnl : s.api id ≠ .live := hv.live.1 hg
        cases ha : s.api id with
        | fresh => exact absurd ha hnf
        | live => exact absurd ha hnl
        | added =>
          have hw : (info id).ws = false := hv.added ha
          exact ⟨.spawn id, rfl, by simp [step, ha, hw]⟩
        | installed =>
          cases hw : (info id).ws with
          | true => exact ⟨.spawn id, rfl, by simp [step, ha, hw]⟩
          | false => exact ⟨.add id, rfl, by simp [step, ha, hw]⟩

/-! ### Order of the blocks -/

/-- Runs in which a block is finalized only when the events of the previous ones were taken by the event loop. -/
inductive ReachSlow (info : Nat → Sub) (timeout : Nat) : State → Prop
  | init : ReachSlow info timeout State.init
  | next {s s' : State} (l : Label) : ReachSlow info timeout s → step info timeout s l = some s' →
      (∀ evs, l = .emit evs → ∀ x ∈ s.emitters, x = []) → ReachSlow info timeout s'

theorem set_flatten_slow : ∀ (l : List (List Ev)) (i : Nat) (e : Ev) (rest : List Ev), l[i]? = some (e :: rest) →
    (∀ (j : Nat) x, j < i → l[j]? = some x → x = []) → l.flatten = e :: (l.set i rest).flatten
  | [], i, _, _, h, _ => by simp at h
  | a :: l, 0, e, rest, h, _ => by simp at h; simp [h]
  | a :: l, i + 1, e, rest, h, hz => by
    have ha : a = [] := hz 0 a (by omega) rfl
    simp only [List.getElem?_cons_succ] at h
    simp only [List.set_cons_succ, List.flatten_cons, ha, List.nil_append]
    exact set_flatten_slow l i e rest h (fun j x hj hx => hz (j + 1) x (by omega) (by simpa using hx))

theorem recv_fields {info : Nat → Sub} {timeout i : Nat} {s s' : State} (hs : step info timeout s (.recv i) = some s') :
    ∃ e rest, s.emitters[i]? = some (e :: rest) ∧ s'.emitters = s.emitters.set i rest ∧ s'.recvd = s.recvd ++ [e] ∧ s'.emitted = s.emitted := by
  simp only [step] at hs
  split at hs
  · rename_i e rest hl he
    cases hs
    exact ⟨e, rest, he, rfl, rfl, rfl⟩
  · cases hs

theorem other_fields {info : Nat → Sub} {timeout : Nat} {s s' : State} (l : Label) (hs : step info timeout s l = some s')
    (h1 : ∀ evs, l ≠ .emit evs) (h2 : ∀ i, l ≠ .recv i) : s'.emitters = s.emitters ∧ s'.recvd = s.recvd ∧ s'.emitted = s.emitted := by
  cases l with
  | emit evs => exact absurd rfl (h1 evs)
  | recv i => exact absurd rfl (h2 i)
  | spawn x =>
    simp only [step] at hs
    by_cases hc : s.api x = (if (info x).ws then .installed else .added)
    · rw [if_pos hc] at hs; cases hs; exact ⟨rfl, rfl, rfl⟩
    · rw [if_neg hc] at hs; cases hs
  | tick => simp only [step, Option.some.injEq] at hs; subst hs; exact ⟨rfl, rfl, rfl⟩
  | wait => simp only [step, Option.some.injEq] at hs; subst hs; exact ⟨rfl, rfl, rfl⟩
  | process x =>
    simp only [step] at hs
    split at hs
    · split at hs
      · cases hs; exact ⟨rfl, rfl, rfl⟩
      · split at hs
        · cases hs; exact ⟨rfl, rfl, rfl⟩
        · cases hs; exact ⟨rfl, rfl, rfl⟩
    · cases hs
  | send x =>
    simp only [step] at hs
    split at hs
    · split at hs
      · cases hs; exact ⟨rfl, rfl, rfl⟩
      · cases hs
    · cases hs
  | drain x =>
    simp only [step] at hs
    split at hs
    · split at hs
      · cases hs; exact ⟨rfl, rfl, rfl⟩
      · cases hs
    · cases hs
  | _ =>
    simp only [step] at hs
    split at hs
    · cases hs; exact ⟨rfl, rfl, rfl⟩
    · cases hs

/-- C42: events reach the event loop, and by `C42_delivery` the clients, in the order of the blocks, when no block is finalized
before the events of the previous ones were taken. -/
theorem C42_order_partial (info : Nat → Sub) (timeout : Nat) (s : State) (h : ReachSlow info timeout s) :
    s.recvd ++ s.emitters.flatten = s.emitted := by
  have H : s.recvd ++ s.emitters.flatten = s.emitted ∧ ∀ (i j : Nat) x y, i < j → s.emitters[i]? = some x → s.emitters[j]? = some y → y ≠ [] → x = [] := by
    induction h with
    | init => exact ⟨rfl, fun i j x y _ h => by simp [State.init] at h⟩
    | @next s s' l _ hs hsl ih =>
      by_cases he : ∃ evs, l = .emit evs
      · obtain ⟨evs, rfl⟩ := he
        have hz := hsl evs rfl
        simp only [step, Option.some.injEq] at hs
        subst hs
        have hf : s.emitters.flatten = [] := List.flatten_eq_nil_iff.2 hz
        refine ⟨?_, fun i j x y hij hi hj hy => ?_⟩
        · have := ih.1; rw [hf, List.append_nil] at this
          simp [hf, this]
        · dsimp only at hi hj
          by_cases hlt : i < s.emitters.length
          · rw [List.getElem?_append_left hlt] at hi
            exact hz _ (List.mem_of_getElem? hi)
          · have : j < (s.emitters ++ [evs]).length := by
              rcases Nat.lt_or_ge j (s.emitters ++ [evs]).length with h | h
              · exact h
              · rw [List.getElem?_eq_none h] at hj; cases hj
            simp at this; omega
      · by_cases hr : ∃ i, l = .recv i
        · obtain ⟨k, rfl⟩ := hr
          obtain ⟨e, rest, g1, g2, g3, g4⟩ := recv_fields hs
          refine ⟨?_, fun i j x y hij hi hj hy => ?_⟩
          · rw [g2, g3, g4, ← ih.1, set_flatten_slow s.emitters k e rest g1 (fun j x hj hx => ih.2 j k x _ hj hx g1 (by simp))]
            simp
          · rw [g2] at hi hj
            have hk : k < s.emitters.length := (List.getElem?_eq_some_iff.1 g1).1
            rw [List.getElem?_set] at hi hj
            by_cases hki : k = i
            · subst hki
              rw [if_pos rfl, if_pos hk] at hi
              rw [if_neg (by omega)] at hj
              exact absurd (ih.2 k j _ y hij g1 hj hy) (by simp)
            · rw [if_neg hki] at hi
              by_cases hkj : k = j
              · subst hkj
                exact ih.2 i k x _ hij hi g1 (by simp)
              · rw [if_neg hkj] at hj
                exact ih.2 i j x y hij hi hj hy
        · obtain ⟨g1, g2, g3⟩ := other_fields l hs (fun evs h => he ⟨evs, h⟩) (fun i h => hr ⟨i, h⟩)
          rw [g1, g2, g3]; exact ih
  exact H.1

theorem set_flatten_perm : ∀ (l : List (List Ev)) (i : Nat) (e : Ev) (rest : List Ev), l[i]? = some (e :: rest) →
    (e :: (l.set i rest).flatten).Perm l.flatten
  | [], i, _, _, h => by simp at h
  | a :: l, 0, e, rest, h => by simp at h; simp [h]
  | a :: l, i + 1, e, rest, h => by
    simp only [List.getElem?_cons_succ] at h
    simp only [List.set_cons_succ, List.flatten_cons]
    have := set_flatten_perm l i e rest h
    exact List.perm_middle.symm.trans (List.Perm.append_left a this)

/-- C42: in every run each event reaches the event loop at most once, and none is invented: the events received and those still
to be sent are together the events of the chain. -/
theorem C42_once (info : Nat → Sub) (timeout : Nat) (s : State) (h : Reach info timeout s) : (s.recvd ++ s.emitters.flatten).Perm s.emitted := by
  induction h with
  | init => exact List.Perm.refl _
  | @next s s' l _ hs ih =>
    by_cases he : ∃ evs, l = .emit evs
    · obtain ⟨evs, rfl⟩ := he
      simp only [step, Option.some.injEq] at hs
      subst hs
      have := ih.append_right evs
      simpa [List.append_assoc] using this
    · by_cases hr : ∃ i, l = .recv i
      · obtain ⟨k, rfl⟩ := hr
        obtain ⟨e, rest, g1, g2, g3, g4⟩ := recv_fields hs
        rw [g2, g3, g4]
        refine List.Perm.trans ?_ ih
        rw [List.append_assoc]
        exact List.Perm.append_left _ (set_flatten_perm s.emitters k e rest g1)
      · obtain ⟨g1, g2, g3⟩ := other_fields l hs (fun evs h => he ⟨evs, h⟩) (fun i h => hr ⟨i, h⟩)
        rw [g1, g2, g3]; exact ih

/-! ### Cases -/

def crit : Crit := ⟨none, none, none, [], []⟩

/-- 0: block filter; 1: log filter; 2: websocket for blocks; others: pending transactions -/
def info0 (id : Nat) : Sub :=
  if id = 0 then ⟨.blocks, false, crit, false⟩ else if id = 1 then ⟨.logs, false, crit, false⟩ else if id = 2 then ⟨.blocks, false, crit, true⟩ else ⟨.pending, true, crit, false⟩

def runL (info : Nat → Sub) (timeout : Nat) : State → List Label → Option State
  | s, [] => some s
  | s, l :: ls => (step info timeout s l).bind (fun s => runL info timeout s ls)

theorem runL_reach (info : Nat → Sub) (timeout : Nat) : ∀ (ls : List Label) (s s' : State), Reach info timeout s → runL info timeout s ls = some s' → Reach info timeout s'
  | [], s, s', h, hr => by simp only [runL, Option.some.injEq] at hr; subst hr; exact h
  | l :: ls, s, s', h, hr => by
    simp only [runL, Option.bind_eq_some_iff] at hr
    obtain ⟨m, h1, h2⟩ := hr
    exact runL_reach info timeout ls m s' (.next l h h1) h2

def log1 : Log := ⟨⟨Addr.zero, [], []⟩, Hash.zero, 1, Hash.zero, 0, 0⟩

/-- block 1 (one log) and block 2 -/
def ev1 : List Ev := [.logs [log1], .logs [], .block (Hash.ofNat 1)]
def ev2 : List Ev := [.logs [], .block (Hash.ofNat 2)]

/-- a block filter and a websocket are fed; the filter is polled in between -/
def run1 : List Label :=
  [.install 0, .install 2, .add 0, .spawn 0, .spawn 2, .emit ev1, .recv 0, .loopDone, .recv 0, .loopDone, .recv 0, .send 2, .send 0, .loopDone, .process 0,
   .poll 0, .emit ev2, .recv 1, .loopDone, .recv 1, .send 0]

example : (runL info0 300 State.init run1).map (fun s => (s.out 0, onTheWay info0 s 0, s.out 2, onTheWay info0 s 2, owed (info0 2) (s.start 2) s.recvd)) =
    some ([.hash (Hash.ofNat 1)], [.hash (Hash.ofNat 2)], [], [.hash (Hash.ofNat 1), .hash (Hash.ofNat 2)], [.hash (Hash.ofNat 1), .hash (Hash.ofNat 2)]) := by
  decide +kernel

/-- the run is one of those of `C42_order_partial`, with a nontrivial history -/
example : (runL info0 300 State.init run1).map (fun s => (s.recvd, s.emitters.flatten)) = some (ev1 ++ ev2, []) := by decide +kernel

/-- C42 does not hold for block filters (and pending transaction filters): one that was just created is removed by the next
tick, without any time having passed. -/
theorem C42_new_filter_violated : (runL info0 300 State.init [.install 0, .add 0, .spawn 0, .tick]).map (fun s => ((s.filt 0).isSome, s.now, s.touched 0)) = some (false, 0, 0) ∧
    (runL info0 300 State.init [.install 1, .add 1, .spawn 1, .tick]).map (fun s => (s.filt 1).isSome) = some true := by decide +kernel

/-- The same in every state: a filter for blocks or pending transactions that was not polled yet does not survive a tick. -/
theorem C42_unpolled_violated (info : Nat → Sub) (timeout : Nat) (s s1 s2 : State) (id : Nat) (hty : (info id).ty ≠ .logs)
    (ha : step info timeout s (.add id) = some s1) (ht : step info timeout s1 .tick = some s2) : s2.filt id = none := by
  simp only [step] at ha
  split at ha
  · cases ha
    simp only [step, Option.some.injEq] at ht
    subst ht
    simp [sweepFilt, put_same, hty, expired]
  · cases ha

/-- C42 does not hold for the order of blocks: when two blocks are finalized before the event loop takes the events of the first,
a client can get the second block before the first. -/
theorem C42_order_violated : (runL info0 300 State.init
    [.install 0, .add 0, .spawn 0, .emit [.block (Hash.ofNat 1)], .emit [.block (Hash.ofNat 2)], .recv 1, .send 0, .loopDone, .process 0, .recv 0, .send 0, .process 0, .poll 0]).map
      (fun s => s.out 0) = some [.hash (Hash.ofNat 2), .hash (Hash.ofNat 1)] := by decide +kernel

end Verif.Filters
