import Verif.Model.Query
import Verif.Lemmas.CacheStack
import Verif.Props.TxUtils
/-
Property theorems C46 (queries change nothing), C68 (eth_call answers as execution would), C69 (oracle queries of
contracts depend only on the request).
-/
namespace Verif.Props.Query
open Verif Verif.Text Verif.CacheStack Verif.TxUtils Verif.Query
open Verif.Props.TxUtils (toyEnv)

variable {K V A P : Type}

/-! ### C46: the query leaves every store as it was -/

/-- The contexts a program holds: all of them, and the parents of those it made itself, are above layer `n`. -/
def Above (n : Nat) (cs : List (List Nat)) : Prop :=
  ∀ h c, cs[h]? = some c → ∃ l t, c = l :: t ∧ n ≤ l ∧ (h ≠ 0 → ∃ p t', t = p :: t' ∧ n ≤ p)

/-- Nothing below layer `n` differs. -/
def Below (n : Nat) (s s' : Stores K V) : Prop := s'.base = s.base ∧ ∀ l, l < n → s'.heap l = s.heap l

theorem Below.trans {n : Nat} {a b c : Stores K V} (h1 : Below n a b) (h2 : Below n b c) : Below n a c :=
  ⟨h2.1.trans h1.1, fun l hl => (h2.2 l hl).trans (h1.2 l hl)⟩

theorem run_below (p : Prog K V A) : ∀ (n : Nat) (cs : List (List Nat)) (s : Stores K V), cs ≠ [] → n ≤ s.next →
    Above n cs → Below n s (p.run cs s).1 := by
  induction p with
  | ret a => intros; exact ⟨rfl, fun _ _ => rfl⟩
  | panic => intros; exact ⟨rfl, fun _ _ => rfl⟩
  | read h k ih =>
    intro n cs s h0 hn ha
    simp only [Prog.run]
    cases hc : cs[h]? with
    | none => exact ⟨rfl, fun _ _ => rfl⟩
    | some c => exact ih (s.read c) n cs s h0 hn ha
  | write h d k ih =>
    intro n cs s h0 hn ha
    simp only [Prog.run]
    cases hc : cs[h]? with
    | none => exact ⟨rfl, fun _ _ => rfl⟩
    | some c =>
      obtain ⟨l, t, rfl, hl, _⟩ := ha h c hc
      refine Below.trans (b := s.write (l :: t) d) ⟨rfl, fun j hj => ?_⟩ (ih n cs _ h0 hn ha)
      simp [Stores.write, show j ≠ l by omega]
  | cache h k ih =>
    intro n cs s h0 hn ha
    simp only [Prog.run]
    cases hc : cs[h]? with
    | none => exact ⟨rfl, fun _ _ => rfl⟩
    | some c =>
      obtain ⟨l, t, rfl, hl, _⟩ := ha h c hc
      refine Below.trans (b := (s.cache (l :: t)).1) ⟨rfl, fun j hj => ?_⟩ (ih n _ _ (by simp) ?_ ?_)
      · simp [Stores.cache, show j ≠ s.next by omega]
      · simp [Stores.cache]; omega
      · intro h' c' hc'
        by_cases hlt : h' < cs.length
        · rw [List.getElem?_append_left hlt] at hc'
          exact ha h' c' hc'
        · rw [List.getElem?_append_right (by omega)] at hc'
          have : h' - cs.length = 0 := by
            rcases Nat.eq_zero_or_pos (h' - cs.length) with h | h
            · exact h
            · rw [List.getElem?_eq_none (by simp; omega)] at hc'; simp at hc'
          rw [this] at hc'
          simp only [List.getElem?_cons_zero, Option.some.injEq, Stores.cache] at hc'
          exact ⟨s.next, l :: t, hc'.symm, hn, fun _ => ⟨l, t, rfl, hl⟩⟩
  | flush h k ih =>
    intro n cs s h0 hn ha
    simp only [Prog.run]
    cases hc : cs[h]? with
    | none => exact ⟨rfl, fun _ _ => rfl⟩
    | some c =>
      by_cases hz : h = 0
      · simp only [hz, if_true]; exact ⟨rfl, fun _ _ => rfl⟩
      · simp only [hz, if_false]
        obtain ⟨l, t, rfl, hl, hp⟩ := ha h c hc
        obtain ⟨q, t', rfl, hq⟩ := hp hz
        refine Below.trans (b := s.flush (l :: q :: t')) ⟨rfl, fun j hj => ?_⟩ (ih n cs _ h0 hn ha)
        simp [Stores.flush, show j ≠ l by omega, show j ≠ q by omega]

theorem cached_below (p : Prog K V A) (c : List Nat) (s : Stores K V) :
    Below s.next s (p.run [(s.cache c).2] (s.cache c).1).1 := by
  refine Below.trans (b := (s.cache c).1) ⟨rfl, fun j hj => ?_⟩
    (run_below p s.next [(s.cache c).2] (s.cache c).1 (by simp) (by simp [Stores.cache]) ?_)
  · simp [Stores.cache, show j ≠ s.next by omega]
  · intro h c' hc'
    rcases h with _ | h
    · simp only [List.getElem?_cons_zero, Option.some.injEq, Stores.cache] at hc'
      exact ⟨s.next, c, hc'.symm, Nat.le_refl _, fun h => absurd rfl h⟩
    · simp at hc'

theorem Below.same {s s' : Stores K V} (h : Below s.next s s') : s'.base = s.base ∧
    ∀ c', (∀ l ∈ c', l < s.next) → s'.read c' = s.read c' := by
  refine ⟨h.1, fun c' hc' => ?_⟩
  unfold Stores.read
  rw [h.1]
  exact readAt_congr _ _ _ c' (fun l hl => h.2 l (hc' l hl))

theorem callQuery_below (e : Env P) (exec : Ask → Prog K V Outcome) (r : CallReq) (c : List Nat)
    (s : Stores K V) : Below s.next s (callQuery e exec r c s).1 := by
  unfold callQuery
  cases parseCall e r with
  | none => exact ⟨rfl, fun _ _ => rfl⟩
  | some a => exact cached_below (exec a) c s

/-- C46: whatever code the `Call` query runs — any program over the context it is given, including its own
snapshots and their commits, whether it succeeds, fails or panics — the committed stores and everything visible
through any context that existed before are exactly what they were. -/
theorem C46_call (e : Env P) (exec : Ask → Prog K V Outcome) (r : CallReq) (c : List Nat) (s : Stores K V) :
    (callQuery e exec r c s).1.base = s.base ∧
    ∀ c', (∀ l ∈ c', l < s.next) → (callQuery e exec r c s).1.read c' = s.read c' :=
  (callQuery_below e exec r c s).same

/-- C46: the same for `eth_call`. -/
theorem C46_eth_call (e : Env P) (exec : Ask → Prog K V Outcome) (a : TxArgs) (c : List Nat) (s : Stores K V) :
    (ethCall e exec a c s).1.base = s.base ∧
    ∀ c', (∀ l ∈ c', l < s.next) → (ethCall e exec a c s).1.read c' = s.read c' :=
  C46_call e exec (ethCallReq e a) c s

/-- C46: the same for `eth_estimateGas`, whatever the simulated transaction does. -/
theorem C46_estimate_gas (e : Env P) (run : Msg → Prog K V (Option Nat)) (a : TxArgs) (c : List Nat)
    (s : Stores K V) :
    (estimateGas e run a c s).1.base = s.base ∧
    ∀ c', (∀ l ∈ c', l < s.next) → (estimateGas e run a c s).1.read c' = s.read c' :=
  (cached_below (run (estimateMsg e a)) c s).same

/-- A program that writes, snapshots, writes again, commits its snapshot and returns what it then sees. -/
def writer : Prog Nat Nat Outcome :=
  .write 0 (fun k => if k = 0 then some (some 5) else none)
    (.cache 0 (.write 1 (fun k => if k = 1 then some (some 6) else none)
      (.flush 1 (.read 0 fun v => .ret (.ok [UInt8.ofNat (v 0 |>.getD 0), UInt8.ofNat (v 1 |>.getD 0)])))))

def noStores : Stores Nat Nat := { base := fun _ => none, heap := fun _ => Delta.empty, next := 0 }

/-- The writer changes the stores when it is given the stores themselves … -/
example : ((writer.run [[]] noStores).1.base 0, (writer.run [[]] noStores).1.base 1) = (some 5, some 6) := by
  decide +kernel
/-- … and under `Call` it sees its own writes but the stores keep nothing. -/
example : (callQuery (toyEnv 18) (fun _ => writer) ⟨[], "0x0000000000000000000000000000000000000001".toList,
      "0x".toList, none⟩ [] noStores).2 = some ⟨encode0x [5, 6], none⟩ := by decide +kernel

/-! ### C46: the answer is the answer of the real execution -/

/-- The stores of a query context seen from inside the cache context: layer 0 is the query's own. -/
structure Sim (s t : Stores K V) : Prop where
  base : s.base = overlay (t.heap 0) t.base
  heap : ∀ j, s.heap j = t.heap (j + 1)
  next : t.next = s.next + 1

/-- Context of the direct run ↦ context of the cached run. -/
def lift (c : List Nat) : List Nat := c.map (· + 1) ++ [0]

theorem sim_read {s t : Stores K V} (h : Sim s t) (c : List Nat) : s.read c = t.read (lift c) := by
  unfold Stores.read lift
  induction c with
  | nil => simp [readAt, h.base]
  | cons l c ih => simp only [readAt, List.map_cons, List.cons_append, ih, h.heap]

theorem sim_write {s t : Stores K V} (h : Sim s t) (c : List Nat) (d : Delta K V) :
    Sim (s.write c d) (t.write (lift c) d) := by
  cases c with
  | nil =>
    refine ⟨?_, ?_, h.next⟩
    · simp [Stores.write, lift, h.base, overlay_over]
    · intro j; simp [Stores.write, lift, h.heap]
  | cons l c =>
    refine ⟨?_, ?_, h.next⟩
    · simp [Stores.write, lift, h.base]
    · intro j; simp [Stores.write, lift, h.heap]

theorem sim_cache {s t : Stores K V} (h : Sim s t) (c : List Nat) :
    Sim (s.cache c).1 (t.cache (lift c)).1 ∧ (t.cache (lift c)).2 = lift (s.cache c).2 := by
  refine ⟨⟨?_, ?_, ?_⟩, ?_⟩
  · simp [Stores.cache, h.base, h.next]
  · intro j; simp [Stores.cache, h.heap, h.next]
  · simp [Stores.cache, h.next]
  · simp [Stores.cache, lift, h.next]

theorem sim_flush {s t : Stores K V} (h : Sim s t) (l : Nat) (c : List Nat) :
    Sim (s.flush (l :: c)) (t.flush (lift (l :: c))) := by
  cases c with
  | nil =>
    refine ⟨?_, ?_, h.next⟩
    · simp [Stores.flush, lift, h.base, h.heap, overlay_over]
    · intro j; simp [Stores.flush, lift, h.heap]
  | cons p c =>
    refine ⟨?_, ?_, h.next⟩
    · simp [Stores.flush, lift, h.base]
    · intro j; simp [Stores.flush, lift, h.heap]

theorem run_sim (p : Prog K V A) : ∀ (cs : List (List Nat)) (s t : Stores K V), cs ≠ [] → Sim s t →
    (∀ h c, cs[h]? = some c → h ≠ 0 → c ≠ []) →
    (p.run cs s).2 = (p.run (cs.map lift) t).2 ∧ Sim (p.run cs s).1 (p.run (cs.map lift) t).1 := by
  induction p with
  | ret a => intro cs s t _ h _; exact ⟨rfl, h⟩
  | panic => intro cs s t _ h _; exact ⟨rfl, h⟩
  | read h k ih =>
    intro cs s t h0 hs hc
    simp only [Prog.run, List.getElem?_map]
    cases hh : cs[h]? with
    | none => exact ⟨rfl, hs⟩
    | some c =>
      simp only [Option.map_some, ← sim_read hs]
      exact ih _ cs s t h0 hs hc
  | write h d k ih =>
    intro cs s t h0 hs hc
    simp only [Prog.run, List.getElem?_map]
    cases hh : cs[h]? with
    | none => exact ⟨rfl, hs⟩
    | some c => exact ih cs _ _ h0 (sim_write hs c d) hc
  | cache h k ih =>
    intro cs s t h0 hs hc
    simp only [Prog.run, List.getElem?_map]
    cases hh : cs[h]? with
    | none => exact ⟨rfl, hs⟩
    | some c =>
      simp only [Option.map_some, (sim_cache hs c).2]
      have := ih (cs ++ [(s.cache c).2]) _ _ (by simp) (sim_cache hs c).1 (by
        intro h' c' hc' hne
        by_cases hlt : h' < cs.length
        · rw [List.getElem?_append_left hlt] at hc'; exact hc h' c' hc' hne
        · rw [List.getElem?_append_right (by omega)] at hc'
          have : h' - cs.length = 0 := by
            rcases Nat.eq_zero_or_pos (h' - cs.length) with h | h
            · exact h
            · rw [List.getElem?_eq_none (by simp; omega)] at hc'; simp at hc'
          rw [this] at hc'
          simp only [List.getElem?_cons_zero, Option.some.injEq, Stores.cache] at hc'
          rw [← hc']; simp)
      simpa [List.map_append] using this
  | flush h k ih =>
    intro cs s t h0 hs hc
    simp only [Prog.run, List.getElem?_map]
    cases hh : cs[h]? with
    | none => exact ⟨rfl, hs⟩
    | some c =>
      by_cases hz : h = 0
      · simp only [hz, if_true, Option.map_some]; exact ⟨trivial, hs⟩
      · simp only [hz, if_false, Option.map_some]
        cases c with
        | nil => exact absurd rfl (hc h [] hh hz)
        | cons l c => exact ih cs _ _ h0 (sim_flush hs l c) hc

/-- C46: the answer of the query is the answer the same execution gives when it runs on the stores themselves (so the
throw-away cache does not show in the result). -/
theorem C46_same_answer (e : Env P) (exec : Ask → Prog K V Outcome) (r : CallReq) (s : Stores K V) (ask : Ask)
    (hr : parseCall e r = some ask) (hn : s.next = 0) :
    (callQuery e exec r [] s).2 = ((exec ask).run [[]] s).2.map fun o => match o with
      | .ok ret => { response := encode0x ret, error := none }
      | .error m => { response := [], error := some m } := by
  have h := (run_sim (exec ask) [[]] { s with heap := fun j => s.heap (j + 1) } (s.cache []).1 (by simp)
    ⟨by simp [Stores.cache, hn, overlay_empty], fun j => by simp [Stores.cache, hn], by simp [Stores.cache]⟩
    (by
      intro h c hc hne
      cases h with
      | zero => exact absurd rfl hne
      | succ h => simp at hc)).1
  -- contents of layers not yet created do not matter: they are emptied when created
  have hind : ∀ (p : Prog K V Outcome) (cs : List (List Nat)) (a b : Stores K V), a.base = b.base → a.next = b.next →
      (∀ j, j < a.next → a.heap j = b.heap j) → (∀ c ∈ cs, ∀ l ∈ c, l < a.next) →
      (p.run cs a).2 = (p.run cs b).2 := by
    intro p
    induction p with
    | ret a => intros; rfl
    | panic => intros; rfl
    | read h k ih =>
      intro cs a b h1 h2 h3 h4
      simp only [Prog.run]
      cases hh : cs[h]? with
      | none => rfl
      | some c =>
        have : a.read c = b.read c := by
          unfold Stores.read; rw [h1]
          exact readAt_congr _ _ _ c (fun l hl => h3 l (h4 c (List.mem_of_getElem? hh) l hl))
        simp only [this]; exact ih _ cs a b h1 h2 h3 h4
    | write h d k ih =>
      intro cs a b h1 h2 h3 h4
      simp only [Prog.run]
      cases hh : cs[h]? with
      | none => rfl
      | some c =>
        have hcl := h4 c (List.mem_of_getElem? hh)
        cases c with
        | nil => exact ih cs _ _ (by simp [Stores.write, h1]) h2 h3 h4
        | cons l c =>
          refine ih cs _ _ (by simp [Stores.write, h1]) h2 ?_ h4
          intro j hj
          simp only [Stores.write] at hj ⊢
          by_cases hjl : j = l
          · simp [hjl, h3 l (hcl l (by simp))]
          · simp [hjl, h3 j hj]
    | cache h k ih =>
      intro cs a b h1 h2 h3 h4
      simp only [Prog.run]
      cases hh : cs[h]? with
      | none => rfl
      | some c =>
        have hcl := h4 c (List.mem_of_getElem? hh)
        have e2 : (a.cache c).2 = (b.cache c).2 := by simp [Stores.cache, h2]
        simp only [e2]
        refine ih _ _ _ (by simp [Stores.cache, h1]) (by simp [Stores.cache, h2]) ?_ ?_
        · intro j hj
          simp only [Stores.cache] at hj ⊢
          by_cases hjn : j = a.next
          · simp [hjn, h2]
          · rw [if_neg hjn, if_neg (by rw [← h2]; exact hjn)]
            exact h3 j (by omega)
        · intro c' hc' l hl
          rw [List.mem_append] at hc'
          rcases hc' with hc' | hc'
          · have := h4 c' hc' l hl; simp only [Stores.cache]; omega
          · simp only [List.mem_singleton] at hc'
            subst hc'
            simp only [Stores.cache, List.mem_cons] at hl ⊢
            rcases hl with hl | hl
            · omega
            · have := hcl l hl; omega
    | flush h k ih =>
      intro cs a b h1 h2 h3 h4
      simp only [Prog.run]
      cases hh : cs[h]? with
      | none => rfl
      | some c =>
        have hcl := h4 c (List.mem_of_getElem? hh)
        by_cases hz : h = 0
        · simp [hz]
        · simp only [hz, if_false]
          match c, hcl with
          | [], _ => exact ih cs _ _ h1 h2 h3 h4
          | [l], hcl =>
            refine ih cs _ _ (by simp [Stores.flush, h1, h3 l (hcl l (by simp))]) h2 ?_ h4
            intro j hj
            simp only [Stores.flush] at hj ⊢
            by_cases hjl : j = l
            · simp [hjl]
            · simp [hjl, h3 j hj]
          | l :: p :: c, hcl =>
            refine ih cs _ _ (by simp [Stores.flush, h1]) h2 ?_ h4
            intro j hj
            simp only [Stores.flush] at hj ⊢
            rw [h3 l (hcl l (by simp)), h3 p (hcl p (by simp)), h3 j hj]
  have h2 := hind (exec ask) [[]] s { s with heap := fun j => s.heap (j + 1) } rfl rfl (by
    intro j hj; omega) (by simp)
  unfold callQuery
  simp only [hr]
  have hl : [(s.cache []).2] = [[]].map lift := by simp [lift, Stores.cache, hn]
  rw [h2, h, hl]
  rfl

example : noStores.next = 0 ∧ parseCall (toyEnv 18) ⟨[], [], "0x00".toList, none⟩ =
    some ⟨Addr.zero, none, [0], 0⟩ := by decide +kernel

/-! ### C46: static calls -/

/-- Everything that outlives the execution with index `e`, and everything belonging to other executions. -/
structure Kept (e : Nat) (w w' : World.World) : Prop where
  acct : w'.acct = w.acct
  nextNum : w'.nextNum = w.nextNum
  vm : w'.vm = w.vm
  bal : w'.bal = w.bal
  tstate : w'.tstate = w.tstate
  created : w'.created = w.created
  destructed : w'.destructed = w.destructed
  logs : w'.logs = w.logs
  logSize : ∀ i, i ≠ e → w'.logSize i = w.logSize i
  access : ∀ i, i ≠ e → w'.access i = w.access i
  refund : ∀ i, i ≠ e → w'.refund i = w.refund i

theorem Kept.refl (e : Nat) (w : World.World) : Kept e w w := by constructor <;> intros <;> rfl

theorem Kept.trans {e : Nat} {a b c : World.World} (h : Kept e a b) (g : Kept e b c) : Kept e a c :=
  ⟨g.acct.trans h.acct, g.nextNum.trans h.nextNum, g.vm.trans h.vm, g.bal.trans h.bal, g.tstate.trans h.tstate,
   g.created.trans h.created, g.destructed.trans h.destructed, g.logs.trans h.logs,
   fun i hi => (g.logSize i hi).trans (h.logSize i hi), fun i hi => (g.access i hi).trans (h.access i hi),
   fun i hi => (g.refund i hi).trans (h.refund i hi)⟩

theorem kept_access (e : Nat) (w : World.World) (k : Bytes) (b : Bool) :
    Kept e w { w with access := World.upd2 w.access e k b } := by
  constructor <;> intros <;> try rfl
  rename_i i hi
  funext x
  simp [World.upd2, hi]

theorem kept_addAddress (e : Nat) (w : World.World) (a : Addr) : Kept e w (w.addAddress e a) := kept_access e w _ _

theorem kept_addSlot (e : Nat) (w : World.World) (a : Addr) (s : Hash) : Kept e w (w.addSlot e a s) := by
  unfold World.World.addSlot
  by_cases h : w.addressInAccessList e a
  · simp only [h, if_true]; exact kept_access e w _ _
  · simp only [h]; exact (kept_addAddress e w a).trans (kept_access e _ _ _)

theorem kept_foldl {α : Type} (e : Nat) (f : World.World → α → World.World) (hf : ∀ w x, Kept e w (f w x)) :
    ∀ (l : List α) (w : World.World), Kept e w (l.foldl f w)
  | [], w => Kept.refl e w
  | x :: l, w => (hf w x).trans (kept_foldl e f hf l (f w x))

theorem kept_prepare (e : Nat) (w : World.World) (b s : Bool) (snd cb : Addr) (dst : Option Addr)
    (pre : List Addr) (al : List World.AccessTuple) : Kept e w (w.prepare e b s snd cb dst pre al) := by
  unfold World.World.prepare
  cases b with
  | false => exact Kept.refl e w
  | true =>
    simp only [if_true]
    refine Kept.trans (kept_addAddress e w snd) ?_
    refine Kept.trans (b := match dst with | some d => (w.addAddress e snd).addAddress e d | none => w.addAddress e snd)
      ?_ ?_
    · cases dst with
      | none => exact Kept.refl _ _
      | some d => exact kept_addAddress _ _ _
    refine Kept.trans (kept_foldl e _ (fun w a => kept_addAddress e w a) pre _) ?_
    refine Kept.trans (kept_foldl e (fun w t => w.addTuple e t) (fun w t => ?_) al _) ?_
    · exact (kept_addAddress e w t.addr).trans (kept_foldl e _ (fun w k => kept_addSlot e w t.addr k) t.keys _)
    · cases s with
      | false => exact Kept.refl _ _
      | true => exact kept_addAddress _ _ _

theorem kept_step (keccak : Bytes → Hash) (e : Nat) (o : World.StateOp) (ho : staticOp o = true) (w w' : World.World)
    (h : w.step keccak e o = some w') : Kept e w w' := by
  cases o <;> simp [staticOp] at ho
  case addBalance a n =>
    subst ho
    simp [World.World.step, World.World.addBalance] at h
    subst h; exact Kept.refl e w
  case addRefund g =>
    simp only [World.World.step, World.World.addRefund] at h
    cases hr : w.refund e with
    | none => simp [hr] at h
    | some r =>
      simp only [hr, Option.some.injEq] at h
      subst h
      constructor <;> intros <;> try rfl
      rename_i i hi
      simp [World.upd, hi]
  case subRefund g =>
    simp only [World.World.step, World.World.subRefund] at h
    cases hr : w.refund e with
    | none => simp [hr] at h
    | some r =>
      simp only [hr] at h
      by_cases hg : g > r
      · simp [hg] at h
      · simp only [hg, if_false, Option.some.injEq] at h
        subst h
        constructor <;> intros <;> try rfl
        rename_i i hi
        simp [World.upd, hi]
  case addAddress a =>
    simp only [World.World.step, Option.some.injEq] at h
    subst h; exact kept_addAddress e w a
  case addSlot a s =>
    simp only [World.World.step, Option.some.injEq] at h
    subst h; exact kept_addSlot e w a s

/-- Every world in the base or in a layer satisfies `Q`. -/
def Everywhere (Q : World.World → Prop) (db : DB Unit World.World) : Prop :=
  (∀ w, db.base () = some w → Q w) ∧ ∀ l w, db.heap l () = some (some w) → Q w

theorem everywhere_read {Q : World.World → Prop} (db : DB Unit World.World) (h : Everywhere Q db) :
    ∀ (c : List Nat) (w), readAt db.base db.heap c () = some w → Q w
  | [], w, hw => h.1 w hw
  | l :: c, w, hw => by
    simp only [readAt, overlay] at hw
    cases hl : db.heap l () with
    | none => rw [hl] at hw; exact everywhere_read db h c w hw
    | some o => rw [hl] at hw; simp only at hw; subst hw; exact h.2 l w hl

theorem everywhere_put {Q : World.World → Prop} (db : DB Unit World.World) (h : Everywhere Q db)
    (d : Delta Unit World.World) (hd : ∀ w, d () = some (some w) → Q w) : Everywhere Q (db.put d) := by
  cases hc : db.ctx with
  | nil =>
    simp only [DB.put, hc]
    refine ⟨fun w hw => ?_, h.2⟩
    simp only [overlay] at hw
    cases hk : d () with
    | none => rw [hk] at hw; exact h.1 w hw
    | some o => rw [hk] at hw; simp only at hw; subst hw; exact hd w hk
  | cons l c =>
    simp only [DB.put, hc]
    refine ⟨h.1, fun j w hw => ?_⟩
    by_cases hj : j = l
    · simp only [hj, if_true, Delta.over] at hw
      cases hk : d () with
      | none => rw [hk] at hw; exact h.2 l w hw
      | some o => rw [hk] at hw; simp only [Option.some.injEq] at hw; subst hw; exact hd w hk
    · simp only [hj, if_false] at hw; exact h.2 j w hw

theorem everywhere_snapshot {Q : World.World → Prop} (db : DB Unit World.World) (h : Everywhere Q db) :
    Everywhere Q db.snapshot.1 := by
  refine ⟨h.1, fun j w hw => ?_⟩
  simp only [DB.snapshot] at hw
  by_cases hj : j = db.next
  · simp [hj, Delta.empty] at hw
  · simp only [hj, if_false] at hw; exact h.2 j w hw

theorem everywhere_revert {Q : World.World → Prop} (db db' : DB Unit World.World) (i : Int) (h : Everywhere Q db)
    (hr : db.revertToSnapshot i = some db') : Everywhere Q db' := by
  unfold DB.revertToSnapshot at hr
  by_cases h1 : i = -1
  · simp only [h1, if_true, Option.some.injEq] at hr; subst hr; exact h
  · rw [if_neg h1] at hr
    by_cases h2 : i < 0
    · simp [h2] at hr
    · rw [if_neg h2] at hr
      cases hs : db.snaps[i.toNat]? with
      | none => simp [hs] at hr
      | some c => simp only [hs, Option.some.injEq] at hr; subst hr; exact h

mutual
theorem everywhere_drive {Q : World.World → Prop} (keccak : Bytes → Hash) (e : Nat)
    (hQ : ∀ o w w', staticOp o = true → Q w → w.step keccak e o = some w' → Q w') :
    ∀ (f : World.Frame') (db db' : DB Unit World.World), readOnlyF f = true → Everywhere Q db →
      Act.drive DB.revertToSnapshot (f.toAct keccak e) db = some db' → Everywhere Q db'
  | .op o, db, db', hf, h, hd => by
    simp only [World.Frame'.toAct, Act.drive, Option.some.injEq] at hd
    subst hd
    refine everywhere_put db h _ (fun w hw => ?_)
    simp only [World.opExec, Option.some.injEq] at hw
    cases hv : db.view () with
    | none => simp [hv] at hw
    | some w0 =>
      simp only [hv, Option.bind_some] at hw
      exact hQ o w0 w hf (everywhere_read db h db.ctx w0 hv) hw
  | .call body ok, db, db', hf, h, hd => by
    simp only [World.Frame'.toAct, Act.drive] at hd
    cases hb : Act.driveAll DB.revertToSnapshot (World.Frame'.toActs keccak e body) db.snapshot.1 with
    | none => simp [hb] at hd
    | some db1 =>
      simp only [hb] at hd
      have h1 := everywhere_driveAll keccak e hQ body _ db1 hf (everywhere_snapshot db h) hb
      cases ok with
      | true => simp only [if_true, Option.some.injEq] at hd; subst hd; exact h1
      | false => simp only [Bool.false_eq_true, if_false] at hd; exact everywhere_revert db1 db' _ h1 hd
theorem everywhere_driveAll {Q : World.World → Prop} (keccak : Bytes → Hash) (e : Nat)
    (hQ : ∀ o w w', staticOp o = true → Q w → w.step keccak e o = some w' → Q w') :
    ∀ (fs : List World.Frame') (db db' : DB Unit World.World), readOnlyFs fs = true → Everywhere Q db →
      Act.driveAll DB.revertToSnapshot (World.Frame'.toActs keccak e fs) db = some db' → Everywhere Q db'
  | [], db, db', _, h, hd => by
    simp only [World.Frame'.toActs, Act.driveAll, Option.some.injEq] at hd; subst hd; exact h
  | f :: fs, db, db', hf, h, hd => by
    simp only [readOnlyFs, Bool.and_eq_true] at hf
    simp only [World.Frame'.toActs, Act.driveAll] at hd
    cases hb : Act.drive DB.revertToSnapshot (f.toAct keccak e) db with
    | none => simp [hb] at hd
    | some db1 =>
      simp only [hb] at hd
      exact everywhere_driveAll keccak e hQ fs db1 db' hf.2 (everywhere_drive keccak e hQ f db db1 hf.1 h hb) hd
end

/-- C46: a static call — which runs directly on the context of whoever makes it, also in the middle of a
transaction — changes no account, account number, contract storage or code, balance, transient storage,
self-destruct mark or log, nor any bookkeeping of another execution, whatever it calls and however its inner calls
end. -/
theorem C46_static (keccak : Bytes → Hash) (e : Nat) (w w' : World.World) (caller target : Addr) (pre : List Addr)
    (al : List World.AccessTuple) (body : List World.Frame') (ok : Bool) (hb : readOnlyFs body = true)
    (h : staticCallWorld keccak e w caller target pre al body ok = some w') : Kept e w w' := by
  unfold staticCallWorld at h
  simp only at h
  generalize hw0 : (w.newStateDB e).prepare e true true caller Addr.zero (some target) pre al = w0 at h
  have hk0 : Kept e w w0 := by
    rw [← hw0]
    refine Kept.trans (b := w.newStateDB e) ?_ (kept_prepare e _ _ _ _ _ _ _ _)
    constructor <;> intros <;> try rfl
    all_goals (rename_i i hi; simp [World.World.newStateDB, World.upd, hi])
  cases hd : Act.drive DB.revertToSnapshot (.call (World.Frame'.toActs keccak e body) ok)
      (DB.new fun _ => some w0) with
  | none => simp [hd] at h
  | some db =>
    simp only [hd] at h
    have := everywhere_drive (Q := Kept e w) keccak e
      (fun o a b ho ha hs => ha.trans (kept_step keccak e o ho a b hs)) (.call body ok) _ db
      (by simpa [readOnlyF] using hb)
      ⟨fun x hx => by simp only [DB.new, Option.some.injEq] at hx; subst hx; exact hk0,
       fun l x hx => by simp [DB.new, Delta.empty] at hx⟩ hd
    exact this.1 w' h

def emptyWorld : World.World :=
  { acct := fun _ => none, nextNum := 7, vm := fun _ => none, tstate := fun _ _ => none, created := fun _ _ => false
    destructed := fun _ _ => false, logs := fun _ _ => none, logSize := fun _ => none, access := fun _ _ => false
    refund := fun _ => none, bal := fun _ => 3 }

/-- A static call with an inner call that reverts and one that returns, which does touch the access list. -/
example : readOnlyFs [.op (.addSlot (Addr.ofNat 1) Hash.zero), .call [.op (.addAddress (Addr.ofNat 2))] false,
      .call [.op (.addBalance (Addr.ofNat 2) 0), .op (.addRefund 3)] true] = true ∧
    (staticCallWorld (fun _ => Hash.zero) 4 emptyWorld (Addr.ofNat 1) (Addr.ofNat 2) [] []
      [.op (.addSlot (Addr.ofNat 1) Hash.zero), .call [.op (.addAddress (Addr.ofNat 2))] false,
      .call [.op (.addBalance (Addr.ofNat 2) 0), .op (.addRefund 3)] true] true).isSome = true := by
  decide +kernel

/-! ### C68: eth_call -/

/-- The message a transaction with these arguments would execute: caller, callee, data and amount of the arguments. -/
def intended (a : TxArgs) : Ask :=
  { caller := a.from_.getD Addr.zero, to := a.to, input := (a.input.or a.data).getD [], value := a.value.getD 0 }

/-- The address codec reads back what it writes and writes no empty text. -/
structure CodecOk (e : Env P) : Prop where
  back : ∀ a : Addr, e.unbech (e.bech a.bytes) = some a.bytes
  ne : ∀ a : Addr, e.bech a.bytes ≠ []

theorem getData_eq (a : TxArgs) : a.getData = (a.input.or a.data).getD [] := by
  unfold TxArgs.getData
  cases a.input <;> cases a.data <;> rfl

/-- What `eth_call` really executes: the amount is always zero and the zero address means creation. -/
theorem ethCall_asks (e : Env P) (he : CodecOk e) (a : TxArgs) :
    parseCall e (ethCallReq e a) = some { caller := a.from_.getD Addr.zero
                                          to := if a.to = some Addr.zero then none else a.to
                                          input := (a.input.or a.data).getD []
                                          value := 0 } := by
  unfold parseCall ethCallReq
  simp only [he.ne, if_false, he.back, Option.map_some, bytesToAddress_bytes, decode0x_encode0x, u256FromBig, getData_eq]
  cases ht : a.to with
  | none => simp
  | some t =>
    have hne : addrHex e.mask t ≠ [] := by
      intro h
      have := isHexAddress_addrHex e.mask t
      rw [h] at this
      exact absurd this (by decide)
    simp only [hne, if_false, contractAddressFromString, isHexAddress_addrHex, if_true, hexToAddress_addrHex,
      Option.some.injEq]

/-- C68 (part): when no amount is sent and the callee is not the zero address, `eth_call` returns exactly what
executing the message on the stores of that block returns: the return data on success, an error otherwise. -/
theorem C68_call_partial (e : Env P) (he : CodecOk e) (exec : Ask → Prog K V Outcome) (a : TxArgs)
    (s : Stores K V) (hn : s.next = 0) (hv : a.value.getD 0 = 0) (ht : a.to ≠ some Addr.zero)
    (hm : ∀ m, ((exec (intended a)).run [[]] s).2 = some (.error m) → m ≠ []) :
    (ethCall e exec a [] s).2 = match ((exec (intended a)).run [[]] s).2 with
      | some (.ok ret) => some ret
      | _ => none := by
  have h := C46_same_answer e exec (ethCallReq e a) s _ (ethCall_asks e he a) hn
  have hi : intended a = { caller := a.from_.getD Addr.zero
                           to := if a.to = some Addr.zero then none else a.to
                           input := (a.input.or a.data).getD []
                           value := 0 } := by simp [intended, hv, ht]
  unfold ethCall
  simp only
  rw [h, ← hi]
  rcases hx : ((exec (intended a)).run [[]] s).2 with _ | o
  · rfl
  · cases o with
    | ok ret => simp [decode0x_encode0x]
    | error m => simp [hm m hx]

theorem toyCodec (d : Nat) : CodecOk (toyEnv d) :=
  ⟨fun a => by simp [toyEnv, hexDec_hexEnc], fun a => by simp [toyEnv]⟩

example : (ethCall (toyEnv 18) (fun a => .ret (.ok (a.input ++ [UInt8.ofNat a.value]))) ⟨some (Addr.ofNat 1),
    some (Addr.ofNat 2), none, some [8], none⟩ [] noStores).2 = some [8, 0] := by decide +kernel

/-- C68 fails: the amount is ignored. A contract that requires payment answers an error to `eth_call`, although the
same message with its amount succeeds. -/
theorem C68_value_violated : ∃ (exec : Ask → Prog Nat Nat Outcome) (a : TxArgs),
    a.value = some 5 ∧
    ((exec (intended a)).run [[]] noStores).2 = some (.ok [1]) ∧
    (ethCall (toyEnv 18) exec a [] noStores).2 = none := by
  refine ⟨fun a => if a.value = 0 then .ret (.error ['p', 'a', 'y']) else .ret (.ok [1]),
    ⟨some (Addr.ofNat 1), some (Addr.ofNat 2), some 5, none, none⟩, rfl, by rfl, by decide +kernel⟩

/-- C68 fails: a call to the zero address is executed as a contract creation with the data as init code. -/
theorem C68_zero_address_violated (e : Env P) (he : CodecOk e) (a : TxArgs) (ht : a.to = some Addr.zero) :
    (parseCall e (ethCallReq e a)).map (·.to) = some none ∧ (intended a).to = some Addr.zero := by
  rw [ethCall_asks e he a]; simp [ht, intended]

/-- The gRPC query takes amounts modulo 2^256: a negative amount asks for an enormous payment instead of being
refused. -/
theorem C68_negative_violated :
    (parseCall (toyEnv 18) ⟨[], "0x0000000000000000000000000000000000000001".toList, "0x".toList,
      some (-1)⟩).map (·.value) = some (2 ^ 256 - 1) := by decide +kernel

/-- C68 (the gRPC query). A request from an account (no sender: the zero address), for a contract other than the zero address
(none: creation), with hexadecimal data and an amount (none: zero) below 2^256 asks for exactly that message; larger amounts
are refused. -/
theorem C68_grpc (e : Env P) (he : CodecOk e) (sender to : Option Addr) (data : Bytes) (value : Option Nat)
    (ht : to ≠ some Addr.zero) :
    parseCall e { sender := (sender.map fun a => e.bech a.bytes).getD [], contract := (to.map (addrHex e.mask)).getD []
                  input := encode0x data, value := value.map Int.ofNat } =
      if value.getD 0 < 115792089237316195423570985008687907853269984665640564039457584007913129639936 then
        some { caller := sender.getD Addr.zero, to := to, input := data, value := value.getD 0 }
      else none := by
  have hne : ∀ t, addrHex e.mask t ≠ [] := by
    intro t h
    have := isHexAddress_addrHex e.mask t
    rw [h] at this
    exact absurd this (by decide)
  have hu : u256FromBig (value.map Int.ofNat) =
      if value.getD 0 < 115792089237316195423570985008687907853269984665640564039457584007913129639936 then some (value.getD 0)
      else none := by
    cases value with
    | none => rfl
    | some n =>
      show (if (Int.ofNat n).natAbs < 115792089237316195423570985008687907853269984665640564039457584007913129639936 then
        some ((n : Int) % 115792089237316195423570985008687907853269984665640564039457584007913129639936).toNat else none) = _
      show (if n < 115792089237316195423570985008687907853269984665640564039457584007913129639936 then _ else _) = _
      by_cases h : n < 115792089237316195423570985008687907853269984665640564039457584007913129639936
      · rw [if_pos h, Option.getD_some, if_pos h, Int.emod_eq_of_lt (by omega) (by omega), Int.toNat_natCast]
      · rw [if_neg h, Option.getD_some, if_neg h]
  unfold parseCall
  simp only [hu, decode0x_encode0x]
  cases sender <;> cases to <;> by_cases hv : value.getD 0 < 115792089237316195423570985008687907853269984665640564039457584007913129639936 <;>
    simp [hv, he.ne, he.back, hne, bytesToAddress_bytes, contractAddressFromString, isHexAddress_addrHex, hexToAddress_addrHex] <;>
    simpa using ht

example : parseCall (toyEnv 18) { sender := [], contract := [], input := "0x60".toList, value := some (2 ^ 256) } = none ∧
    parseCall (toyEnv 18) { sender := [], contract := [], input := "0x60".toList, value := some (2 ^ 256 - 1) } =
      some { caller := Addr.zero, to := none, input := [0x60], value := 2 ^ 256 - 1 } := by decide +kernel

/-! ### C69: oracle queries of contracts -/

/-- What the text of a request says, by itself. -/
def means (known : List Nat → Bool) (txt : List (List Nat × List Nat)) : Option Fields :=
  if txt.all (fun p => known p.1) then some (fun f => ((txt.filter fun p => p.1 == f).getLast?).map (·.2)) else none

theorem unmarshal_fields (known : List Nat → Bool) (txt : List (List Nat × List Nat)) (m : Fields) (f : List Nat)
    (hk : known f = true) :
    (unmarshalInto known m txt).1 f = (((txt.filter fun p => p.1 == f).getLast?).map (·.2)).or (m f) := by
  unfold unmarshalInto
  simp only
  induction txt generalizing m with
  | nil => simp
  | cons p txt ih =>
    rw [List.foldl_cons, ih]
    by_cases hp : p.1 = f
    · have : known p.1 = true := hp ▸ hk
      have hq : (p.1 == f) = true := by simp [hp]
      have hfl : List.filter (fun p => p.1 == f) (p :: txt) = p :: List.filter (fun p => p.1 == f) txt := by
        simp [hq]
      rw [hfl]
      cases hg : List.filter (fun p => p.1 == f) txt with
      | nil => simp [this, hp, hk]
      | cons a b =>
        rw [List.getLast?_cons_cons]
        cases hl : (a :: b).getLast? with
        | none => simp at hl
        | some x => simp
    · have hb : (p.1 == f) = false := by simp [hp]
      have hf : ¬ f = p.1 := fun h => hp h.symm
      simp only [List.filter_cons, hb, Bool.false_eq_true, if_false]
      congr 1
      by_cases hkp : known p.1 = true <;> simp [hkp, hf]

theorem unmarshal_other (known : List Nat → Bool) (txt : List (List Nat × List Nat)) (m : Fields) (f : List Nat)
    (hk : known f = false) : (unmarshalInto known m txt).1 f = m f := by
  unfold unmarshalInto
  simp only
  induction txt generalizing m with
  | nil => rfl
  | cons p txt ih =>
    rw [List.foldl_cons, ih]
    by_cases hkp : known p.1 = true
    · have hf : ¬ f = p.1 := fun h => by rw [h, hkp] at hk; simp at hk
      simp [hkp, hf]
    · simp [hkp]

/-- C69 (what really happens): the request sent to the oracle is what the text says, filled up with whatever an earlier
failed request left in the shared message. -/
theorem C69_request (known : List Nat → Bool) (shared : Fields) (txt : List (List Nat × List Nat))
    (hs : ∀ f, known f = false → shared f = none) :
    (convertReq known shared txt).2 = (means known txt).map fun m => fun f => (m f).or (shared f) := by
  unfold convertReq means
  simp only
  by_cases hok : txt.all (fun p => known p.1) = true
  · have h1 : (unmarshalInto known shared txt).2 = true := hok
    simp only [h1, if_true, hok, Option.map_some, Option.some.injEq]
    funext f
    by_cases hk : known f = true
    · exact unmarshal_fields known txt shared f hk
    · have hk' : known f = false := by simpa using hk
      rw [unmarshal_other known txt shared f hk', hs f hk']
      have : txt.filter (fun p => p.1 == f) = [] := by
        rw [List.filter_eq_nil_iff]
        intro p hp hpf
        have := List.all_eq_true.mp hok p hp
        simp only [beq_iff_eq] at hpf
        rw [hpf] at this
        exact hk this
      simp [this]
  · have h1 : (unmarshalInto known shared txt).2 = false := by simpa [unmarshalInto] using hok
    simp [h1, hok]

/-- C69 (part): as long as every earlier request could be read and requests come one at a time, a request asks the
oracle exactly what its text says. -/
theorem C69_partial (known : List Nat → Bool) (before : List (List (List Nat × List Nat)))
    (hb : ∀ t ∈ before, (means known t).isSome) (txt : List (List Nat × List Nat)) :
    (convertReq known (convertAll known noFields before) txt).2 = means known txt := by
  have h : convertAll known noFields before = noFields := by
    induction before with
    | nil => rfl
    | cons t ts ih =>
      have ht := hb t (by simp)
      have : (convertReq known noFields t).1 = noFields := by
        unfold convertReq
        have : (unmarshalInto known noFields t).2 = true := by
          unfold means at ht
          by_cases hok : t.all (fun p => known p.1) = true
          · exact hok
          · simp [hok] at ht
        simp [this]
      simp only [convertAll, this]
      exact ih (fun t ht => hb t (by simp [ht]))
  rw [h, C69_request known noFields txt (fun _ _ => rfl)]
  cases means known txt <;> simp [noFields]

/-- C69 (part): two conversions one after the other, in the steps of the concurrent model: each asks exactly what its text says. -/
theorem C69_sequential_partial (known : List Nat → Bool) (t1 t2 : List (List Nat × List Nat)) (h1 : (means known t1).isSome) (h2 : (means known t2).isSome) :
    let r := runTwo known [false, false, false, true, true, true] (noFields, ⟨t1, 0, none⟩, ⟨t2, 0, none⟩)
    r.2.1.out = means known t1 ∧ r.2.2.out = means known t2 ∧ r.1 = noFields := by
  have ok : ∀ t : List (List Nat × List Nat), (means known t).isSome → (unmarshalInto known noFields t).2 = true := by
    intro t ht
    unfold means at ht
    by_cases hok : t.all (fun p => known p.1) = true
    · exact hok
    · simp [hok] at ht
  have out : ∀ t : List (List Nat × List Nat), (means known t).isSome → some (unmarshalInto known noFields t).1 = means known t := by
    intro t ht
    have := C69_partial known [] (by simp) t
    simpa [convertAll, convertReq, ok t ht] using this
  simp [runTwo, Conv.step, ok t1 h1, ok t2 h2, out t1 h1, out t2 h2]

/-- Requests name a currency pair in field `[1]`; nothing else is known. -/
def onlyPair : List Nat → Bool := fun f => f == [1]

example : (means onlyPair [([1], [66])]).isSome = true := by decide

/-- C69 fails: a request that cannot be read (an unknown field) leaves its known fields behind, and the next request
that does not set them asks for them. Since `eth_call`s use the same object, a node that served such a call executes
a block differently from one that did not. -/
theorem C69_residue_violated : ∃ bad good : List (List Nat × List Nat),
    ((convertReq onlyPair noFields good).2.map fun m => m [1]) = some none ∧
    ((convertReq onlyPair (convertAll onlyPair noFields [bad]) good).2.map fun m => m [1]) = some (some [66]) :=
  ⟨[([1], [66]), ([2], [0])], [], by decide, by decide⟩

/-- C69 fails: two requests at the same time (a block executing while an `eth_call` is served) can get each other's
question: with this schedule the first asks what the second's text says. -/
theorem C69_race_violated : ∃ (sched : List Bool) (t1 t2 : List (List Nat × List Nat)),
    let r := runTwo onlyPair sched (noFields, ⟨t1, 0, none⟩, ⟨t2, 0, none⟩)
    r.2.1.pc = 3 ∧ r.2.2.pc = 3 ∧
    (means onlyPair t1).map (· [1]) = some (some [65]) ∧ r.2.1.out.map (· [1]) = some (some [66]) :=
  ⟨[false, true, false, false, true, true], [([1], [65])], [([1], [66])], by decide⟩

end Verif.Props.Query
