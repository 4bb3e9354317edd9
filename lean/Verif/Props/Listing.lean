import Verif.Model.Listing
import Verif.Props.Nested
import Verif.Props.Registry
/-
C88: somebody else's token cannot spoil a balance listing.
-/
namespace Verif.Listing
open Verif Verif.Exec

/-- What go-ethereum guarantees of any code: it does not return more gas than it was given. -/
def Bounded (code : Code) : Prop := ∀ g, (code g).1 ≤ g

/-- An ordinary token: with `need` gas it answers `n`, with less it runs out of gas (and uses all of it). -/
def Ordinary (code : Code) (n : Nat) : Prop :=
  ∃ need, ∀ g, (need ≤ g → code g = (g - need, some n)) ∧ (g < need → code g = (0, none))

theorem consume_full (m m' : Meter) (hf : Nested.Fine m) (h : m.consume (calGasUsed (computeGasLimit none m) 0 0) = some m')
    (a : Nat) (ha : 0 < a) : m'.consume a = none := by
  obtain ⟨h1, h2, _⟩ := Nested.consume_spec h
  rw [Nested.limit_left m hf] at h2
  have e : calGasUsed (Nested.left m) 0 0 = Nested.left m := by
    have hl : Nested.left m < 2 ^ 64 := by unfold Nested.left; have := hf.2; omega
    generalize Nested.left m = x at hl
    have e1 : (x + 2 ^ 64 - 0) % 2 ^ 64 = x := by rw [Nat.sub_zero, Nat.add_mod_right]; exact Nat.mod_eq_of_lt hl
    unfold calGasUsed
    simp only [e1]
    split
    · exact e1
    · next h => 
      have : x / 5 = 0 := by omega
      rw [this]; exact e1
  rw [e] at h2
  have : m'.consumed = m'.limit := by unfold Nested.left at h2; have := hf.1; omega
  unfold Meter.consume
  rw [if_neg]
  intro hc
  omega

theorem entry_spec {k : Costs} {code : Code} {m m' : Meter} {x : Nat} (hb : Bounded code) (hf : Nested.Fine m)
    (h : entry k code m = some (m', x)) : Nested.Fine m' ∧ ∀ n, Ordinary code n → x = n := by
  unfold entry at h
  obtain ⟨m1, e1, h⟩ := Option.bind_eq_some_iff.1 h
  obtain ⟨r, e2, h⟩ := Option.bind_eq_some_iff.1 h
  obtain ⟨m3, e3, h⟩ := Option.map_eq_some_iff.1 h
  cases h
  obtain ⟨m2, e4, h⟩ := Option.map_eq_some_iff.1 e2
  subst h
  obtain ⟨a1, a2, a3⟩ := Nested.consume_spec e1
  obtain ⟨b1, b2, b3⟩ := Nested.consume_spec e4
  obtain ⟨c1, c2, c3⟩ := Nested.consume_spec e3
  have f1 : Nested.Fine m1 := ⟨by omega, by rw [a1]; exact hf.2⟩
  refine ⟨⟨by simp only at c1 c2 c3; omega, by simp only at c1; rw [c1, b1, a1]; exact hf.2⟩, ?_⟩
  rintro n ⟨need, hn⟩
  simp only
  by_cases hg : need ≤ computeGasLimit none m1
  · rw [(hn _).1 hg]; rfl
  · exfalso
    rw [(hn _).2 (by omega)] at e4
    have := consume_full m1 m2 f1 e4 k.after k.after_pos
    simp only at e3
    rw [this] at e3
    cases e3

theorem entries_spec {k : Costs} : ∀ {toks : List (Addr × Code)} {m : Meter} {l : List (Addr × Nat)},
    (∀ t ∈ toks, Bounded t.2) → Nested.Fine m → entries k toks m = some l →
    l.map Prod.fst = toks.map Prod.fst ∧ ∀ (i : Nat) (t : Addr × Code) (n : Nat), toks[i]? = some t → Ordinary t.2 n →
      l[i]? = some (t.1, n)
  | [], m, l, _, _, h => by cases h; exact ⟨rfl, by intro i t n h; simp at h⟩
  | (a, code) :: rest, m, l, hb, hf, h => by
    unfold entries at h
    obtain ⟨⟨m', x⟩, e1, h⟩ := Option.bind_eq_some_iff.1 h
    obtain ⟨l', e2, h⟩ := Option.map_eq_some_iff.1 h
    subst h
    obtain ⟨f, hx⟩ := entry_spec (hb _ (List.mem_cons_self ..)) hf e1
    obtain ⟨h1, h2⟩ := entries_spec (fun t ht => hb t (List.mem_cons_of_mem _ ht)) f e2
    refine ⟨by simp only [List.map_cons, h1], ?_⟩
    intro i t n hi ho
    cases i with
    | zero =>
      simp only [List.getElem?_cons_zero, Option.some.injEq] at hi ⊢
      subst hi
      rw [hx n ho]
    | succ i =>
      simp only [List.getElem?_cons_succ] at hi ⊢
      exact h2 i t n hi ho

/-- **C88** (never a wrong answer). Whatever the code of the other tokens in an account's listing does, and however little
gas there is: a listing that is answered has one entry per token, in order, and the entry of every ordinary token is its
balance. -/
theorem C88_exact (k : Costs) (toks : List (Addr × Code)) (hb : ∀ t ∈ toks, Bounded t.2) (m : Meter) (hf : Nested.Fine m)
    (l : List (Addr × Nat)) (h : entries k toks m = some l) :
    l.map Prod.fst = toks.map Prod.fst ∧ ∀ (i : Nat) (t : Addr × Code) (n : Nat), toks[i]? = some t → Ordinary t.2 n →
      l[i]? = some (t.1, n) :=
  entries_spec hb hf h

/-- **C88** (the listing without zero entries). The ordinary tokens with a balance are listed, with their balance, and those
without are not. -/
theorem C88_listed (k : Costs) (toks : List (Addr × Code)) (hb : ∀ t ∈ toks, Bounded t.2)
    (hd : (toks.map Prod.fst).Nodup) (m : Meter) (hf : Nested.Fine m) (l : List (Addr × Nat)) (h : listing k toks m = some l)
    (a : Addr) (code : Code) (n : Nat) (ht : (a, code) ∈ toks) (ho : Ordinary code n) (x : Nat) :
    (a, x) ∈ l ↔ x = n ∧ n ≠ 0 := by
  obtain ⟨l', e, h⟩ := Option.map_eq_some_iff.1 h
  subst h
  obtain ⟨h1, h2⟩ := C88_exact k toks hb m hf l' e
  obtain ⟨i, hi⟩ := List.mem_iff_getElem?.1 ht
  have hl := h2 i (a, code) n hi ho
  simp only at hl
  simp only [List.mem_filter, decide_eq_true_eq]
  constructor
  · rintro ⟨hx, h0⟩
    have hnd : (l'.map Prod.fst).Nodup := by rw [h1]; exact hd
    obtain ⟨j, hj⟩ := List.mem_iff_getElem?.1 hx
    have hij : i = j := by
      have e1 : (l'.map Prod.fst)[i]? = some a := by rw [List.getElem?_map, hl]; rfl
      have e2 : (l'.map Prod.fst)[j]? = some a := by rw [List.getElem?_map, hj]; rfl
      have hi' : i < (l'.map Prod.fst).length := by
        rcases Nat.lt_or_ge i (l'.map Prod.fst).length with h | h
        · exact h
        · rw [List.getElem?_eq_none h] at e1; cases e1
      exact (List.getElem?_inj hi' hnd).1 (e1.trans e2.symm)
    subst hij
    rw [hl] at hj
    cases hj
    exact ⟨rfl, h0⟩
  · rintro ⟨rfl, h0⟩
    exact ⟨List.mem_of_getElem? hl, h0⟩

/-- A token whose `balanceOf` never ends: it uses all the gas. -/
def burner : Code := fun _ => (0, none)

theorem entry_burner (k : Costs) (m : Meter) (hf : Nested.Fine m) : entry k burner m = none := by
  have hb : ∀ g, burner g = (0, none) := fun _ => rfl
  generalize burner = code at hb
  rcases ho : entry k code m with _ | ⟨m', x⟩
  · rfl
  · exfalso
    unfold entry at ho
    obtain ⟨m1, e1, h⟩ := Option.bind_eq_some_iff.1 ho
    obtain ⟨r, e2, h⟩ := Option.bind_eq_some_iff.1 h
    obtain ⟨m3, e3, h⟩ := Option.map_eq_some_iff.1 h
    obtain ⟨m2, e4, h⟩ := Option.map_eq_some_iff.1 e2
    subst h
    obtain ⟨a1, a2, a3⟩ := Nested.consume_spec e1
    have f1 : Nested.Fine m1 := ⟨by omega, by rw [a1]; exact hf.2⟩
    rw [hb] at e4
    have := consume_full m1 m2 f1 e4 k.after k.after_pos
    simp only at e3
    rw [this] at e3
    cases e3

/-- **C88 does not hold** as to availability: one token whose `balanceOf` does not end makes every listing (of all balances,
and of the page it is on) fail, with any gas limit, wherever it is in the list. Any registered token can put itself into
the listing of any account (erc20_registry `register_erc20_store`), and with the default parameters any contract can
register itself (C29). -/
theorem C88_blocked_violated (k : Costs) (pre post : List (Addr × Code)) (hb : ∀ t ∈ pre, Bounded t.2) (a : Addr) (m : Meter)
    (hf : Nested.Fine m) : listing k (pre ++ (a, burner) :: post) m = none := by
  have : ∀ (pre : List (Addr × Code)) (m : Meter), (∀ t ∈ pre, Bounded t.2) → Nested.Fine m →
      entries k (pre ++ (a, burner) :: post) m = none := by
    intro pre
    induction pre with
    | nil =>
      intro m _ hf
      show ((entry k burner m).bind _) = none
      rw [entry_burner k m hf]; rfl
    | cons t pre ih =>
      intro m hb hf
      obtain ⟨b, code⟩ := t
      show ((entry k code m).bind _) = none
      cases h : entry k code m with
      | none => rfl
      | some r =>
        obtain ⟨m', x⟩ := r
        have f := (entry_spec (hb _ (List.mem_cons_self ..)) hf h).1
        show ((entries k (pre ++ (a, burner) :: post) m').map _) = none
        rw [ih m' (fun t ht => hb t (List.mem_cons_of_mem _ ht)) f]; rfl
  unfold listing
  rw [this pre m hb hf]; rfl

/-- How it gets there: while custom tokens are allowed and no allow list is set (the default), any contract `k` can register
itself and then enter itself into the listing of any account, which stays otherwise as it was. -/
theorem C88_enters (p : Tokens.Params) (w : Tokens.World) (k victim : Addr) (hp : p.allowCustom = true) (hl : p.allowList = []) :
    ∃ w1, Tokens.register p w k = some w1 ∧ k ∈ (Tokens.registerStore w1 victim k).stores victim ∧
      ∀ y ∈ w.stores victim, y ∈ (Tokens.registerStore w1 victim k).stores victim := by
  have h : ∃ w1, Tokens.register p w k = some w1 ∧ w1.erc20s k = true ∧ w1.stores = w.stores := by
    unfold Tokens.register
    by_cases he : w.erc20s k = true
    · exact ⟨w, by simp [hp, he], he, rfl⟩
    · exact ⟨{ w with erc20s := fun x => if x = k then true else w.erc20s x }, by
        rw [if_neg (by simp [hp]), if_neg he, if_neg (by simp [hl])], by simp, rfl⟩
  obtain ⟨w1, h1, h2, h3⟩ := h
  have hs := Props.Registry.registerStore_spec w1 victim k
  exact ⟨w1, h1, hs.2.2.2.2.2.2.1 h2, fun y hy => hs.2.2.2.2.1 victim y (by rw [h3]; exact hy)⟩

/-! ### The hypotheses are met -/

def ordinary (need n : Nat) : Code := fun g => if need ≤ g then (g - need, some n) else (0, none)

theorem ordinary_is (need n : Nat) : Ordinary (ordinary need n) n :=
  ⟨need, fun g => ⟨fun h => by simp only [ordinary, if_pos h], fun h => by simp only [ordinary, if_neg (Nat.not_le.2 h)]⟩⟩

def toyCosts : Costs := ⟨5000, 1000, by decide⟩

/-- Two ordinary tokens and one that answers nonsense, with the default query gas limit: answered, and right. -/
theorem C88_case : listing toyCosts [(Addr.ofNat 1, ordinary 3000 7), (Addr.ofNat 2, fun g => (g - 100, none)),
      (Addr.ofNat 3, ordinary 3000 0), (Addr.ofNat 4, ordinary 4000 9)] ⟨3000000, 0⟩ = some [(Addr.ofNat 1, 7), (Addr.ofNat 4, 9)] ∧
    listing toyCosts [(Addr.ofNat 1, ordinary 3000 7), (Addr.ofNat 4, ordinary 4000 9)] ⟨18999, 0⟩ = none ∧
    listing toyCosts [(Addr.ofNat 1, ordinary 3000 7), (Addr.ofNat 4, ordinary 4000 9)] ⟨19000, 0⟩ =
      some [(Addr.ofNat 1, 7), (Addr.ofNat 4, 9)] ∧
    Nested.Fine ⟨3000000, 0⟩ := by
  refine ⟨by decide +kernel, by decide +kernel, by decide +kernel, by decide, by decide⟩

end Verif.Listing
