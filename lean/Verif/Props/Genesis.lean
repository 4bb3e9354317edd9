import Verif.Model.Genesis
/-
C34: genesis export and import.
-/
namespace Verif.Props.Genesis
open Verif.Genesis

/-- A collection as a store keeps it: strictly increasing keys. -/
def Sorted {K V : Type} [KeyOrd K] (l : Coll K V) : Prop := l.Pairwise fun x y => KeyOrd.lt x.1 y.1 = true

section
variable {K V : Type} [DecidableEq K] [KeyOrd K]

theorem mem_put (k : K) (v : V) (l : Coll K V) (hs : Sorted l) (x : K × V) :
    x ∈ put k v l ↔ x = (k, v) ∨ (x.1 ≠ k ∧ x ∈ l) := by
  induction l with
  | nil => simp [put]
  | cons y r ih =>
    obtain ⟨k', v'⟩ := y
    have hs' := List.pairwise_cons.mp hs
    simp only [put]
    split
    · rename_i h
      have hne : ∀ y ∈ (k', v') :: r, y.1 ≠ k := by
        intro y hy e
        rcases List.mem_cons.mp hy with rfl | hy
        · simp only at e; subst e; rw [KeyOrd.irrefl] at h; cases h
        · have := KeyOrd.trans _ _ _ h (hs'.1 y hy)
          rw [e, KeyOrd.irrefl] at this; cases this
      constructor
      · intro hx
        rcases List.mem_cons.mp hx with h | h
        · exact Or.inl h
        · exact Or.inr ⟨hne x h, h⟩
      · rintro (h | ⟨_, h⟩)
        · rw [h]; exact List.mem_cons_self ..
        · exact List.mem_cons_of_mem _ h
    · split
      · rename_i h e
        subst e
        have hne : ∀ y ∈ r, y.1 ≠ k := by
          intro y hy e
          have := hs'.1 y hy
          simp only [e, KeyOrd.irrefl] at this; cases this
        constructor
        · intro hx
          rcases List.mem_cons.mp hx with h | h
          · exact Or.inl h
          · exact Or.inr ⟨hne x h, List.mem_cons_of_mem _ h⟩
        · rintro (h | ⟨h1, h⟩)
          · rw [h]; exact List.mem_cons_self ..
          · rcases List.mem_cons.mp h with h | h
            · rw [h] at h1; exact absurd rfl h1
            · exact List.mem_cons_of_mem _ h
      · rename_i h e
        rw [List.mem_cons, ih hs'.2, List.mem_cons]
        constructor
        · rintro (h | h | ⟨h1, h⟩)
          · rw [h]; exact Or.inr ⟨fun g => e g.symm, Or.inl rfl⟩
          · exact Or.inl h
          · exact Or.inr ⟨h1, Or.inr h⟩
        · rintro (h | ⟨h1, h | h⟩)
          · exact Or.inr (Or.inl h)
          · exact Or.inl h
          · exact Or.inr (Or.inr ⟨h1, h⟩)

theorem sorted_put (k : K) (v : V) (l : Coll K V) (hs : Sorted l) : Sorted (put k v l) := by
  induction l with
  | nil => simp [put, Sorted]
  | cons y r ih =>
    obtain ⟨k', v'⟩ := y
    have hs' := List.pairwise_cons.mp hs
    simp only [put]
    split
    · rename_i h
      refine List.pairwise_cons.mpr ⟨?_, hs⟩
      intro y hy
      rcases List.mem_cons.mp hy with rfl | hy
      · exact h
      · exact KeyOrd.trans _ _ _ h (hs'.1 y hy)
    · split
      · rename_i h e; subst e
        exact List.pairwise_cons.mpr ⟨hs'.1, hs'.2⟩
      · rename_i h e
        refine List.pairwise_cons.mpr ⟨?_, ih hs'.2⟩
        intro y hy
        rcases (mem_put k v r hs'.2 y).mp hy with rfl | ⟨_, hy⟩
        · rcases KeyOrd.tri k k' with g | g | g
          · exact absurd g h
          · exact absurd g e
          · exact g
        · exact hs'.1 y hy

theorem sorted_ext (l1 l2 : Coll K V) (h1 : Sorted l1) (h2 : Sorted l2) (h : ∀ x, x ∈ l1 ↔ x ∈ l2) : l1 = l2 := by
  induction l1 generalizing l2 with
  | nil =>
    cases l2 with
    | nil => rfl
    | cons y r => have := (h y).mpr (List.mem_cons_self ..); cases this
  | cons x r ih =>
    cases l2 with
    | nil => have := (h x).mp (List.mem_cons_self ..); cases this
    | cons y r2 =>
      have p1 := List.pairwise_cons.mp h1
      have p2 := List.pairwise_cons.mp h2
      have hxy : x = y := by
        have hx := (h x).mp (List.mem_cons_self ..)
        have hy := (h y).mpr (List.mem_cons_self ..)
        rcases List.mem_cons.mp hx with e | hx
        · exact e
        · rcases List.mem_cons.mp hy with e | hy
          · exact e.symm
          · have := KeyOrd.trans _ _ _ (p1.1 y hy) (p2.1 x hx)
            rw [KeyOrd.irrefl] at this; cases this
      subst hxy
      rw [ih r2 p1.2 p2.2]
      intro z
      constructor
      · intro hz
        rcases List.mem_cons.mp ((h z).mp (List.mem_cons_of_mem _ hz)) with e | g
        · subst e; have := p1.1 z hz; rw [KeyOrd.irrefl] at this; cases this
        · exact g
      · intro hz
        rcases List.mem_cons.mp ((h z).mpr (List.mem_cons_of_mem _ hz)) with e | g
        · subst e; have := p2.1 z hz; rw [KeyOrd.irrefl] at this; cases this
        · exact g

/-- Inserting entries one by one. -/
theorem fold_put {X : Type} (f : X → K) (g : X → V) (xs : List X) (m : Coll K V) (hm : Sorted m)
    (hd : xs.Pairwise fun x y => f x ≠ f y) :
    Sorted (xs.foldl (fun m x => put (f x) (g x) m) m) ∧
    ∀ y, y ∈ xs.foldl (fun m x => put (f x) (g x) m) m ↔
      (∃ x ∈ xs, y = (f x, g x)) ∨ ((∀ x ∈ xs, f x ≠ y.1) ∧ y ∈ m) := by
  induction xs generalizing m with
  | nil => exact ⟨hm, by simp⟩
  | cons x xs ih =>
    have hd' := List.pairwise_cons.mp hd
    obtain ⟨i1, i2⟩ := ih (put (f x) (g x) m) (sorted_put _ _ _ hm) hd'.2
    refine ⟨i1, ?_⟩
    intro y
    simp only [List.foldl_cons]
    rw [i2, mem_put _ _ _ hm]
    constructor
    · rintro (⟨z, hz, e⟩ | ⟨h1, h2 | ⟨h2, h3⟩⟩)
      · exact Or.inl ⟨z, List.mem_cons_of_mem _ hz, e⟩
      · exact Or.inl ⟨x, List.mem_cons_self .., h2⟩
      · refine Or.inr ⟨?_, h3⟩
        intro z hz
        rcases List.mem_cons.mp hz with rfl | hz
        · exact fun e => h2 e.symm
        · exact h1 z hz
    · rintro (⟨z, hz, e⟩ | ⟨h1, h2⟩)
      · rcases List.mem_cons.mp hz with rfl | hz
        · right
          refine ⟨?_, Or.inl e⟩
          intro w hw
          rw [e]; exact fun h => hd'.1 w hw h.symm
        · exact Or.inl ⟨z, hz, e⟩
      · exact Or.inr ⟨fun z hz => h1 z (List.mem_cons_of_mem _ hz),
          Or.inr ⟨fun e => h1 x (List.mem_cons_self ..) e.symm, h2⟩⟩

/-- Re-inserting the entries `(f x, g x)` gives the sorted collection having exactly these entries. -/
theorem fold_eq {X : Type} (f : X → K) (g : X → V) (xs : List X) (l : Coll K V) (hl : Sorted l)
    (hd : xs.Pairwise fun x y => f x ≠ f y) (h : ∀ y, y ∈ l ↔ ∃ x ∈ xs, y = (f x, g x)) :
    xs.foldl (fun m x => put (f x) (g x) m) [] = l := by
  obtain ⟨i1, i2⟩ := fold_put f g xs [] (by simp [Sorted]) hd
  apply sorted_ext _ _ i1 hl
  intro y
  rw [i2, h]; simp

theorem sorted_ne (l : Coll K V) (hl : Sorted l) : l.Pairwise fun x y => x.1 ≠ y.1 :=
  hl.imp (by intro a b h e; rw [e, KeyOrd.irrefl] at h; cases h)

theorem fold_self (l : Coll K V) (hl : Sorted l) : l.foldl (fun m x => put x.1 x.2 m) [] = l :=
  fold_eq Prod.fst Prod.snd l l hl (sorted_ne l hl) (by intro y; constructor
                                                        · intro h; exact ⟨y, h, rfl⟩
                                                        · rintro ⟨x, hx, rfl⟩; exact hx)

theorem look_mem (l : Coll K V) (hl : Sorted l) (k : K) (v : V) : look k l = some v ↔ (k, v) ∈ l := by
  induction l with
  | nil => simp [look]
  | cons y r ih =>
    obtain ⟨k', v'⟩ := y
    have hs' := List.pairwise_cons.mp hl
    by_cases e : k' = k
    · subst e
      simp only [look, List.find?_cons, decide_true, Option.map_some, Option.some.injEq, List.mem_cons,
        Prod.mk.injEq, true_and]
      constructor
      · intro h; exact Or.inl h.symm
      · rintro (h | h)
        · exact h.symm
        · have := hs'.1 _ h; simp only [KeyOrd.irrefl] at this; cases this
    · have : look k ((k', v') :: r) = look k r := by simp [look, List.find?_cons, e]
      rw [this, ih hs'.2, List.mem_cons]
      simp [Ne.symm e]

end

section
variable {A : Type} [DecidableEq A]

/-- Ungrouping the exported stores gives back the pairs, in order. -/
theorem groupAux_flat {M : Type} (f : M → A → A → M) (cur : Option (A × List A)) (l : List (A × A)) (m : M) :
    (groupAux cur l).foldl (fun m x => x.2.foldl (fun m y => f m x.1 y) m) m =
      l.foldl (fun m x => f m x.1 x.2)
        (match cur with
          | none => m
          | some g => g.2.foldl (fun m y => f m g.1 y) m) := by
  induction l generalizing cur m with
  | nil => cases cur <;> simp [groupAux]
  | cons x r ih =>
    obtain ⟨a, s⟩ := x
    cases cur with
    | none => simp [groupAux, ih]
    | some g =>
      obtain ⟨a', l'⟩ := g
      simp only [groupAux]
      split
      · rename_i e; subst e; rw [ih]; simp
      · simp [ih]

end

section
variable {A D V P : Type} [DecidableEq A] [DecidableEq D] [DecidableEq V] [KeyOrd A] [KeyOrd D] [KeyOrd V]

/-- The collections as a running chain keeps them: in store order; bootstrapped (code exists, addresses and parameters
set); the two denom maps inverse to each other (C21), the two class maps as well, and a URI for exactly the class
contracts (C48). -/
structure WellFormed (s : State A D V P) : Prop where
  vm : Sorted s.vm
  booted : s.vm ≠ []
  params : ∃ p, s.params = some p
  factory : ∃ a, s.factory = some a
  wrapper : ∃ a, s.wrapper = some a
  erc20s : Sorted s.erc20s
  stores : Sorted s.stores
  denomOf : Sorted s.denomOf
  addrOf : Sorted s.addrOf
  denoms : ∀ a d, (a, d) ∈ s.denomOf ↔ (d, a) ∈ s.addrOf
  classUri : Sorted s.classUri
  classOf : Sorted s.classOf
  classAddr : Sorted s.classAddr
  classes : ∀ a d, (a, d) ∈ s.classOf ↔ (d, a) ∈ s.classAddr
  uris : ∀ a, (∃ u, (a, u) ∈ s.classUri) ↔ ∃ d, (d, a) ∈ s.classAddr
  hashes : Sorted s.hashes

/-- **C34 (classes).** An export that is made lists every NFT class with its contract, once and in order. -/
theorem C34_classes [DecidableEq A] (s : State A D V P) (g : Genesis A D V P) (h : export_ s = some g) :
    g.classTraces.map (fun x => (x.1, x.2.1)) = s.classAddr ∧ g.denomTraces = s.addrOf ∧ g.keyValues = s.vm ∧
    g.blockHashes = s.hashes := by
  have key : ∀ (l : List (D × A)) (ct : List (D × A × D)), classTraces s.classUri l = some ct →
      ct.map (fun x => (x.1, x.2.1)) = l := by
    intro l
    induction l with
    | nil => intro ct h; simp only [classTraces, Option.some.injEq] at h; subst h; rfl
    | cons x r ih =>
      obtain ⟨c, a⟩ := x
      intro ct h
      simp only [classTraces] at h
      split at h
      · rename_i u l hu hl
        simp only [Option.some.injEq] at h
        subst h
        simp [ih l hl]
      · cases h
  unfold export_ at h
  split at h
  · rename_i p f w ct _ _ _ hct
    simp only [Option.some.injEq] at h
    subst h
    exact ⟨key _ _ hct, rfl, rfl, rfl⟩
  · cases h

/-- The entries of the exported class traces. -/
theorem classTraces_spec (uris : Coll A D) (hu : Sorted uris) (l : List (D × A))
    (h : ∀ x ∈ l, ∃ u, (x.2, u) ∈ uris) :
    ∃ ct, classTraces uris l = some ct ∧ ct.map (fun x => (x.1, x.2.1)) = l ∧
      ∀ x ∈ ct, (x.2.1, x.2.2) ∈ uris := by
  induction l with
  | nil => exact ⟨[], rfl, rfl, by simp⟩
  | cons x r ih =>
    obtain ⟨c, a⟩ := x
    obtain ⟨u, hu'⟩ := h (c, a) (List.mem_cons_self ..)
    obtain ⟨ct, h1, h2, h3⟩ := ih (fun y hy => h y (List.mem_cons_of_mem _ hy))
    have hl := (look_mem uris hu a u).mpr hu'
    refine ⟨(c, a, u) :: ct, by simp [classTraces, hl, h1], by simp [h2], ?_⟩
    intro y hy
    rcases List.mem_cons.mp hy with rfl | hy
    · exact hu'
    · exact h3 y hy

/-- In a sorted collection no two entries of the inverse share a value. -/
theorem values_ne {K W : Type} [KeyOrd K] [KeyOrd W] [DecidableEq K] [DecidableEq W] (l : Coll K W) (inv : Coll W K)
    (hl : Sorted l) (hi : Sorted inv) (h : ∀ w k, (w, k) ∈ inv ↔ (k, w) ∈ l) :
    l.Pairwise fun x y => x.2 ≠ y.2 := by
  have key : ∀ (l' : Coll K W), (∀ x ∈ l', x ∈ l) → Sorted l' → l'.Pairwise fun x y => x.2 ≠ y.2 := by
    intro l'
    induction l' with
    | nil => intro _ _; exact List.Pairwise.nil
    | cons x r ih =>
      intro hsub hs
      have hs' := List.pairwise_cons.mp hs
      refine List.pairwise_cons.mpr ⟨?_, ih (fun y hy => hsub y (List.mem_cons_of_mem _ hy)) hs'.2⟩
      intro y hy e
      have hx := (h x.2 x.1).mpr (hsub x (List.mem_cons_self ..))
      have hy' := (h y.2 y.1).mpr (hsub y (List.mem_cons_of_mem _ hy))
      rw [← e] at hy'
      have e1 := (look_mem inv hi x.2 x.1).mpr hx
      have e2 := (look_mem inv hi x.2 y.1).mpr hy'
      rw [e1] at e2
      simp only [Option.some.injEq] at e2
      have := hs'.1 y hy
      rw [e2, KeyOrd.irrefl] at this; cases this
  exact key l (fun _ h => h) hl

/-- **C34.** Exporting a running chain's module state succeeds, and importing the result into an empty chain gives
exactly the same state: parameters, contract code and storage, factory and wrapper, registry, account stores, denoms,
NFT classes with their URIs, and block hashes. -/
theorem C34_roundtrip (boot : State A D V P → State A D V P) (s : State A D V P) (hs : WellFormed s) :
    ∃ g, export_ s = some g ∧ import_ boot g = s := by
  obtain ⟨p, hp⟩ := hs.params
  obtain ⟨f, hf⟩ := hs.factory
  obtain ⟨w, hw⟩ := hs.wrapper
  have huris : ∀ x ∈ s.classAddr, ∃ u, (x.2, u) ∈ s.classUri := by
    intro x hx; exact (hs.uris x.2).mpr ⟨x.1, hx⟩
  obtain ⟨ct, hct, hct1, hct2⟩ := classTraces_spec s.classUri hs.classUri s.classAddr huris
  have hex : export_ s = some ⟨p, s.vm, s.erc20s.map Prod.fst, groupAux none (s.stores.map Prod.fst), s.addrOf, ct,
      f, w, s.hashes⟩ := by
    simp only [export_, hp, hf, hw, hct]
  refine ⟨_, hex, ?_⟩
  have e1 : s.vm.foldl (fun m x => put x.1 x.2 m) [] = s.vm := fold_self s.vm hs.vm
  have e2 : (s.erc20s.map Prod.fst).foldl (fun m x => put x () m) [] = s.erc20s := by
    rw [List.foldl_map]
    exact fold_self s.erc20s hs.erc20s
  have e3 : (groupAux none (s.stores.map Prod.fst)).foldl
      (fun m x => x.2.foldl (fun m y => put (x.1, y) () m) m) [] = s.stores := by
    have := groupAux_flat (fun m a y => put (a, y) () m) none (s.stores.map Prod.fst) ([] : Coll (A × A) Unit)
    rw [this]
    simp only
    rw [List.foldl_map]
    exact fold_self s.stores hs.stores
  have e4 : s.addrOf.foldl (fun m x => put x.1 x.2 m) [] = s.addrOf := fold_self _ hs.addrOf
  have e5 : s.addrOf.foldl (fun m x => put x.2 x.1 m) [] = s.denomOf := by
    refine fold_eq Prod.snd Prod.fst s.addrOf s.denomOf hs.denomOf ?_ ?_
    · exact values_ne s.addrOf s.denomOf hs.addrOf hs.denomOf (fun a d => hs.denoms a d)
    · intro y
      constructor
      · intro h; exact ⟨(y.2, y.1), (hs.denoms y.1 y.2).mp h, rfl⟩
      · rintro ⟨x, hx, rfl⟩; exact (hs.denoms x.2 x.1).mpr hx
  have hpair : ct.Pairwise fun x y => x.1 ≠ y.1 := by
    have := sorted_ne s.classAddr hs.classAddr
    rw [← hct1, List.pairwise_map] at this
    exact this
  have hpair2 : ct.Pairwise fun x y => x.2.1 ≠ y.2.1 := by
    have := values_ne s.classAddr s.classOf hs.classAddr hs.classOf (fun a d => hs.classes a d)
    rw [← hct1, List.pairwise_map] at this
    exact this
  have hmem : ∀ d a, (d, a) ∈ s.classAddr ↔ ∃ x ∈ ct, x.1 = d ∧ x.2.1 = a := by
    intro d a
    rw [← hct1]
    simp only [List.mem_map, Prod.mk.injEq]
  have e6 : ct.foldl (fun m x => put x.1 x.2.1 m) [] = s.classAddr := by
    refine fold_eq (fun x => x.1) (fun x => x.2.1) ct s.classAddr hs.classAddr hpair ?_
    intro y
    rw [show y = (y.1, y.2) from rfl, hmem]
    constructor
    · rintro ⟨x, hx, h1, h2⟩; exact ⟨x, hx, by rw [h1, h2]⟩
    · rintro ⟨x, hx, h⟩; simp only [Prod.mk.injEq] at h; exact ⟨x, hx, h.1.symm, h.2.symm⟩
  have e7 : ct.foldl (fun m x => put x.2.1 x.1 m) [] = s.classOf := by
    refine fold_eq (fun x => x.2.1) (fun x => x.1) ct s.classOf hs.classOf hpair2 ?_
    intro y
    rw [show y = (y.1, y.2) from rfl, hs.classes, hmem]
    constructor
    · rintro ⟨x, hx, h1, h2⟩; exact ⟨x, hx, by rw [h1, h2]⟩
    · rintro ⟨x, hx, h⟩; simp only [Prod.mk.injEq] at h; exact ⟨x, hx, h.2.symm, h.1.symm⟩
  have e8 : ct.foldl (fun m x => put x.2.1 x.2.2 m) [] = s.classUri := by
    refine fold_eq (fun x => x.2.1) (fun x => x.2.2) ct s.classUri hs.classUri hpair2 ?_
    intro y
    constructor
    · intro h
      obtain ⟨d, hd⟩ := (hs.uris y.1).mp ⟨y.2, h⟩
      obtain ⟨x, hx, _, hx2⟩ := (hmem d y.1).mp hd
      have := hct2 x hx
      have l1 := (look_mem s.classUri hs.classUri _ _).mpr this
      have l2 := (look_mem s.classUri hs.classUri y.1 y.2).mpr h
      rw [hx2, l2] at l1
      simp only [Option.some.injEq] at l1
      exact ⟨x, hx, by rw [hx2, ← l1]⟩
    · rintro ⟨x, hx, rfl⟩; exact hct2 x hx
  have e9 : s.hashes.foldl (fun m x => put x.1 x.2 m) [] = s.hashes := fold_self _ hs.hashes
  cases hvm : s.vm with
  | nil => exact absurd hvm hs.booted
  | cons x r =>
    rw [hvm] at e1
    simp only [import_, State.empty, e2, e3, e4, e5, e6, e7, e8, e9, e1]
    rw [← hvm, ← hp, ← hf, ← hw]

/-- **C34 (second export).** Exporting the imported chain gives the same genesis. -/
theorem C34_export_again (boot : State A D V P → State A D V P) (s : State A D V P) (hs : WellFormed s)
    (g : Genesis A D V P) (hg : export_ s = some g) : export_ (import_ boot g) = some g := by
  obtain ⟨g', h1, h2⟩ := C34_roundtrip boot s hs
  rw [hg] at h1; cases h1
  rw [h2]; exact hg

end

/-- A small chain: two denoms, one class, two account stores. -/
def toyState : State Nat Nat Nat Nat where
  params := some 5
  vm := [(1, 2), (3, 4)]
  factory := some 40
  wrapper := some 41
  erc20s := [(50, ()), (60, ())]
  stores := [((100, 50), ()), ((100, 60), ()), ((101, 50), ())]
  denomOf := [(50, 8), (60, 7)]
  addrOf := [(7, 60), (8, 50)]
  classUri := [(70, 9)]
  classOf := [(70, 3)]
  classAddr := [(3, 70)]
  hashes := [(1, 11), (2, 12)]

example : WellFormed toyState where
  vm := by simp only [toyState, Sorted]; decide
  booted := by decide
  params := ⟨5, rfl⟩
  factory := ⟨40, rfl⟩
  wrapper := ⟨41, rfl⟩
  erc20s := by simp only [toyState, Sorted]; decide
  stores := by simp only [toyState, Sorted]; decide
  denomOf := by simp only [toyState, Sorted]; decide
  addrOf := by simp only [toyState, Sorted]; decide
  denoms := by intro a d; simp [toyState]; omega
  classUri := by simp only [toyState, Sorted]; decide
  classOf := by simp only [toyState, Sorted]; decide
  classAddr := by simp only [toyState, Sorted]; decide
  classes := by intro a d; simp [toyState]; omega
  uris := by intro a; simp [toyState]
  hashes := by simp only [toyState, Sorted]; decide

example : (export_ toyState).map (fun g => (g.erc20Stores, g.denomTraces, g.classTraces)) =
    some ([(100, [50, 60]), (101, [50])], [(7, 60), (8, 50)], [(3, 70, 9)]) := by decide

/-! ### Running chains -/

theorem sorted_del {K V : Type} [DecidableEq K] [KeyOrd K] (k : K) (l : Coll K V) (hs : Sorted l) : Sorted (del k l) :=
  List.Pairwise.sublist List.filter_sublist hs

theorem mem_del {K V : Type} [DecidableEq K] (k : K) (l : Coll K V) (x : K × V) : x ∈ del k l ↔ x.1 ≠ k ∧ x ∈ l := by
  simp [del, List.mem_filter, and_comm]

theorem fold_sorted {K V : Type} [DecidableEq K] [KeyOrd K] (kvs : List (K × V)) (l : Coll K V) (hs : Sorted l) :
    Sorted (kvs.foldl (fun m x => put x.1 x.2 m) l) := by
  induction kvs generalizing l with
  | nil => exact hs
  | cons x r ih => exact ih _ (sorted_put _ _ _ hs)

/-- Keys are never lost by writing. -/
theorem fold_keys {K V : Type} [DecidableEq K] [KeyOrd K] (k : K) (kvs : List (K × V)) (l : Coll K V) (hs : Sorted l)
    (h : (∃ v, (k, v) ∈ l) ∨ ∃ v, (k, v) ∈ kvs) : ∃ v, (k, v) ∈ kvs.foldl (fun m x => put x.1 x.2 m) l := by
  induction kvs generalizing l with
  | nil =>
    rcases h with h | ⟨_, h⟩
    · exact h
    · cases h
  | cons x r ih =>
    obtain ⟨k', v'⟩ := x
    refine ih _ (sorted_put _ _ _ hs) ?_
    by_cases e : k = k'
    · subst e; exact .inl ⟨v', (mem_put _ _ _ hs _).mpr (.inl rfl)⟩
    · rcases h with ⟨v, h⟩ | ⟨v, h⟩
      · exact .inl ⟨v, (mem_put _ _ _ hs _).mpr (.inr ⟨e, h⟩)⟩
      · rcases List.mem_cons.mp h with h | h
        · cases h; exact absurd rfl e
        · exact .inr ⟨v, h⟩

theorem look_none {K V : Type} [DecidableEq K] [KeyOrd K] (l : Coll K V) (hl : Sorted l) (k : K)
    (h : look k l = none) (v : V) : (k, v) ∉ l := by
  intro hm
  rw [(look_mem l hl k v).mpr hm] at h; cases h

section
variable {A D V P : Type} [DecidableEq A] [DecidableEq D] [DecidableEq V] [KeyOrd A] [KeyOrd D] [KeyOrd V]

/-- Linking a new denom (or class) to a new contract keeps the two maps inverse to each other. -/
theorem link_inverse (of_ : Coll A D) (to_ : Coll D A) (ho : Sorted of_) (ht : Sorted to_)
    (hi : ∀ a d, (a, d) ∈ of_ ↔ (d, a) ∈ to_) (d0 : D) (a0 : A) (hd : ∀ a, (d0, a) ∉ to_) (ha : ∀ d, (a0, d) ∉ of_) :
    ∀ a d, (a, d) ∈ put a0 d0 of_ ↔ (d, a) ∈ put d0 a0 to_ := by
  intro a d
  rw [mem_put _ _ _ ho, mem_put _ _ _ ht]
  simp only [Prod.mk.injEq]
  constructor
  · rintro (⟨h1, h2⟩ | ⟨h1, h2⟩)
    · exact .inl ⟨h2, h1⟩
    · refine .inr ⟨?_, (hi a d).mp h2⟩
      intro e; subst e; exact hd a ((hi a d).mp h2)
  · rintro (⟨h1, h2⟩ | ⟨h1, h2⟩)
    · exact .inl ⟨h2, h1⟩
    · refine .inr ⟨?_, (hi a d).mpr h2⟩
      intro e; subst e; exact ha d ((hi a d).mpr h2)

/-- What the environment guarantees about an operation in state `s`: a deployment gets an address that was not used
before (CREATE addresses do not collide), and the factory's own code (`bootKey`) stays. -/
def Fresh (bootKey : V) (s : State A D V P) : Op A D V P → Prop
  | .vmDel k => k ≠ bootKey
  | .denom _ a _ => ∀ d, (a, d) ∉ s.denomOf
  | .cls _ a _ => ∀ c, (a, c) ∉ s.classOf
  | _ => True

/-- States of a running chain: started by `initState` on an empty module, then any operations. -/
inductive Running (b : Boot A V) (feeDenom : P → D) (bootKey : V) : State A D V P → Prop
  | start (p : P) (code : V) (h : (bootKey, code) ∈ b.factoryKvs) :
      Running b feeDenom bootKey (initState b (feeDenom p) { (State.empty : State A D V P) with params := some p })
  | step (s : State A D V P) (o : Op A D V P) (hs : Running b feeDenom bootKey s) (ho : Fresh bootKey s o) :
      Running b feeDenom bootKey (apply s o)

omit [DecidableEq D] [DecidableEq V] in
theorem wf_vm {s : State A D V P} (h : WellFormed s) (vm : Coll V V) (hv : Sorted vm) (hn : vm ≠ []) :
    WellFormed { s with vm := vm } :=
  { h with vm := hv, booted := hn }

theorem createDenom_wf {s : State A D V P} (h : WellFormed s) (d : D) (a : A) (kvs : List (V × V))
    (hd : look d s.addrOf = none) (ha : ∀ d, (a, d) ∉ s.denomOf) :
    WellFormed (createDenom d a kvs s) := by
  have hn : kvs.foldl (fun m x => put x.1 x.2 m) s.vm ≠ [] := by
    cases hv : s.vm with
    | nil => exact absurd hv h.booted
    | cons x r =>
      rw [← hv]
      obtain ⟨v, hm⟩ := fold_keys x.1 kvs s.vm h.vm (.inl ⟨x.2, by rw [hv]; exact List.mem_cons_self ..⟩)
      exact List.ne_nil_of_mem hm
  exact { h with
    vm := fold_sorted kvs s.vm h.vm
    booted := hn
    erc20s := sorted_put _ _ _ h.erc20s
    denomOf := sorted_put _ _ _ h.denomOf
    addrOf := sorted_put _ _ _ h.addrOf
    denoms := link_inverse _ _ h.denomOf h.addrOf h.denoms d a (look_none _ h.addrOf d hd) ha }

theorem cls_wf {s : State A D V P} (h : WellFormed s) (c : D) (a : A) (uri : D) (ha : ∀ c, (a, c) ∉ s.classOf) :
    WellFormed (apply s (.cls c a uri)) := by
  cases hc : look c s.classAddr with
  | some a' =>
    have hm := (look_mem _ h.classAddr _ _).mp hc
    have e : apply s (.cls c a uri) = { s with classUri := put a' uri s.classUri } := by simp [apply, hc]
    rw [e]
    exact { h with
      classUri := sorted_put _ _ _ h.classUri
      uris := by
        intro x
        constructor
        · rintro ⟨u, hu⟩
          rcases (mem_put _ _ _ h.classUri _).mp hu with hu | ⟨_, hu⟩
          · cases hu; exact ⟨c, hm⟩
          · exact (h.uris x).mp ⟨u, hu⟩
        · rintro ⟨d, hd⟩
          by_cases e : x = a'
          · subst e; exact ⟨uri, (mem_put _ _ _ h.classUri _).mpr (.inl rfl)⟩
          · obtain ⟨u, hu⟩ := (h.uris x).mpr ⟨d, hd⟩
            exact ⟨u, (mem_put _ _ _ h.classUri _).mpr (.inr ⟨e, hu⟩)⟩ }
  | none =>
    have hca := look_none _ h.classAddr c hc
    have hl : look c (put c a s.classAddr) = some a :=
      (look_mem _ (sorted_put _ _ _ h.classAddr) _ _).mpr ((mem_put _ _ _ h.classAddr _).mpr (.inl rfl))
    have e : apply s (.cls c a uri) = { s with
        classOf := put a c s.classOf, classAddr := put c a s.classAddr, classUri := put a uri s.classUri } := by
      simp [apply, hc, hl]
    rw [e]
    exact { h with
      classUri := sorted_put _ _ _ h.classUri
      classOf := sorted_put _ _ _ h.classOf
      classAddr := sorted_put _ _ _ h.classAddr
      classes := link_inverse _ _ h.classOf h.classAddr h.classes c a hca ha
      uris := by
        intro x
        constructor
        · rintro ⟨u, hu⟩
          rcases (mem_put _ _ _ h.classUri _).mp hu with hu | ⟨_, hu⟩
          · cases hu; exact ⟨c, (mem_put _ _ _ h.classAddr _).mpr (.inl rfl)⟩
          · obtain ⟨d, hd⟩ := (h.uris x).mp ⟨u, hu⟩
            refine ⟨d, (mem_put _ _ _ h.classAddr _).mpr (.inr ⟨?_, hd⟩)⟩
            intro e'; simp only at e'; subst e'; exact hca _ hd
        · rintro ⟨d, hd⟩
          rcases (mem_put _ _ _ h.classAddr _).mp hd with hd | ⟨_, hd⟩
          · cases hd; exact ⟨uri, (mem_put _ _ _ h.classUri _).mpr (.inl rfl)⟩
          · obtain ⟨u, hu⟩ := (h.uris x).mpr ⟨d, hd⟩
            by_cases e' : x = a
            · subst e'; exact ⟨uri, (mem_put _ _ _ h.classUri _).mpr (.inl rfl)⟩
            · exact ⟨u, (mem_put _ _ _ h.classUri _).mpr (.inr ⟨e', hu⟩)⟩ }

theorem running_wf (b : Boot A V) (feeDenom : P → D) (bootKey : V) (s : State A D V P)
    (h : Running b feeDenom bootKey s) : WellFormed s ∧ ∃ v, (bootKey, v) ∈ s.vm := by
  induction h with
  | start p code hc =>
    have s1 : Sorted (b.factoryKvs.foldl (fun m x => put x.1 x.2 m) ([] : Coll V V)) := fold_sorted _ _ (by simp [Sorted])
    have k1 := fold_keys bootKey b.factoryKvs ([] : Coll V V) (by simp [Sorted]) (.inr ⟨code, hc⟩)
    have s2 := fold_sorted b.feeKvs _ s1
    have k2 := fold_keys bootKey b.feeKvs _ s1 (.inl k1)
    have s3 := fold_sorted b.wrapperKvs _ s2
    have k3 := fold_keys bootKey b.wrapperKvs _ s2 (.inl k2)
    refine ⟨?_, k3⟩
    obtain ⟨v, hv⟩ := k3
    constructor
    · exact s3
    · exact List.ne_nil_of_mem hv
    · exact ⟨p, rfl⟩
    · exact ⟨_, rfl⟩
    · exact ⟨_, rfl⟩
    · simp [initState, createDenom, State.empty, put, Sorted]
    · simp [initState, createDenom, State.empty, Sorted]
    · simp [initState, createDenom, State.empty, put, Sorted]
    · simp [initState, createDenom, State.empty, put, Sorted]
    · intro a d; simp [initState, createDenom, State.empty, put]; exact And.comm
    · simp [initState, createDenom, State.empty, Sorted]
    · simp [initState, createDenom, State.empty, Sorted]
    · simp [initState, createDenom, State.empty, Sorted]
    · intro a d; simp [initState, createDenom, State.empty]
    · intro a; simp [initState, createDenom, State.empty]
    · simp [initState, createDenom, State.empty, Sorted]
  | step s o _ ho ih =>
    obtain ⟨h, k⟩ := ih
    cases o with
    | setParams p => exact ⟨{ h with params := ⟨p, rfl⟩ }, k⟩
    | vmSet x v =>
      have k' : ∃ w, (bootKey, w) ∈ put x v s.vm := fold_keys bootKey [(x, v)] s.vm h.vm (.inl k)
      obtain ⟨w, hw⟩ := k'
      exact ⟨{ h with vm := sorted_put _ _ _ h.vm, booted := List.ne_nil_of_mem hw }, w, hw⟩
    | vmDel x =>
      obtain ⟨w, hw⟩ := k
      have hw' : (bootKey, w) ∈ del x s.vm := (mem_del x s.vm _).mpr ⟨fun e => ho e.symm, hw⟩
      exact ⟨{ h with vm := sorted_del _ _ h.vm, booted := List.ne_nil_of_mem hw' }, w, hw'⟩
    | register a => exact ⟨{ h with erc20s := sorted_put _ _ _ h.erc20s }, k⟩
    | store x a =>
      simp only [apply]
      split
      · exact ⟨{ h with stores := sorted_put _ _ _ h.stores }, k⟩
      · exact ⟨h, k⟩
    | denom d a kvs =>
      simp only [apply]
      split
      · exact ⟨h, k⟩
      · rename_i hd
        exact ⟨createDenom_wf h d a kvs (by simpa using hd) ho, fold_keys bootKey kvs s.vm h.vm (.inl k)⟩
    | cls c a uri =>
      refine ⟨cls_wf h c a uri ho, ?_⟩
      have : (apply s (.cls c a uri)).vm = s.vm := by
        simp only [apply]
        cases hc : look c s.classAddr with
        | some a' => simp [hc]
        | none => simp; split <;> rfl
      rw [this]; exact k
    | hash num n v =>
      refine ⟨{ h with hashes := sorted_put _ _ _ ?_ }, k⟩
      split
      · exact sorted_del _ _ h.hashes
      · exact h.hashes

/-- **C34 (every running chain).** Started on an empty module and after any operations — parameter changes, contract
executions, registrations, new denoms and NFT classes, blocks — a chain can be exported, and importing the export
into an empty chain gives exactly the same state. -/
theorem C34_running (b : Boot A V) (feeDenom : P → D) (bootKey : V) (boot : State A D V P → State A D V P)
    (s : State A D V P) (h : Running b feeDenom bootKey s) : ∃ g, export_ s = some g ∧ import_ boot g = s :=
  C34_roundtrip boot s (running_wf b feeDenom bootKey s h).1

/-- **C34 (first start).** A chain started from a genesis without any state is ready: factory and wrapper are known,
the fee denom has a contract, which is registered and leads back to the denom, and every VM store entry written by the
deployments' last write is there. -/
theorem C34_start (b : Boot A V) (feeDenom : P → D) (p : P) (f w : A) :
    let s := import_ (initState b (feeDenom p)) (⟨p, [], [], [], [], [], f, w, []⟩ : Genesis A D V P)
    s.params = some p ∧ s.factory = some b.factory ∧ s.wrapper = some b.wrapper ∧
      look (feeDenom p) s.addrOf = some b.feeToken ∧ look b.feeToken s.denomOf = some (feeDenom p) ∧
      (look b.feeToken s.erc20s).isSome = true ∧
      s.vm = (b.factoryKvs ++ b.feeKvs ++ b.wrapperKvs).foldl (fun m x => put x.1 x.2 m) [] := by
  simp [import_, initState, createDenom, State.empty, put, look, List.foldl_append]

end

/-- **C34 (block hashes).** In a running chain, recording the hash of a block puts it into the exported collection, takes
out the one that fell out of the window (if there is a window and it has been reached) and leaves the others. -/
theorem C34_hashes {A D V P : Type} [DecidableEq A] [KeyOrd A] [DecidableEq D] [KeyOrd D] [DecidableEq V] [KeyOrd V]
    (b : Boot A V) (feeDenom : P → D) (bootKey : V) (s : State A D V P) (hr : Running b feeDenom bootKey s)
    (num h : Nat) (v : V) (x : Nat) :
    look x (apply s (.hash num h v)).hashes =
      if x = h then some v
      else if num ≠ 0 ∧ num < h ∧ x + num = h then none
      else look x s.hashes := by
  have hs := (running_wf b feeDenom bootKey s hr).1.hashes
  have hd : Sorted (if num ≠ 0 ∧ h > num then del (h - num) s.hashes else s.hashes) := by
    split
    · exact sorted_del _ _ hs
    · exact hs
  have key : ∀ w, look x (apply s (.hash num h v)).hashes = some w ↔
      (if x = h then some v else if num ≠ 0 ∧ num < h ∧ x + num = h then none else look x s.hashes) = some w := by
    intro w
    simp only [apply]
    rw [look_mem _ (sorted_put _ _ _ hd), mem_put _ _ _ hd]
    by_cases e : x = h
    · subst e; simp [eq_comm]
    · simp only [e, Prod.mk.injEq, false_and, ne_eq, not_false_eq_true, true_and, false_or, if_false]
      by_cases c : num ≠ 0 ∧ h > num
      · rw [if_pos c, mem_del, ← look_mem _ hs]
        by_cases q : x = h - num
        · rw [if_pos ⟨c.1, c.2, by omega⟩]; simp [q]
        · rw [if_neg (by rintro ⟨_, _, g⟩; omega)]; simp [q]
      · rw [if_neg c, ← look_mem _ hs, if_neg (fun g => c ⟨g.1, g.2.1⟩)]
  cases h1 : look x (apply s (.hash num h v)).hashes with
  | some w => exact ((key w).1 h1).symm
  | none =>
    generalize hq : (if x = h then some v else if num ≠ 0 ∧ num < h ∧ x + num = h then none else look x s.hashes) = q at key
    cases q with
    | none => rfl
    | some w => rw [(key w).2 rfl] at h1; cases h1

/-- Hypotheses are met: a chain started and then used. -/
def toyBoot : Boot Nat Nat := ⟨40, 50, 41, [(1, 2)], [(3, 4)], [(5, 6)]⟩

def toyOps : List (Op Nat Nat Nat Nat) :=
  [.store 100 50, .denom 8 60 [(7, 7)], .cls 3 70 9, .cls 3 71 10, .hash 2 1 11, .hash 2 2 12, .hash 2 3 13, .vmDel 3]

def toyStart : State Nat Nat Nat Nat := initState toyBoot 7 { (State.empty : State Nat Nat Nat Nat) with params := some 5 }

example : Running toyBoot (fun _ => 7) 1 (toyOps.foldl apply toyStart) := by
  have h0 : Running toyBoot (fun _ => 7) 1 toyStart := .start 5 2 (by decide)
  have h1 := Running.step _ (.store 100 50) h0 trivial
  have h2 := Running.step _ (.denom 8 60 [(7, 7)]) h1 (by simp only [Fresh]; intro d h; revert h; simp [apply, toyStart,
    initState, createDenom, toyBoot, State.empty, put, look])
  have h3 := Running.step _ (.cls 3 70 9) h2 (by simp only [Fresh]; intro d h; revert h; simp [apply, toyStart,
    initState, createDenom, toyBoot, State.empty, put, look])
  have h4 := Running.step _ (.cls 3 71 10) h3 (by simp only [Fresh]; intro d h; revert h; simp [apply, toyStart,
    initState, createDenom, toyBoot, State.empty, put, look])
  have h5 := Running.step _ (.hash 2 1 11) h4 trivial
  have h6 := Running.step _ (.hash 2 2 12) h5 trivial
  have h7 := Running.step _ (.hash 2 3 13) h6 trivial
  exact Running.step _ (.vmDel 3) h7 (by simp [Fresh])

example : (export_ (toyOps.foldl apply toyStart)).map (fun g => (g.keyValues, g.denomTraces)) =
    some ([(1, 2), (5, 6), (7, 7)], [(7, 50), (8, 60)]) := by decide
example : (export_ (toyOps.foldl apply toyStart)).map (fun g => (g.classTraces, g.blockHashes)) =
    some ([(3, 70, 10)], [(2, 12), (3, 13)]) := by decide

/-! ### C161: genesis files -/

section
variable {A D V P : Type} [DecidableEq A] [DecidableEq D] [DecidableEq V] [KeyOrd A] [KeyOrd D] [KeyOrd V]

theorem fold_sorted_by {X K W : Type} [DecidableEq K] [KeyOrd K] (f : X → K) (g : X → W) (xs : List X) :
    ∀ l : Coll K W, Sorted l → Sorted (xs.foldl (fun m x => put (f x) (g x) m) l) := by
  induction xs with
  | nil => intro l h; exact h
  | cons x xs ih => intro l h; exact ih _ (sorted_put _ _ _ h)

theorem stores_sorted (gs : List (A × List A)) : ∀ l : Coll (A × A) Unit, Sorted l →
    Sorted (gs.foldl (fun m x => x.2.foldl (fun m y => put (x.1, y) () m) m) l) := by
  induction gs with
  | nil => intro l h; exact h
  | cons x xs ih => intro l h; exact ih _ (fold_sorted_by (fun y => (x.1, y)) (fun _ => ()) x.2 l h)

/-- Entries one-to-one in both columns. -/
def OneToOne {X Y : Type} (l : List (X × Y)) : Prop := l.Pairwise fun x y => x.1 ≠ y.1 ∧ x.2 ≠ y.2

/-- **C161 (consistent files).** A genesis file with state, in which denoms and contracts, and NFT classes and contracts, correspond
one-to-one, gives a consistent chain, that has exactly the listed denoms and classes, the listed contract state (the last
value of a key), the listed registered tokens and the parameters. -/
theorem C161_import_partial (boot : State A D V P → State A D V P) (g : Genesis A D V P) (hkv : g.keyValues ≠ [])
    (hd : OneToOne g.denomTraces) (hc : OneToOne (g.classTraces.map fun x => (x.1, x.2.1))) :
    WellFormed (import_ boot g) ∧ (import_ boot g).params = some g.params ∧ (import_ boot g).factory = some g.factory ∧
    (import_ boot g).wrapper = some g.wrapper ∧
    (∀ d a, look d (import_ boot g).addrOf = some a ↔ (d, a) ∈ g.denomTraces) ∧
    (∀ c a, look c (import_ boot g).classAddr = some a ↔ ∃ u, (c, a, u) ∈ g.classTraces) ∧
    (∀ a u, look a (import_ boot g).classUri = some u ↔ ∃ c, (c, a, u) ∈ g.classTraces) ∧
    (∀ k, (∃ v, (k, v) ∈ g.keyValues) ↔ (look k (import_ boot g).vm).isSome = true) := by
  have nil : ∀ {K W : Type} [KeyOrd K], Sorted ([] : Coll K W) := by intro K W _; exact List.Pairwise.nil
  obtain ⟨kv, kvs, hkv'⟩ : ∃ kv kvs, g.keyValues = kv :: kvs := by
    cases h : g.keyValues with
    | nil => exact absurd h hkv
    | cons a b => exact ⟨a, b, rfl⟩
  have e : import_ boot g =
      { params := some g.params, vm := g.keyValues.foldl (fun m x => put x.1 x.2 m) [], factory := some g.factory
        wrapper := some g.wrapper, erc20s := g.erc20s.foldl (fun m x => put x () m) []
        stores := g.erc20Stores.foldl (fun m x => x.2.foldl (fun m y => put (x.1, y) () m) m) []
        denomOf := g.denomTraces.foldl (fun m x => put x.2 x.1 m) []
        addrOf := g.denomTraces.foldl (fun m x => put x.1 x.2 m) []
        classUri := g.classTraces.foldl (fun m x => put x.2.1 x.2.2 m) []
        classOf := g.classTraces.foldl (fun m x => put x.2.1 x.1 m) []
        classAddr := g.classTraces.foldl (fun m x => put x.1 x.2.1 m) []
        hashes := g.blockHashes.foldl (fun m x => put x.1 x.2 m) [] } := by
    unfold import_
    rw [hkv']
    rfl
  have hc' : g.classTraces.Pairwise fun x y => x.1 ≠ y.1 ∧ x.2.1 ≠ y.2.1 := by
    have := List.pairwise_map.mp hc
    exact this
  obtain ⟨d1, d2⟩ := fold_put Prod.fst Prod.snd g.denomTraces ([] : Coll D A) nil (hd.imp fun h => h.1)
  obtain ⟨d3, d4⟩ := fold_put Prod.snd Prod.fst g.denomTraces ([] : Coll A D) nil (hd.imp fun h => h.2)
  obtain ⟨c1, c2⟩ := fold_put (fun x => x.1) (fun x => x.2.1) g.classTraces ([] : Coll D A) nil (hc'.imp fun h => h.1)
  obtain ⟨c3, c4⟩ := fold_put (fun x => x.2.1) (fun x => x.1) g.classTraces ([] : Coll A D) nil (hc'.imp fun h => h.2)
  obtain ⟨c5, c6⟩ := fold_put (fun x => x.2.1) (fun x => x.2.2) g.classTraces ([] : Coll A D) nil (hc'.imp fun h => h.2)
  have hvm : Sorted (g.keyValues.foldl (fun m x => put x.1 x.2 m) ([] : Coll V V)) := fold_sorted _ _ nil
  have keys : ∀ k, (∃ v, (k, v) ∈ g.keyValues) ↔ ∃ v, (k, v) ∈ g.keyValues.foldl (fun m x => put x.1 x.2 m) ([] : Coll V V) := by
    intro k
    constructor
    · intro h; exact fold_keys k g.keyValues [] nil (.inr h)
    · have back : ∀ (l : List (V × V)) (m : Coll V V), Sorted m → (∃ v, (k, v) ∈ l.foldl (fun m x => put x.1 x.2 m) m) →
          (∃ v, (k, v) ∈ l) ∨ ∃ v, (k, v) ∈ m := by
        intro l
        induction l with
        | nil => intro m _ h; exact .inr h
        | cons x r ih =>
          intro m hm h
          rcases ih _ (sorted_put _ _ _ hm) h with ⟨v, h⟩ | ⟨v, h⟩
          · exact .inl ⟨v, List.mem_cons_of_mem _ h⟩
          · rcases (mem_put _ _ _ hm _).mp h with h | ⟨_, h⟩
            · cases h; exact .inl ⟨x.2, List.mem_cons_self ..⟩
            · exact .inr ⟨v, h⟩
      intro h
      rcases back _ _ nil h with h | ⟨v, h⟩
      · exact h
      · cases h
  rw [e]
  refine ⟨?_, rfl, rfl, rfl, ?_, ?_, ?_, ?_⟩
  · refine { vm := hvm, booted := ?_, params := ⟨_, rfl⟩, factory := ⟨_, rfl⟩, wrapper := ⟨_, rfl⟩
             erc20s := fold_sorted_by id (fun _ => ()) _ _ nil, stores := stores_sorted _ _ nil, denomOf := d3, addrOf := d1
             denoms := ?_, classUri := c5, classOf := c3, classAddr := c1, classes := ?_, uris := ?_
             hashes := fold_sorted _ _ nil }
    · intro h0
      obtain ⟨v, hv⟩ := (keys kv.1).mp ⟨kv.2, by rw [hkv']; exact List.mem_cons_self ..⟩
      simp only at h0
      rw [h0] at hv; cases hv
    · intro a d
      rw [d4, d2]
      simp only [List.not_mem_nil, and_false, or_false]
      constructor
      · rintro ⟨x, hx, h⟩; cases h; exact ⟨x, hx, rfl⟩
      · rintro ⟨x, hx, h⟩; cases h; exact ⟨x, hx, rfl⟩
    · intro a d
      rw [c4, c2]
      simp only [List.not_mem_nil, and_false, or_false]
      constructor
      · rintro ⟨x, hx, h⟩; cases h; exact ⟨x, hx, rfl⟩
      · rintro ⟨x, hx, h⟩; cases h; exact ⟨x, hx, rfl⟩
    · intro a
      constructor
      · rintro ⟨u, hu⟩
        rw [c6] at hu
        simp only [List.not_mem_nil, and_false, or_false] at hu
        obtain ⟨x, hx, h⟩ := hu
        cases h
        exact ⟨x.1, (c2 _).mpr (.inl ⟨x, hx, rfl⟩)⟩
      · rintro ⟨d, hu⟩
        rw [c2] at hu
        simp only [List.not_mem_nil, and_false, or_false] at hu
        obtain ⟨x, hx, h⟩ := hu
        cases h
        exact ⟨x.2.2, (c6 _).mpr (.inl ⟨x, hx, rfl⟩)⟩
  · intro d a
    rw [look_mem _ d1, d2]
    simp only [List.not_mem_nil, and_false, or_false]
    constructor
    · rintro ⟨x, hx, h⟩; cases h; exact hx
    · intro h; exact ⟨_, h, rfl⟩
  · intro c a
    rw [look_mem _ c1, c2]
    simp only [List.not_mem_nil, and_false, or_false]
    constructor
    · rintro ⟨x, hx, h⟩; cases h; exact ⟨x.2.2, hx⟩
    · rintro ⟨u, h⟩; exact ⟨_, h, rfl⟩
  · intro a u
    rw [look_mem _ c5, c6]
    simp only [List.not_mem_nil, and_false, or_false]
    constructor
    · rintro ⟨x, hx, h⟩; cases h; exact ⟨x.1, hx⟩
    · rintro ⟨c, h⟩; exact ⟨_, h, rfl⟩
  · intro k
    rw [keys, Option.isSome_iff_exists]
    constructor
    · rintro ⟨v, h⟩; exact ⟨v, (look_mem _ hvm _ _).mpr h⟩
    · rintro ⟨v, h⟩; exact ⟨v, (look_mem _ hvm _ _).mp h⟩

/-- The value of the last entry for `k` in a list. -/
def lastOf {K W : Type} [DecidableEq K] (k : K) (l : List (K × W)) : Option W := (l.reverse.find? fun x => x.1 = k).map Prod.snd

theorem look_put {K W : Type} [DecidableEq K] [KeyOrd K] (k j : K) (w : W) (l : Coll K W) (hs : Sorted l) :
    look k (put j w l) = if k = j then some w else look k l := by
  have hp := sorted_put j w l hs
  by_cases e : k = j
  · rw [if_pos e]; exact (look_mem _ hp _ _).mpr ((mem_put j w l hs _).mpr (.inl (by rw [e])))
  · rw [if_neg e]
    have key : ∀ v, look k (put j w l) = some v ↔ look k l = some v := by
      intro v
      rw [look_mem _ hp, look_mem _ hs, mem_put _ _ _ hs]
      constructor
      · rintro (h | ⟨_, h⟩)
        · cases h; exact absurd rfl e
        · exact h
      · intro h; exact .inr ⟨e, h⟩
    cases h1 : look k l with
    | some v => exact (key v).2 h1
    | none =>
      cases h2 : look k (put j w l) with
      | none => rfl
      | some v => rw [(key v).1 h2] at h1; cases h1

theorem fold_last {X K W : Type} [DecidableEq K] [KeyOrd K] (f : X → K) (g : X → W) (xs : List X) (k : K) :
    ∀ m : Coll K W, Sorted m → look k (xs.foldl (fun m x => put (f x) (g x) m) m) =
      (lastOf k (xs.map fun x => (f x, g x))).or (look k m) := by
  induction xs with
  | nil => intro m _; simp [lastOf]
  | cons x xs ih =>
    intro m hm
    rw [List.foldl_cons, ih _ (sorted_put _ _ _ hm), look_put _ _ _ _ hm]
    unfold lastOf
    rw [List.map_cons, List.reverse_cons, List.find?_append]
    cases h : (xs.map fun x => (f x, g x)).reverse.find? fun x => x.1 = k with
    | some y => simp
    | none =>
      by_cases e : f x = k
      · simp [e]
      · have e' : ¬ k = f x := fun h => e h.symm
        simp [e, e']

/-- **C161 (any file).** From a genesis file with state, consistent or not, a chain starts on which every denom, contract, class, key of
the contracts' state and block has what the last entry of the file for it says, or nothing if there is none. -/
theorem C161_last (boot : State A D V P → State A D V P) (g : Genesis A D V P) (hkv : g.keyValues ≠ []) :
    (∀ d, look d (import_ boot g).addrOf = lastOf d g.denomTraces) ∧
    (∀ a, look a (import_ boot g).denomOf = lastOf a (g.denomTraces.map fun x => (x.2, x.1))) ∧
    (∀ c, look c (import_ boot g).classAddr = lastOf c (g.classTraces.map fun x => (x.1, x.2.1))) ∧
    (∀ a, look a (import_ boot g).classOf = lastOf a (g.classTraces.map fun x => (x.2.1, x.1))) ∧
    (∀ a, look a (import_ boot g).classUri = lastOf a (g.classTraces.map fun x => (x.2.1, x.2.2))) ∧
    (∀ k, look k (import_ boot g).vm = lastOf k g.keyValues) ∧
    (∀ h, look h (import_ boot g).hashes = lastOf h g.blockHashes) ∧
    (∀ a, look a (import_ boot g).erc20s = lastOf a (g.erc20s.map fun x => (x, ()))) := by
  have nil : ∀ {K W : Type} [KeyOrd K], Sorted ([] : Coll K W) := by intro K W _; exact List.Pairwise.nil
  have no : ∀ {K W : Type} [DecidableEq K] (k : K), look k ([] : Coll K W) = none := by intro K W _ k; rfl
  have same : ∀ {K W : Type} (l : List (K × W)), (l.map fun x => (x.1, x.2)) = l := by intro K W l; simp
  have key : ∀ {X K W : Type} [DecidableEq K] [KeyOrd K] (f : X → K) (g : X → W) (xs : List X) (k : K),
      look k (xs.foldl (fun m x => put (f x) (g x) m) []) = lastOf k (xs.map fun x => (f x, g x)) := by
    intro X K W _ _ f g xs k
    rw [fold_last f g xs k [] nil, no, Option.or_none]
  obtain ⟨kv, kvs, hkv'⟩ : ∃ kv kvs, g.keyValues = kv :: kvs := by
    cases h : g.keyValues with
    | nil => exact absurd h hkv
    | cons a b => exact ⟨a, b, rfl⟩
  have e : import_ boot g =
      { params := some g.params, vm := g.keyValues.foldl (fun m x => put x.1 x.2 m) [], factory := some g.factory
        wrapper := some g.wrapper, erc20s := g.erc20s.foldl (fun m x => put x () m) []
        stores := g.erc20Stores.foldl (fun m x => x.2.foldl (fun m y => put (x.1, y) () m) m) []
        denomOf := g.denomTraces.foldl (fun m x => put x.2 x.1 m) []
        addrOf := g.denomTraces.foldl (fun m x => put x.1 x.2 m) []
        classUri := g.classTraces.foldl (fun m x => put x.2.1 x.2.2 m) []
        classOf := g.classTraces.foldl (fun m x => put x.2.1 x.1 m) []
        classAddr := g.classTraces.foldl (fun m x => put x.1 x.2.1 m) []
        hashes := g.blockHashes.foldl (fun m x => put x.1 x.2 m) [] } := by
    unfold import_
    rw [hkv']
    rfl
  rw [e]
  refine ⟨fun d => ?_, fun a => ?_, fun c => ?_, fun a => ?_, fun a => ?_, fun k => ?_, fun h => ?_, fun a => ?_⟩
  · exact (key Prod.fst Prod.snd g.denomTraces d).trans (by rw [same])
  · exact key Prod.snd Prod.fst g.denomTraces a
  · exact key (fun x => x.1) (fun x => x.2.1) g.classTraces c
  · exact key (fun x => x.2.1) (fun x => x.1) g.classTraces a
  · exact key (fun x => x.2.1) (fun x => x.2.2) g.classTraces a
  · exact (key Prod.fst Prod.snd g.keyValues k).trans (by rw [same])
  · exact (key Prod.fst Prod.snd g.blockHashes h).trans (by rw [same])
  · exact key id (fun _ => ()) g.erc20s a

/-- **C161 (consistent maps, exactly).** The denoms and contracts of the chain correspond exactly if for every denom and contract: the
last entry of the denom names the contract if and only if the last entry of the contract names the denom. -/
theorem C161_consistent_iff (boot : State A D V P → State A D V P) (g : Genesis A D V P) (hkv : g.keyValues ≠ []) :
    (∀ d a, look d (import_ boot g).addrOf = some a ↔ look a (import_ boot g).denomOf = some d) ↔
    ∀ d a, lastOf d g.denomTraces = some a ↔ lastOf a (g.denomTraces.map fun x => (x.2, x.1)) = some d := by
  obtain ⟨h1, h2, _⟩ := C161_last boot g hkv
  simp only [h1, h2]

/-- two denoms of one contract, and a pair that a later entry repairs -/
example : lastOf 1 [(1, 7), (2, 7)] = some 7 ∧ lastOf 7 ([(1, 7), (2, 7)].map fun x => (x.2, x.1)) = some 2 ∧
    lastOf 1 [(1, 7), (1, 8), (3, 7)] = some 8 ∧ lastOf 7 ([(1, 7), (1, 8), (3, 7)].map fun x => (x.2, x.1)) = some 3 := by decide

/-- **C161 (exports validate).** The export of a running chain with valid parameters passes the validation, and so does the
default genesis. -/
theorem C161_export_valid (b : Boot A V) (feeDenom : P → D) (bootKey : V) (nil : A) (paramsOk : P → Bool) (s : State A D V P)
    (h : Running b feeDenom bootKey s) (p : P) (hp : s.params = some p) (hok : paramsOk p = true) (f : A) (hf : s.factory = some f)
    (hn : f ≠ nil) :
    (∃ g, export_ s = some g ∧ validate nil paramsOk g = true) ∧
    validate nil paramsOk (⟨p, [], [], [], [], [], nil, nil, []⟩ : Genesis A D V P) = true := by
  obtain ⟨g, hg, _⟩ := C34_running b feeDenom bootKey id s h
  refine ⟨⟨g, hg, ?_⟩, by simp [validate, hok]⟩
  have hgf : g.factory = f ∧ g.params = p := by
    unfold export_ at hg
    split at hg
    · rename_i h1 h2 h3 h4
      rw [hp] at h1; rw [hf] at h2
      cases h1; cases h2
      cases hg; exact ⟨rfl, rfl⟩
    · cases hg
  simp [validate, hgf.1, hgf.2, hn, hok]

/-- **C161 (refused files).** Invalid parameters, and state without a factory, do not pass. -/
theorem C161_refused (nil : A) (paramsOk : P → Bool) (g : Genesis A D V P) :
    (paramsOk g.params = false → validate nil paramsOk g = false) ∧
    (g.keyValues ≠ [] → g.factory = nil → validate nil paramsOk g = false) := by
  constructor
  · intro h; unfold validate; split <;> simp [h]
  · intro h1 h2
    unfold validate
    rw [if_pos]
    cases hk : g.keyValues with
    | nil => exact absurd hk h1
    | cons a b => simp [h2]

/-- **C161 (what the validation looks at).** A file passes exactly if its parameters are valid and, if it has state, it gives a
factory: two files that agree in these pass together, whatever else they say. -/
theorem C161_passes_iff (nil : A) (paramsOk : P → Bool) (g : Genesis A D V P) :
    validate nil paramsOk g = true ↔ paramsOk g.params = true ∧ (g.keyValues ≠ [] → g.factory ≠ nil) := by
  unfold validate
  cases h : g.keyValues with
  | nil => simp
  | cons a b => by_cases hf : g.factory = nil <;> simp [hf]

/-- **C161 (violated).** Any valid genesis file can be changed into another valid one, from which the chain starts with two denoms for
one contract (of which one denom's contract leads to the other denom) and without a wrapper. -/
theorem C161_two_denoms_violated (boot : State A D V P → State A D V P) (nil : A) (paramsOk : P → Bool) (g : Genesis A D V P)
    (hv : validate nil paramsOk g = true) (hk : g.keyValues ≠ []) (a : A) (d1 d2 : D) (hd : d1 ≠ d2) :
    ∃ g' : Genesis A D V P, g' = { g with denomTraces := g.denomTraces ++ [(d1, a), (d2, a)], wrapper := nil } ∧
      validate nil paramsOk g' = true ∧ (import_ boot g').wrapper = some nil ∧
      look d1 (import_ boot g').addrOf = some a ∧ look d2 (import_ boot g').addrOf = some a ∧
      look a (import_ boot g').denomOf = some d2 ∧ ¬ WellFormed (import_ boot g') := by
  have nil' : ∀ {K W : Type} [KeyOrd K], Sorted ([] : Coll K W) := by intro K W _; exact List.Pairwise.nil
  obtain ⟨kv, kvs, hkv⟩ : ∃ kv kvs, g.keyValues = kv :: kvs := by
    cases h : g.keyValues with
    | nil => exact absurd h hk
    | cons a b => exact ⟨a, b, rfl⟩
  refine ⟨_, rfl, by simpa [validate] using hv, ?_⟩
  have e1 : (import_ boot { g with denomTraces := g.denomTraces ++ [(d1, a), (d2, a)], wrapper := nil }).wrapper = some nil := by
    unfold import_; simp only [hkv]
  have e2 : (import_ boot { g with denomTraces := g.denomTraces ++ [(d1, a), (d2, a)], wrapper := nil }).addrOf =
      put d2 a (put d1 a (g.denomTraces.foldl (fun m x => put x.1 x.2 m) [])) := by
    unfold import_; simp only [hkv, List.foldl_append, List.foldl_cons, List.foldl_nil]; rfl
  have e3 : (import_ boot { g with denomTraces := g.denomTraces ++ [(d1, a), (d2, a)], wrapper := nil }).denomOf =
      put a d2 (put a d1 (g.denomTraces.foldl (fun m x => put x.2 x.1 m) [])) := by
    unfold import_; simp only [hkv, List.foldl_append, List.foldl_cons, List.foldl_nil]; rfl
  have s0 : Sorted (g.denomTraces.foldl (fun m x => put x.1 x.2 m) ([] : Coll D A)) := fold_sorted _ _ nil'
  have s1 := sorted_put d1 a _ s0
  have s2 := sorted_put d2 a _ s1
  have t0 : Sorted (g.denomTraces.foldl (fun m x => put x.2 x.1 m) ([] : Coll A D)) := fold_sorted_by Prod.snd Prod.fst _ _ nil'
  have t1 := sorted_put a d1 _ t0
  have t2 := sorted_put a d2 _ t1
  have m1 := (mem_put d2 a _ s1 (d1, a)).mpr (.inr ⟨hd, (mem_put d1 a _ s0 _).mpr (.inl rfl)⟩)
  have m2 := (mem_put d2 a _ s1 (d2, a)).mpr (.inl rfl)
  have m3 := (mem_put a d2 _ t1 (a, d2)).mpr (.inl rfl)
  refine ⟨e1, ?_, ?_, ?_, ?_⟩
  · rw [e2, look_mem _ s2]; exact m1
  · rw [e2, look_mem _ s2]; exact m2
  · rw [e3, look_mem _ t2]; exact m3
  · intro w
    have h1 := (w.denoms a d1).mpr (by rw [e2]; exact m1)
    have h2 : (a, d2) ∈ (import_ boot { g with denomTraces := g.denomTraces ++ [(d1, a), (d2, a)], wrapper := nil }).denomOf := by
      rw [e3]; exact m3
    have h1 := (look_mem _ w.denomOf _ _).mpr h1
    have h2 := (look_mem _ w.denomOf _ _).mpr h2
    rw [h1] at h2
    exact hd (Option.some.inj h2)

end

/-- A valid file, its chain, and the changed file. -/
def toyFile : Genesis Nat Nat Nat Nat := ⟨5, [(1, 2), (3, 4)], [50], [(9, [50])], [(7, 50), (8, 60)], [(3, 70, 10)], 40, 41, [(2, 12)]⟩

example : validate 0 (fun p => p == 5) toyFile = true ∧ OneToOne toyFile.denomTraces ∧
    OneToOne (toyFile.classTraces.map fun x => (x.1, x.2.1)) := by
  refine ⟨by decide, ?_, ?_⟩ <;> simp [OneToOne, toyFile]
example : look 8 (import_ id toyFile).addrOf = some 60 ∧ look 70 (import_ id toyFile).classUri = some 10 := by decide
example : look 60 (import_ id { toyFile with denomTraces := toyFile.denomTraces ++ [(11, 60)] }).denomOf = some 11 := by decide

end Verif.Props.Genesis
