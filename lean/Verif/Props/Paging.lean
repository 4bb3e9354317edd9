import Verif.Spec.Paging
import Verif.Props.Registry
import Verif.Props.BankGenesis
/-
C95: following the pages of a listing shows every entry once, whatever happens on the chain between the pages.
-/
namespace Verif.Paging
open Verif Verif.Text Verif.Denom Verif.Tokens Verif.Bank Verif.Paging.Spec Verif.Props.Registry Verif.Props.Tokens
  Verif.Props.Ledger Verif.Props.Bank

/-! ### Orders -/

theorem blt_irrefl (x : Bytes) : blt x x = false := by
  induction x with
  | nil => rfl
  | cons a l ih => simp [blt, ih]

theorem blt_trans {x y z : Bytes} (h1 : blt x y = true) (h2 : blt y z = true) : blt x z = true := by
  induction x generalizing y z with
  | nil =>
    cases z with
    | nil => cases y <;> simp [blt] at h2
    | cons c l => rfl
  | cons a xs ih =>
    cases y with
    | nil => simp [blt] at h1
    | cons b ys =>
      cases z with
      | nil => simp [blt] at h2
      | cons c zs =>
        simp only [blt, Bool.or_eq_true, decide_eq_true_eq, Bool.and_eq_true, beq_iff_eq] at *
        rcases h1 with h1 | ⟨rfl, h1⟩
        · rcases h2 with h2 | ⟨rfl, h2⟩
          · exact Or.inl (UInt8.lt_trans h1 h2)
          · exact Or.inl h1
        · rcases h2 with h2 | ⟨rfl, h2⟩
          · exact Or.inl h2
          · exact Or.inr ⟨rfl, ih h1 h2⟩

theorem blt_total (x y : Bytes) : x = y ∨ blt x y = true ∨ blt y x = true := by
  induction x generalizing y with
  | nil => cases y <;> simp [blt]
  | cons a xs ih =>
    cases y with
    | nil => simp [blt]
    | cons b ys =>
      simp only [blt, Bool.or_eq_true, decide_eq_true_eq, Bool.and_eq_true, beq_iff_eq, List.cons.injEq]
      by_cases h1 : a < b
      · exact Or.inr (Or.inl (Or.inl h1))
      · by_cases h2 : b < a
        · exact Or.inr (Or.inr (Or.inl h2))
        · have e : a = b := by
            apply UInt8.toNat.inj
            rw [UInt8.lt_iff_toNat_lt] at h1 h2
            omega
          subst e
          rcases ih ys with h | h | h
          · exact Or.inl ⟨rfl, h⟩
          · exact Or.inr (Or.inl (Or.inr ⟨rfl, h⟩))
          · exact Or.inr (Or.inr (Or.inr ⟨rfl, h⟩))

theorem before_irrefl (r : Bool) (x : Bytes) : before r x x = false := by
  cases r <;> simp [before, blt_irrefl]

theorem before_trans {r : Bool} {x y z : Bytes} (h1 : before r x y = true) (h2 : before r y z = true) :
    before r x z = true := by
  cases r <;> simp only [before, if_true, Bool.false_eq_true, if_false] at *
  · exact blt_trans h1 h2
  · exact blt_trans h2 h1

theorem before_total (r : Bool) (x y : Bytes) : x = y ∨ before r x y = true ∨ before r y x = true := by
  cases r <;> simp only [before, if_true, Bool.false_eq_true, if_false]
  · exact blt_total x y
  · rcases blt_total x y with h | h | h
    · exact Or.inl h
    · exact Or.inr (Or.inr h)
    · exact Or.inr (Or.inl h)

/-- Strictly in the order of a request. -/
def Sorted (r : Bool) (l : List Bytes) : Prop := l.Pairwise fun x y => before r x y = true

theorem Sorted.nodup {r : Bool} {l : List Bytes} (h : Sorted r l) : l.Nodup := by
  refine List.Pairwise.imp ?_ h
  intro x y hxy e
  subst e
  rw [before_irrefl] at hxy
  cases hxy

theorem place_perm {α : Type} (lt : α → α → Bool) (k : α) (l : List α) : (place lt k l).Perm (k :: l) := by
  induction l with
  | nil => exact .refl _
  | cons x rest ih =>
    simp only [place]
    split
    · exact (ih.cons x).trans (.swap k x rest)
    · exact .refl _

theorem inOrder_perm {α : Type} (lt : α → α → Bool) (l : List α) : (inOrder lt l).Perm l := by
  induction l with
  | nil => exact .refl _
  | cons x rest ih => exact (place_perm lt x _).trans (ih.cons x)

theorem place_sorted (k : Bytes) (l : List Bytes) (h : Sorted false l) (hk : k ∉ l) : Sorted false (place blt k l) := by
  induction l with
  | nil => exact List.pairwise_singleton _ _
  | cons x rest ih =>
    simp only [List.mem_cons, not_or] at hk
    have hx := List.pairwise_cons.mp h
    simp only [place]
    split
    · rename_i hlt
      refine List.pairwise_cons.mpr ⟨?_, ih hx.2 hk.2⟩
      intro y hy
      rcases List.mem_cons.mp ((place_perm blt k rest).mem_iff.mp hy) with rfl | hy
      · exact hlt
      · exact hx.1 y hy
    · rename_i hlt
      have hlt' : blt k x = true := by
        rcases blt_total k x with e | e | e
        · exact absurd e hk.1
        · exact e
        · exact absurd e hlt
      refine List.pairwise_cons.mpr ⟨?_, h⟩
      intro y hy
      rcases List.mem_cons.mp hy with rfl | hy
      · exact hlt'
      · exact blt_trans hlt' (hx.1 y hy)

theorem inOrder_sorted (l : List Bytes) (h : l.Nodup) : Sorted false (inOrder blt l) := by
  induction l with
  | nil => exact .nil
  | cons x rest ih =>
    have hx := List.nodup_cons.mp h
    exact place_sorted x _ (ih hx.2) (fun hm => hx.1 ((inOrder_perm blt rest).mem_iff.mp hm))

theorem storeKeys_sorted {l : List Addr} (h : l.Nodup) : Sorted false (storeKeys l) := by
  apply inOrder_sorted
  refine List.Pairwise.map Addr.bytes ?_ h
  intro x y hxy e
  exact hxy (Addr.ext e)

theorem mem_storeKeys {l : List Addr} {k : Bytes} : k ∈ storeKeys l ↔ ∃ a ∈ l, a.bytes = k := by
  unfold storeKeys
  rw [(inOrder_perm blt _).mem_iff, List.mem_map]

theorem storeKeys_ne {l : List Addr} {k : Bytes} (h : k ∈ storeKeys l) : k ≠ [] := by
  obtain ⟨a, _, rfl⟩ := mem_storeKeys.mp h
  intro e
  have := a.len
  rw [e] at this
  cases this

theorem Sorted.reversed {l : List Bytes} (h : Sorted false l) : Sorted true l.reverse := by
  unfold Sorted
  rw [List.pairwise_reverse]
  refine List.Pairwise.imp ?_ h
  intro x y hxy
  simpa [before] using hxy

/-! ### One page -/

/-- What is left to show from a key on. -/
def fromKey (reverse : Bool) (order : List Bytes) (key : Bytes) : List Bytes :=
  if key = [] then order else order.filter fun x => !before reverse x key

theorem page_form {α : Type} (f : Bytes → α) (keys : List Bytes) (key : Bytes) (limit : Nat) (count reverse : Bool)
    (r : Res α) (h : page f keys ⟨key, 0, limit, count, reverse⟩ = some r) :
    ∃ L, 0 < L ∧ (limit ≠ 0 → L = limit) ∧
      r.items = ((fromKey reverse (if reverse then keys.reverse else keys) key).take L).map f ∧
      r.next = ((fromKey reverse (if reverse then keys.reverse else keys) key).drop L).head?.getD [] := by
  refine ⟨if limit = 0 then 100 else limit, ?_, ?_, ?_⟩
  · split <;> omega
  · intro h; simp [h]
  · unfold page at h
    unfold fromKey
    by_cases hk : key = []
    · simp only [hk, ne_eq, not_true_eq_false, if_false, Nat.not_lt_zero, List.drop_zero, Option.some.injEq] at h
      subst h
      simp [hk]
    · simp only [hk, ne_eq, not_false_eq_true, if_true, Nat.lt_irrefl, if_false, Option.some.injEq] at h
      subst h
      simp [hk]

theorem fromKey_sorted {r : Bool} {l : List Bytes} (h : Sorted r l) (key : Bytes) : Sorted r (fromKey r l key) := by
  unfold fromKey
  split
  · exact h
  · exact List.Pairwise.filter _ h

theorem mem_fromKey {r : Bool} {l : List Bytes} {key k : Bytes} :
    k ∈ fromKey r l key ↔ k ∈ l ∧ (key = [] ∨ before r k key = false) := by
  unfold fromKey
  by_cases h : key = []
  · simp [h]
  · simp [h]

/-! ### Many pages -/

theorem crawl_keys {α : Type} (f : Nat → Bytes → α) (keys : Nat → List Bytes) (limit : Nat → Nat) (count r : Bool)
    (hs : ∀ i, Sorted false (keys i)) (hne : ∀ i k, k ∈ keys i → k ≠ []) (i : Nat) (key : Bytes) (pages : List (List α))
    (h : Crawl (fun i => page (f i) (keys i)) limit count r i key pages) :
    ∃ kss : List (List Bytes), pages = (kss.zipIdx i).map (fun x => x.1.map (f x.2)) ∧
      (∀ x ∈ kss.zipIdx i, ∀ k ∈ x.1, k ∈ keys x.2) ∧ Sorted r kss.flatten ∧
      (∀ k ∈ kss.flatten, key = [] ∨ before r k key = false) ∧
      (∀ k, (key = [] ∨ before r k key = false) → (∀ j, i ≤ j → k ∈ keys j) → k ∈ kss.flatten) := by
  have hord : ∀ i, Sorted r (if r then (keys i).reverse else keys i) := by
    intro i
    cases r
    · exact hs i
    · exact (hs i).reversed
  have hmem : ∀ i k, k ∈ (if r then (keys i).reverse else keys i) ↔ k ∈ keys i := by
    intro i k; cases r <;> simp
  induction h with
  | last i key res h hn =>
    obtain ⟨L, hL, _, h1, h2⟩ := page_form _ _ _ _ _ _ _ h
    have hm : ∀ k, k ∈ fromKey r (if r then (keys i).reverse else keys i) key ↔
        k ∈ keys i ∧ (key = [] ∨ before r k key = false) := fun k => by rw [mem_fromKey, hmem]
    have hsr := fromKey_sorted (hord i) key
    revert h1 h2 hm hsr
    generalize fromKey r (if r then (keys i).reverse else keys i) key = rest
    intro h1 h2 hm hsr
    have hd : rest.drop L = [] := by
      cases hd : rest.drop L with
      | nil => rfl
      | cons x l =>
        rw [hd] at h2
        simp only [List.head?_cons, Option.getD_some] at h2
        have : x ∈ rest := List.mem_of_mem_drop (hd ▸ List.mem_cons_self)
        exact absurd (h2.symm.trans hn) (hne i x ((hm x).mp this).1)
    have ht : rest.take L = rest := by
      have := List.take_append_drop L rest
      rw [hd, List.append_nil] at this
      exact this
    rw [ht] at h1
    refine ⟨[rest], by simp [h1], ?_, by simpa using hsr, ?_, ?_⟩
    · intro x hx k hk
      simp only [List.zipIdx_cons, List.zipIdx_nil, List.mem_singleton] at hx
      subst hx
      exact ((hm k).mp hk).1
    · intro k hk
      simp only [List.flatten_cons, List.flatten_nil, List.append_nil] at hk
      exact ((hm k).mp hk).2
    · intro k hk hall
      simp only [List.flatten_cons, List.flatten_nil, List.append_nil]
      exact (hm k).mpr ⟨hall i (Nat.le_refl _), hk⟩
  | more i key res pages h hn hrest ih =>
    obtain ⟨L, hL, _, h1, h2⟩ := page_form _ _ _ _ _ _ _ h
    have hm : ∀ k, k ∈ fromKey r (if r then (keys i).reverse else keys i) key ↔
        k ∈ keys i ∧ (key = [] ∨ before r k key = false) := fun k => by rw [mem_fromKey, hmem]
    have hsr := fromKey_sorted (hord i) key
    revert h1 h2 hm hsr
    generalize fromKey r (if r then (keys i).reverse else keys i) key = rest
    intro h1 h2 hm hsr
    obtain ⟨kss, e1, e2, e3, e4, e5⟩ := ih
    -- the next key is the first key not shown
    cases hd : rest.drop L with
    | nil => rw [hd] at h2; exact absurd h2 hn
    | cons n l =>
      rw [hd] at h2
      simp only [List.head?_cons, Option.getD_some] at h2
      rw [h2] at e4 e5 hn
      have hsplit : rest = rest.take L ++ n :: l := by rw [← hd, List.take_append_drop]
      have hpw : Sorted r (rest.take L ++ n :: l) := hsplit ▸ hsr
      obtain ⟨p1, p2, p3⟩ := List.pairwise_append.mp hpw
      have hlt : ∀ x ∈ rest.take L, before r x n = true := fun x hx => p3 x hx n List.mem_cons_self
      have hge : ∀ k ∈ kss.flatten, before r k n = false := by
        intro k hk
        rcases e4 k hk with e | e
        · exact absurd e hn
        · exact e
      refine ⟨rest.take L :: kss, by simp [h1, e1], ?_, ?_, ?_, ?_⟩
      · intro x hx k hk
        rw [List.zipIdx_cons, List.mem_cons] at hx
        rcases hx with rfl | hx
        · exact ((hm k).mp (List.mem_of_mem_take hk)).1
        · exact e2 x hx k hk
      · rw [List.flatten_cons]
        refine List.pairwise_append.mpr ⟨p1, e3, ?_⟩
        intro x hx y hy
        have hxn := hlt x hx
        rcases before_total r n y with e | e | e
        · exact e ▸ hxn
        · exact before_trans hxn e
        · rw [hge y hy] at e; cases e
      · intro k hk
        rw [List.flatten_cons, List.mem_append] at hk
        rcases hk with hk | hk
        · exact ((hm k).mp (List.mem_of_mem_take hk)).2
        · by_cases hk0 : key = []
          · exact Or.inl hk0
          · right
            have hnk : before r n key = false := by
              rcases ((hm n).mp (hsplit ▸ by simp)).2 with e | e
              · exact absurd e hk0
              · exact e
            cases hb : before r k key with
            | false => rfl
            | true =>
              exfalso
              rcases before_total r n k with e | e | e
              · rw [e, hb] at hnk; cases hnk
              · rw [before_trans e hb] at hnk; cases hnk
              · rw [hge k hk] at e; cases e
      · intro k hk hall
        rw [List.flatten_cons, List.mem_append]
        have hr : k ∈ rest := (hm k).mpr ⟨hall i (Nat.le_refl _), hk⟩
        rw [hsplit, List.mem_append] at hr
        rcases hr with hr | hr
        · exact Or.inl hr
        · right
          refine e5 k (Or.inr ?_) (fun j hj => hall j (by omega))
          rcases List.mem_cons.mp hr with rfl | hr
          · exact before_irrefl _ _
          · have := (List.pairwise_cons.mp p2).1 k hr
            cases hb : before r k n with
            | false => rfl
            | true =>
              have := before_trans this hb
              rw [before_irrefl] at this
              cases this

/-! ### Entries of a listing stay -/

theorem call_stores {c : Chain} {w w' : World} {caller k : Addr} {call : Call} (h : callToken c w caller k call = some w')
    (a x : Addr) (hx : x ∈ w.stores a) : x ∈ w'.stores a := by
  rcases callToken_form h with ⟨_, rfl⟩ | ⟨s, t, t', _, _, h3⟩
  · exact hx
  · subst h3
    cases regTarget call with
    | none => exact hx
    | some b => exact (registerStore_spec w b k).2.2.2.2.1 a x hx

theorem send_stores {c : Chain} {f r : Addr} {coins : Coins} {w w' : World} (h : sendCoins c f r coins w = some w')
    (a x : Addr) (hx : x ∈ w.stores a) : x ∈ w'.stores a := by
  induction coins generalizing w with
  | nil => simp only [sendCoins, Option.some.injEq] at h; subst h; exact hx
  | cons y rest ih =>
    obtain ⟨d, amt⟩ := y
    simp only [sendCoins] at h
    split at h
    · cases h
    · split at h
      · cases h
      · rename_i w1 h1
        exact ih h (call_stores h1 a x hx)

theorem step_stores {c : Chain} {late : Bool} {w w' : World} (h : Step c late w w') (a x : Addr) (hx : x ∈ w.stores a) :
    x ∈ w'.stores a := by
  cases h with
  | call caller k call w' h => exact call_stores h a x hx
  | send f r coins w' h => exact send_stores h a x hx
  | mint p r coins w' hp hcon hl h =>
    clear hcon hl
    induction coins generalizing w with
    | nil => simp only [mintCoins, Option.some.injEq] at h; subst h; exact hx
    | cons y rest ih =>
      obtain ⟨d, amt⟩ := y
      rw [mintCoins_cons] at h
      split at h
      · cases h
      · split at h
        · cases h
        · split at h
          · cases h
          · rename_i u1 hu
            refine ih ?_ h
            refine call_stores hu a x ?_
            unfold ensure
            split
            · exact hx
            · exact hx
  | burn p f all coins w' h =>
    induction coins generalizing w with
    | nil => simp only [burnCoins, Option.some.injEq] at h; subst h; exact hx
    | cons y rest ih =>
      obtain ⟨d, amt⟩ := y
      simp only [burnCoins] at h
      split at h
      · split at h
        · cases h
        · rename_i w1 h1
          exact ih (send_stores h1 a x hx) h
      · split at h
        · cases h
        · split at h
          · cases h
          · rename_i w1 h1
            exact ih (call_stores h1 a x hx) h
  | create p caller hf => exact hx
  | deploy b owner sudo hn => exact hx
  | register p k w' h hl =>
    obtain ⟨_, ⟨_, rfl⟩ | ⟨_, _, rfl⟩⟩ := register_form h
    · exact hx
    · exact hx

theorem reach_stores {c : Chain} {late : Bool} {w w' : World} (h : Reach c late w w') (a x : Addr) (hx : x ∈ w.stores a) :
    x ∈ w'.stores a := by
  induction h with
  | refl => exact hx
  | step _ _ _ hs ih => exact step_stores hs a x ih

theorem call_nodup {c : Chain} {w w' : World} {caller k : Addr} {call : Call} (h : callToken c w caller k call = some w')
    (hn : ∀ x, (w.stores x).Nodup) (a : Addr) : (w'.stores a).Nodup := by
  rcases callToken_form h with ⟨_, rfl⟩ | ⟨s, t, t', _, _, h3⟩
  · exact hn a
  · subst h3
    cases regTarget call with
    | none => exact hn a
    | some b => exact (registerStore_spec w b k).2.2.2.2.2.2.2 hn a

theorem send_nodup {c : Chain} {f r : Addr} {coins : Coins} {w w' : World} (h : sendCoins c f r coins w = some w')
    (hn : ∀ x, (w.stores x).Nodup) (a : Addr) : (w'.stores a).Nodup := by
  induction coins generalizing w with
  | nil => simp only [sendCoins, Option.some.injEq] at h; subst h; exact hn a
  | cons y rest ih =>
    obtain ⟨d, amt⟩ := y
    simp only [sendCoins] at h
    split at h
    · cases h
    · split at h
      · cases h
      · rename_i w1 h1
        exact ih h (call_nodup h1 hn)

/-- An account's list never has an entry twice, in any history. -/
theorem stores_nodup {c : Chain} {late : Bool} {w : World} (h : Reach c late World.init w) (a : Addr) :
    (w.stores a).Nodup := by
  induction h generalizing a with
  | refl => exact .nil
  | step w w' _ hs ih =>
    cases hs with
    | call caller k call w' h => exact call_nodup h ih a
    | send f r coins w' h => exact send_nodup h ih a
    | mint p r coins w' hp hcon hl h =>
      clear hcon hl
      rename_i hr
      clear hr
      revert h ih
      induction coins generalizing w with
      | nil => intro ih h; simp only [mintCoins, Option.some.injEq] at h; subst h; exact ih a
      | cons y rest ihc =>
        obtain ⟨d, amt⟩ := y
        intro ih h
        rw [mintCoins_cons] at h
        split at h
        · cases h
        · split at h
          · cases h
          · split at h
            · cases h
            · rename_i u1 hu
              refine ihc u1 ?_ h
              refine call_nodup hu ?_
              intro x
              unfold ensure
              split
              · exact ih x
              · exact ih x
    | burn p f all coins w' h =>
      rename_i hr
      clear hr
      revert h ih
      induction coins generalizing w with
      | nil => intro ih h; simp only [burnCoins, Option.some.injEq] at h; subst h; exact ih a
      | cons y rest ihc =>
        obtain ⟨d, amt⟩ := y
        intro ih h
        simp only [burnCoins] at h
        split at h
        · split at h
          · cases h
          · rename_i w1 h1
            exact ihc w1 (send_nodup h1 ih) h
        · split at h
          · cases h
          · split at h
            · cases h
            · rename_i w1 h1
              exact ihc w1 (call_nodup h1 ih) h
    | create p caller hf => exact ih a
    | deploy b owner sudo hn => exact ih a
    | register p k w' h hl =>
      obtain ⟨_, ⟨_, rfl⟩ | ⟨_, _, rfl⟩⟩ := register_form h
      · exact ih a
      · exact ih a

theorem reach_trans {c : Chain} {late : Bool} {u v w : World} (h1 : Reach c late u v) (h2 : Reach c late v w) :
    Reach c late u w := by
  induction h2 with
  | refl => exact h1
  | step a b _ hs ih => exact .step a b ih hs

/-- A crawl over addresses: each entry at most once, each entry that was there all along exactly once, each with the value
it had when its page was made. -/
theorem crawl_entries (v : Nat → Addr → Nat) (l : Nat → List Addr) (hnd : ∀ i, (l i).Nodup) (limit : Nat → Nat)
    (count r : Bool) (pages : List (List (Addr × Nat)))
    (h : Crawl (fun i => page (fun k => (bytesToAddress k, v i (bytesToAddress k))) (storeKeys (l i))) limit count r 0 []
      pages) :
    (pages.flatten.map Prod.fst).Nodup ∧
    (∀ (j : Nat) (pg : List (Addr × Nat)) (k : Addr) (n : Nat), pages[j]? = some pg → (k, n) ∈ pg → k ∈ l j ∧ n = v j k) ∧
    (∀ k, (∀ i, k ∈ l i) → ∃ (j : Nat) (pg : List (Addr × Nat)), pages[j]? = some pg ∧ (k, v j k) ∈ pg) := by
  obtain ⟨kss, e1, e2, e3, e4, e5⟩ := crawl_keys (fun i k => (bytesToAddress k, v i (bytesToAddress k)))
    (fun i => storeKeys (l i)) limit count r (fun i => storeKeys_sorted (hnd i)) (fun i k hk => storeKeys_ne hk) 0 [] pages h
  have hget : ∀ (j : Nat), pages[j]? = (kss[j]?).map fun ks => ks.map fun k => (bytesToAddress k, v j (bytesToAddress k)) := by
    intro j
    rw [e1, List.getElem?_map, List.getElem?_zipIdx]
    cases kss[j]? <;> simp
  have hkey : ∀ (j : Nat) ks k, kss[j]? = some ks → k ∈ ks → ∃ a ∈ l j, a.bytes = k := by
    intro j ks k hj hk
    refine mem_storeKeys.mp (e2 (ks, j) ?_ k hk)
    rw [List.mem_iff_getElem?]
    exact ⟨j, by rw [List.getElem?_zipIdx, hj]; simp⟩
  refine ⟨?_, ?_, ?_⟩
  · have hf : pages.flatten.map Prod.fst = kss.flatten.map bytesToAddress := by
      rw [e1]
      clear e1 e2 e3 e4 e5 h hget hkey
      generalize 0 = m
      induction kss generalizing m with
      | nil => rfl
      | cons ks rest ih =>
        simp only [List.zipIdx_cons, List.map_cons, List.flatten_cons, List.map_append, List.map_map]
        rw [ih (m + 1)]
        rfl
    rw [hf]
    have hall : ∀ k ∈ kss.flatten, k.length = 20 := by
      intro k hk
      obtain ⟨ks, hks, hk⟩ := List.mem_flatten.mp hk
      obtain ⟨j, hj⟩ := List.mem_iff_getElem?.mp hks
      obtain ⟨a, _, rfl⟩ := hkey j ks k hj hk
      exact a.len
    have hn := e3.nodup
    revert hall hn
    generalize kss.flatten = fl
    intro hall hn
    induction fl with
    | nil => exact .nil
    | cons k rest ih =>
      have hn' := List.nodup_cons.mp hn
      refine List.nodup_cons.mpr ⟨?_, ih (fun k hk => hall k (List.mem_cons_of_mem _ hk)) hn'.2⟩
      intro hm
      obtain ⟨k', hk', e⟩ := List.mem_map.mp hm
      have e' : k' = k := by
        have := congrArg Addr.bytes e
        simpa [bytesToAddress, fitBytes_eq 20 _ (hall k List.mem_cons_self),
          fitBytes_eq 20 _ (hall k' (List.mem_cons_of_mem _ hk'))] using this
      exact hn'.1 (e' ▸ hk')
  · intro j pg k n hj hk
    rw [hget] at hj
    obtain ⟨ks, hks, rfl⟩ := Option.map_eq_some_iff.mp hj
    obtain ⟨kb, hkb, e⟩ := List.mem_map.mp hk
    obtain ⟨a, ha, rfl⟩ := hkey j ks kb hks hkb
    rw [bytesToAddress_bytes, Prod.mk.injEq] at e
    obtain ⟨rfl, rfl⟩ := e
    exact ⟨ha, rfl⟩
  · intro k hk
    have := e5 k.bytes (Or.inl rfl) (fun j _ => mem_storeKeys.mpr ⟨k, hk j, rfl⟩)
    obtain ⟨ks, hks, hk'⟩ := List.mem_flatten.mp this
    obtain ⟨j, hj⟩ := List.mem_iff_getElem?.mp hks
    refine ⟨j, _, by rw [hget, hj]; rfl, ?_⟩
    refine List.mem_map.mpr ⟨k.bytes, hk', ?_⟩
    rw [bytesToAddress_bytes]

/-- **C95 (balances, while the chain goes on).** A client pages through the balances of account `a` by following the next
keys, with any limits and in either direction; between its requests anything happens on the chain. Every token of which `a`
held something when it started is listed on some page with the balance of the time that page was made; no token is listed
twice; whatever is listed is true of a registered token. (Contracts that register themselves before anybody holds them, as
in C28.) -/
theorem C95_balances (c : Chain) (w : Nat → World) (h0 : Reach c false World.init (w 0))
    (hs : ∀ i, Reach c false (w i) (w (i + 1))) (a : Addr) (limit : Nat → Nat) (count reverse : Bool)
    (pages : List (List (Addr × Nat)))
    (h : Crawl (fun i => holdingsPage (w i) a) limit count reverse 0 [] pages) :
    (∀ k, (w 0).erc20s k = true → balanceOf (w 0) k a ≠ 0 →
      ∃ (j : Nat) (pg : List (Addr × Nat)), pages[j]? = some pg ∧ (k, balanceOf (w j) k a) ∈ pg) ∧
    (pages.flatten.map Prod.fst).Nodup ∧
    (∀ (j : Nat) (pg : List (Addr × Nat)) (k : Addr) (n : Nat), pages[j]? = some pg → (k, n) ∈ pg →
      (w j).erc20s k = true ∧ n = balanceOf (w j) k a) := by
  have hall : ∀ i, Reach c false (w 0) (w i) := by
    intro i
    induction i with
    | zero => exact .refl
    | succ i ih => exact reach_trans ih (hs i)
  have hc : ∀ i, Complete (w i) := fun i => reach_complete (reach_trans h0 (hall i)) init_complete
  obtain ⟨g1, g2, g3⟩ := crawl_entries (fun i k => balanceOf (w i) k a) (fun i => (w i).stores a) (fun i => (hc i).once a)
    limit count reverse pages h
  refine ⟨?_, g1, ?_⟩
  · intro k hk hb
    exact g3 k fun i => reach_stores (hall i) a k ((hc 0).holders k a hk hb)
  · intro j pg k n hj hk
    obtain ⟨e1, e2⟩ := g2 j pg k n hj hk
    exact ⟨(hc j).registered a k e1, e2⟩

/-- **C95 (supplies, while the chain goes on).** The same for the list of all supplies: every token registered when the
client started is listed on exactly one page, with its supply of that time. -/
theorem C95_supplies (c : Chain) (w : Nat → World) (hs : ∀ i, Reach c true (w i) (w (i + 1)))
    (regs : Nat → List Addr) (hr : ∀ i k, k ∈ regs i ↔ (w i).erc20s k = true) (hnd : ∀ i, (regs i).Nodup)
    (limit : Nat → Nat) (count reverse : Bool) (pages : List (List (Addr × Nat)))
    (h : Crawl (fun i => suppliesPage (w i) (regs i)) limit count reverse 0 [] pages) :
    (∀ k, (w 0).erc20s k = true →
      ∃ (j : Nat) (pg : List (Addr × Nat)), pages[j]? = some pg ∧ (k, supplyOf (w j) k) ∈ pg) ∧
    (pages.flatten.map Prod.fst).Nodup ∧
    (∀ (j : Nat) (pg : List (Addr × Nat)) (k : Addr) (n : Nat), pages[j]? = some pg → (k, n) ∈ pg →
      (w j).erc20s k = true ∧ n = supplyOf (w j) k) := by
  have hstay : ∀ (u v : World), Reach c true u v → ∀ k, u.erc20s k = true → v.erc20s k = true := by
    intro u v huv k hk
    induction huv with
    | refl => exact hk
    | step _ _ _ hs ih => exact C29_stays c _ _ k hs ih
  have hall : ∀ i k, (w 0).erc20s k = true → (w i).erc20s k = true := by
    intro i k hk
    induction i with
    | zero => exact hk
    | succ i ih => exact hstay _ _ (hs i) k ih
  obtain ⟨g1, g2, g3⟩ := crawl_entries (fun i k => supplyOf (w i) k) regs hnd limit count reverse pages h
  refine ⟨fun k hk => g3 k fun i => (hr i k).mpr (hall i k hk), g1, ?_⟩
  intro j pg k n hj hk
  obtain ⟨e1, e2⟩ := g2 j pg k n hj hk
  exact ⟨(hr j k).mp e1, e2⟩

/-! ### Pages as the API shows them -/

/-- Coins in the order a valid list of coins has. -/
def DenomSorted (cs : Coins) : Prop := cs.Pairwise fun x y => slt y.1 x.1 = false

theorem slt_irrefl (x : Str) : slt x x = false := by
  induction x with
  | nil => rfl
  | cons a l ih => simp [slt, ih, Char.lt_irrefl]

theorem slt_trans {x y z : Str} (h1 : slt x y = true) (h2 : slt y z = true) : slt x z = true := by
  induction x generalizing y z with
  | nil =>
    cases z with
    | nil => cases y <;> simp [slt] at h2
    | cons c l => rfl
  | cons a xs ih =>
    cases y with
    | nil => simp [slt] at h1
    | cons b ys =>
      cases z with
      | nil => simp [slt] at h2
      | cons c zs =>
        simp only [slt, Bool.or_eq_true, decide_eq_true_eq, Bool.and_eq_true, beq_iff_eq] at *
        rcases h1 with h1 | ⟨rfl, h1⟩
        · rcases h2 with h2 | ⟨rfl, h2⟩
          · exact Or.inl (Char.lt_trans h1 h2)
          · exact Or.inl h1
        · rcases h2 with h2 | ⟨rfl, h2⟩
          · exact Or.inl h2
          · exact Or.inr ⟨rfl, ih h1 h2⟩

theorem slt_total (x y : Str) : x = y ∨ slt x y = true ∨ slt y x = true := by
  induction x generalizing y with
  | nil => cases y <;> simp [slt]
  | cons a xs ih =>
    cases y with
    | nil => simp [slt]
    | cons b ys =>
      simp only [slt, Bool.or_eq_true, decide_eq_true_eq, Bool.and_eq_true, beq_iff_eq, List.cons.injEq]
      by_cases h1 : a < b
      · exact Or.inr (Or.inl (Or.inl h1))
      · by_cases h2 : b < a
        · exact Or.inr (Or.inr (Or.inl h2))
        · have e : a = b := Char.le_antisymm (Char.not_lt.mp h2) (Char.not_lt.mp h1)
          subst e
          rcases ih ys with h | h | h
          · exact Or.inl ⟨rfl, h⟩
          · exact Or.inr (Or.inl (Or.inr ⟨rfl, h⟩))
          · exact Or.inr (Or.inr (Or.inr ⟨rfl, h⟩))

theorem slt_asymm {x y : Str} (h : slt x y = true) : slt y x = false := by
  cases hb : slt y x with
  | false => rfl
  | true =>
    have := slt_trans h hb
    rw [slt_irrefl] at this
    cases this

theorem slt_weak {x y z : Str} (h1 : slt y x = false) (h2 : slt z y = false) : slt z x = false := by
  cases hb : slt z x with
  | false => rfl
  | true =>
    rcases slt_total x y with e | e | e
    · rw [e, h2] at hb; cases hb
    · rw [slt_trans hb e] at h2; cases h2
    · rw [h1] at e; cases e

theorem placeCoin_sorted (k : Str × Nat) (l : Coins) (h : DenomSorted l) :
    DenomSorted (place (fun x y => slt x.1 y.1) k l) := by
  induction l with
  | nil => exact List.pairwise_singleton _ _
  | cons x rest ih =>
    have hx := List.pairwise_cons.mp h
    simp only [place]
    split
    · rename_i hlt
      refine List.pairwise_cons.mpr ⟨?_, ih hx.2⟩
      intro y hy
      rcases List.mem_cons.mp ((place_perm _ k rest).mem_iff.mp hy) with rfl | hy
      · exact slt_asymm hlt
      · exact hx.1 y hy
    · rename_i hlt
      have hlt' : slt x.1 k.1 = false := by simpa using hlt
      refine List.pairwise_cons.mpr ⟨?_, h⟩
      intro y hy
      rcases List.mem_cons.mp hy with rfl | hy
      · exact hlt'
      · exact slt_weak hlt' (hx.1 y hy)

theorem sortCoins_sorted (cs : Coins) : DenomSorted (sortCoins cs) := by
  induction cs with
  | nil => exact .nil
  | cons x rest ih => exact placeCoin_sorted x _ ih

/-- A crawl through a listing whose pages are renamed and reordered is the same crawl, page by page. -/
theorem crawl_pages {α β : Type} (g : Res α → Res β) (hg : ∀ r, (g r).next = r.next)
    (perm : List α → List β) (hp : ∀ r, (g r).items.Perm (perm r.items)) (ask : Nat → Req → Option (Res α))
    (limit : Nat → Nat) (count reverse : Bool) (i : Nat) (key : Bytes) (pages : List (List β))
    (h : Crawl (fun i q => (ask i q).map g) limit count reverse i key pages) :
    ∃ raw : List (List α), Crawl ask limit count reverse i key raw ∧
      raw.length = pages.length ∧ pages.flatten.Perm (raw.map perm).flatten := by
  induction h with
  | last i key r h hn =>
    obtain ⟨r0, h0, rfl⟩ := Option.map_eq_some_iff.mp h
    refine ⟨[r0.items], .last i key r0 h0 (by rw [← hg]; exact hn), rfl, ?_⟩
    simpa using hp r0
  | more i key r pages h hn _ ih =>
    obtain ⟨r0, h0, rfl⟩ := Option.map_eq_some_iff.mp h
    obtain ⟨raw, e1, e2, e3⟩ := ih
    rw [hg] at hn e1
    refine ⟨r0.items :: raw, .more i key r0 raw h0 hn e1, by simp [e2], ?_⟩
    simp only [List.map_cons, List.flatten_cons]
    exact (hp r0).append e3

/-- **C95 (one page of balances).** The page of coins shows exactly the entries of the page, under the tokens' denoms, in
the order of the denoms, with the same next key and count. -/
theorem C95_page (mask : Str → List Bool) (w : World) (a : Addr) (q : Req) :
    (holdingsPage w a q = none ∧ balancesPage mask w a q = none) ∨
    ∃ r r', holdingsPage w a q = some r ∧ balancesPage mask w a q = some r' ∧ r'.next = r.next ∧ r'.total = r.total ∧
      r'.items.Perm (r.items.map fun x => (contractToDenom mask w.maps x.1, x.2)) ∧ DenomSorted r'.items := by
  unfold balancesPage
  cases holdingsPage w a q with
  | none => exact Or.inl ⟨rfl, rfl⟩
  | some r => exact Or.inr ⟨r, _, rfl, rfl, rfl, rfl, inOrder_perm _ _, sortCoins_sorted _⟩

/-- **C95 (one page of supplies).** Likewise for a page of total supplies. -/
theorem C95_supply_page (mask : Str → List Bool) (w : World) (regs : List Addr) (q : Req) :
    (suppliesPage w regs q = none ∧ supplyPage mask w regs q = none) ∨
    ∃ r r', suppliesPage w regs q = some r ∧ supplyPage mask w regs q = some r' ∧ r'.next = r.next ∧ r'.total = r.total ∧
      r'.items.Perm (r.items.map fun x => (contractToDenom mask w.maps x.1, x.2)) ∧ DenomSorted r'.items := by
  unfold supplyPage
  cases suppliesPage w regs q with
  | none => exact Or.inl ⟨rfl, rfl⟩
  | some r => exact Or.inr ⟨r, _, rfl, rfl, rfl, rfl, inOrder_perm _ _, sortCoins_sorted _⟩

/-- The crawl of a store that does not change: everything, once. -/
theorem crawl_fixed {α : Type} (f : Bytes → α) (keys : List Bytes) (limit : Nat → Nat) (count r : Bool)
    (hs : Sorted false keys) (hne : ∀ k ∈ keys, k ≠ []) (pages : List (List α))
    (h : Crawl (fun _ => page f keys) limit count r 0 [] pages) : pages.flatten.Perm (keys.map f) := by
  obtain ⟨kss, e1, e2, e3, e4, e5⟩ := crawl_keys (fun _ => f) (fun _ => keys) limit count r (fun _ => hs)
    (fun _ k hk => hne k hk) 0 [] pages h
  have hf : pages.flatten = kss.flatten.map f := by
    rw [e1]
    generalize 0 = m
    clear e1 e2 e3 e4 e5
    induction kss generalizing m with
    | nil => rfl
    | cons ks rest ih =>
      simp only [List.zipIdx_cons, List.map_cons, List.flatten_cons, List.map_append]
      rw [ih (m + 1)]
  rw [hf]
  refine List.Perm.map f ?_
  rw [List.perm_ext_iff_of_nodup e3.nodup hs.nodup]
  intro k
  refine ⟨?_, fun hk => e5 k (Or.inl rfl) (fun _ _ => hk)⟩
  intro hk
  obtain ⟨ks, hks, hk⟩ := List.mem_flatten.mp hk
  obtain ⟨j, hj⟩ := List.mem_iff_getElem?.mp hks
  exact e2 (ks, j) (List.mem_iff_getElem?.mpr ⟨j, by rw [List.getElem?_zipIdx, hj]; simp⟩) k hk

theorem storeKeys_perm (l : List Addr) : (storeKeys l).Perm (l.map Addr.bytes) := inOrder_perm _ _

/-- **C95 (balances of one state).** At one state, the pages together list the coins of the account: the non-zero ones among
them are exactly the coins the account holds, each once, whatever the limits. -/
theorem C95_whole (c : Chain) (mask : Str → List Bool) (s : State) (h0 : Reach c true World.init s.w) (a : Addr)
    (limit : Nat → Nat) (count reverse : Bool) (pages : List (List (Str × Nat)))
    (h : Crawl (fun _ => balancesPage mask s.w a) limit count reverse 0 [] pages) :
    pages.flatten.Perm (allBalances mask s a) ∧
    (pages.flatten.filter fun x => x.2 ≠ 0).Perm (accountCoins mask s a) := by
  have hnd : (s.w.stores a).Nodup := stores_nodup h0 a
  obtain ⟨raw, e1, _, e3⟩ := crawl_pages (α := Addr × Nat)
    (fun r => { items := sortCoins (r.items.map fun x => (contractToDenom mask s.w.maps x.1, x.2)),
                next := r.next, total := r.total }) (fun _ => rfl)
    (fun l => l.map fun x : Addr × Nat => (contractToDenom mask s.w.maps x.1, x.2)) (fun r => inOrder_perm _ _)
    (fun _ => holdingsPage s.w a) limit count reverse 0 [] pages h
  have e4 := crawl_fixed _ _ limit count reverse (storeKeys_sorted hnd) (fun k hk => storeKeys_ne hk) raw e1
  have hp : pages.flatten.Perm (allBalances mask s a) := by
    refine e3.trans ?_
    rw [← List.map_flatten]
    refine (e4.map _).trans ?_
    rw [List.map_map]
    refine ((storeKeys_perm _).map _).trans ?_
    rw [List.map_map]
    unfold allBalances
    refine List.Perm.of_eq (List.map_congr_left ?_)
    intro k _
    simp [bytesToAddress_bytes]
  refine ⟨hp, ?_⟩
  rw [← Verif.Props.BankGenesis.C67_balances_partial]
  exact hp.filter _

/-- From any key on, a crawl of a store that does not change ends. -/
theorem crawl_ends {α : Type} (f : Bytes → α) (keys : List Bytes) (limit : Nat → Nat) (count r : Bool)
    (hs : Sorted false keys) (n i : Nat) (key : Bytes)
    (hn : (fromKey r (if r then keys.reverse else keys) key).length ≤ n) :
    ∃ pages, Crawl (fun _ => page f keys) limit count r i key pages ∧ pages.length ≤ n + 1 := by
  have hord : Sorted r (if r then keys.reverse else keys) := by
    cases r
    · exact hs
    · exact hs.reversed
  induction n generalizing i key with
  | zero =>
    cases h : page f keys ⟨key, 0, limit i, count, r⟩ with
    | none => unfold page at h; simp only [Nat.lt_irrefl, if_false, Nat.not_lt_zero] at h; split at h <;> cases h
    | some res =>
      obtain ⟨L, hL, _, h1, h2⟩ := page_form _ _ _ _ _ _ _ h
      have he : fromKey r (if r then keys.reverse else keys) key = [] := List.eq_nil_of_length_eq_zero (by omega)
      rw [he] at h2
      exact ⟨[res.items], .last i key res h (by simpa using h2), by simp⟩
  | succ n ih =>
    cases h : page f keys ⟨key, 0, limit i, count, r⟩ with
    | none => unfold page at h; simp only [Nat.lt_irrefl, if_false, Nat.not_lt_zero] at h; split at h <;> cases h
    | some res =>
      by_cases hnx : res.next = []
      · exact ⟨[res.items], .last i key res h hnx, by simp⟩
      · obtain ⟨L, hL, _, h1, h2⟩ := page_form _ _ _ _ _ _ _ h
        have hsr := fromKey_sorted hord key
        have hle : (fromKey r (if r then keys.reverse else keys) res.next).length ≤ n := by
          cases hd : (fromKey r (if r then keys.reverse else keys) key).drop L with
          | nil => rw [hd] at h2; exact absurd h2 hnx
          | cons m l =>
            rw [hd] at h2
            simp only [List.head?_cons, Option.getD_some] at h2
            rw [h2] at hnx ⊢
            -- all keys from `m` on are among those from `key` on, and the first one of those is not
            have hm : m ∈ fromKey r (if r then keys.reverse else keys) key :=
              List.mem_of_mem_drop (hd ▸ List.mem_cons_self)
            have hmk := (mem_fromKey.mp hm).2
            have hsub : ∀ k, k ∈ fromKey r (if r then keys.reverse else keys) m →
                k ∈ fromKey r (if r then keys.reverse else keys) key := by
              intro k hk
              obtain ⟨g1, g2⟩ := mem_fromKey.mp hk
              rcases g2 with g2 | g2
              · exact absurd g2 hnx
              · refine mem_fromKey.mpr ⟨g1, ?_⟩
                rcases hmk with e | e
                · exact Or.inl e
                · right
                  cases hb : before r k key with
                  | false => rfl
                  | true =>
                    rcases before_total r m k with e' | e' | e'
                    · rw [e', hb] at e; cases e
                    · rw [before_trans e' hb] at e; cases e
                    · rw [g2] at e'; cases e'
            cases hfull : fromKey r (if r then keys.reverse else keys) key with
            | nil => rw [hfull] at hm; cases hm
            | cons x rest =>
              have hx : x ∉ fromKey r (if r then keys.reverse else keys) m := by
                intro hx
                rcases (mem_fromKey.mp hx).2 with e | e
                · exact hnx e
                · have hm' : m ∈ rest := by
                    rw [hfull] at hd
                    cases L with
                    | zero => cases hL
                    | succ L =>
                      rw [List.drop_succ_cons] at hd
                      exact List.mem_of_mem_drop (hd ▸ List.mem_cons_self)
                  rw [hfull] at hsr
                  rw [(List.pairwise_cons.mp hsr).1 m hm'] at e
                  cases e
              have hsub' : ∀ k, k ∈ fromKey r (if r then keys.reverse else keys) m → k ∈ rest := by
                intro k hk
                have := hsub k hk
                rw [hfull] at this
                rcases List.mem_cons.mp this with rfl | h
                · exact absurd hk hx
                · exact h
              have hnd := (fromKey_sorted hord m).nodup
              have := hnd.length_le_of_subset hsub'
              rw [hfull] at hn
              simp only [List.length_cons] at hn
              omega
        obtain ⟨pages, e1, e2⟩ := ih (i + 1) res.next hle
        exact ⟨res.items :: pages, .more i key res pages h hnx e1, by simp only [List.length_cons]; omega⟩

/-- **C95 (paging ends).** At one state a client reaches the last page, after at most as many pages as the account has
entries, and one more. -/
theorem C95_ends (c : Chain) (mask : Str → List Bool) (w : World) (h0 : Reach c true World.init w) (a : Addr)
    (limit : Nat → Nat) (count reverse : Bool) :
    ∃ pages, Crawl (fun _ => balancesPage mask w a) limit count reverse 0 [] pages ∧
      pages.length ≤ (w.stores a).length + 1 := by
  have hnd : (w.stores a).Nodup := stores_nodup h0 a
  have hlen : (storeKeys (w.stores a)).length = (w.stores a).length := by
    rw [(storeKeys_perm _).length_eq, List.length_map]
  obtain ⟨pages, e1, e2⟩ := crawl_ends (fun k => (bytesToAddress k, balanceOf w (bytesToAddress k) a))
    (storeKeys (w.stores a)) limit count reverse (storeKeys_sorted hnd) (w.stores a).length 0 [] (by
      cases reverse <;> simp [fromKey, hlen])
  clear hlen
  suffices h : ∀ i key pages, Crawl (fun _ => holdingsPage w a) limit count reverse i key pages →
      ∃ pages', Crawl (fun _ => balancesPage mask w a) limit count reverse i key pages' ∧
        pages'.length = pages.length by
    obtain ⟨pages', g1, g2⟩ := h 0 [] pages e1
    exact ⟨pages', g1, by omega⟩
  intro i key pages h
  induction h with
  | last i key r h hn =>
    exact ⟨[sortCoins (r.items.map fun x => (contractToDenom mask w.maps x.1, x.2))],
      .last (ask := fun _ => balancesPage mask w a) i key
        { items := sortCoins (r.items.map fun x => (contractToDenom mask w.maps x.1, x.2)), next := r.next,
          total := r.total } (by unfold balancesPage; rw [h]; rfl) hn, rfl⟩
  | more i key r pages h hn _ ih =>
    obtain ⟨pages', g1, g2⟩ := ih
    exact ⟨sortCoins (r.items.map fun x => (contractToDenom mask w.maps x.1, x.2)) :: pages',
      .more (ask := fun _ => balancesPage mask w a) i key
        { items := sortCoins (r.items.map fun x => (contractToDenom mask w.maps x.1, x.2)), next := r.next,
          total := r.total } pages' (by unfold balancesPage; rw [h]; rfl) hn g1, by simp [g2]⟩

/-! ### A small history -/

/-- What happens in the examples: alice deploys a token, it registers itself, she mints some, a holder sends some on. -/
inductive Act where
  | deploy (k : Addr)
  | register (k : Addr)
  | mint (k to : Addr) (n : Nat)
  | pay (k f to : Addr) (n : Nat)

def act (w : World) : Act → Option World
  | .deploy k => if w.tokens k = none then
      some { w with tokens := fun x => if x = k then some (false, Token.fresh alice) else w.tokens x } else none
  | .register k => register toyParams w k
  | .mint k to n => callToken toyChain w alice k (.mint to n)
  | .pay k f to n => callToken toyChain w f k (.transfer to n)

def acts : List Act → World → Option World
  | [], w => some w
  | x :: rest, w => (act w x).bind (acts rest)

theorem act_step {w w' : World} (x : Act) (h : act w x = some w') : Step toyChain true w w' := by
  cases x with
  | deploy k =>
    simp only [act] at h
    split at h
    · rename_i hn; cases h; exact .deploy k alice false hn
    · cases h
  | register k => exact .register toyParams k w' h (Or.inl rfl)
  | mint k to n => exact .call alice k _ w' h
  | pay k f to n => exact .call f k _ w' h

theorem acts_reach {l : List Act} {w w' : World} (h : acts l w = some w') : Reach toyChain true w w' := by
  induction l generalizing w with
  | nil => cases h; exact .refl
  | cons x rest ih =>
    obtain ⟨w1, h1, h2⟩ := Option.bind_eq_some_iff.mp h
    exact reach_trans (.step w w1 .refl (act_step x h1)) (ih h2)

def tokA : Addr := Addr.ofNat 10
def tokB : Addr := Addr.ofNat 11

/-- Two tokens, both held by bob. -/
def two : List Act := [.deploy tokA, .register tokA, .mint tokA bob 5, .deploy tokB, .register tokB, .mint tokB bob 7]

/-- The letter b is capitalised, other letters are not. -/
def capB : Str → List Bool := fun d => d.map fun c => c == 'b'

/-- The denoms of the two tokens. -/
def denA : Str := "evm/000000000000000000000000000000000000000a".toList
def denB : Str := "evm/000000000000000000000000000000000000000B".toList

/-- Facts about a world reached by acts, evaluated. -/
theorem reached {l : List Act} {β : Type} [DecidableEq β] (f : World → β) (b : β) (h : (acts l World.init).map f = some b) :
    ∃ w, Reach toyChain true World.init w ∧ f w = b := by
  obtain ⟨w, hw, hf⟩ := Option.map_eq_some_iff.mp h
  exact ⟨w, acts_reach hw, hf⟩

example : (acts two World.init).map (fun w => balancesPage capB w bob ⟨[], 0, 1, false, false⟩) =
    some (some ⟨[(denA, 5)], tokB.bytes, 0⟩) := by decide +kernel

/-- **C95 fails: the listing is not in order.** Each page is sorted by denom, but the pages follow the addresses of the
contracts; the concatenated pages are not a valid list of coins. -/
theorem C95_order_violated : ¬ ∀ (c : Chain) (mask : Str → List Bool) (w : World), Reach c true World.init w →
    ∀ (a : Addr) (limit : Nat → Nat) (pages : List (List (Str × Nat))),
    Crawl (fun _ => balancesPage mask w a) limit false false 0 [] pages → DenomSorted pages.flatten := by
  intro h
  obtain ⟨w, hr, hf⟩ := reached (l := two) (fun w => (balancesPage capB w bob ⟨[], 0, 1, false, false⟩,
    balancesPage capB w bob ⟨tokB.bytes, 0, 1, false, false⟩))
    (some ⟨[(denA, 5)], tokB.bytes, 0⟩, some ⟨[(denB, 7)], [], 0⟩) (by decide +kernel)
  rw [Prod.mk.injEq] at hf
  have hc : Crawl (fun _ => balancesPage capB w bob) (fun _ => 1) false false 0 [] [[(denA, 5)], [(denB, 7)]] :=
    .more 0 [] ⟨[(denA, 5)], tokB.bytes, 0⟩ [[(denB, 7)]] hf.1 (by decide) (.last 1 _ ⟨[(denB, 7)], [], 0⟩ hf.2 rfl)
  have := h toyChain capB w hr bob _ _ hc
  revert this
  unfold DenomSorted
  decide +kernel

/-- **C95 fails: pages of nothing.** A page of balances can consist of zero amounts only, with the coins the account does
hold on later pages: here bob spent all of one token, and his first page shows only it. -/
theorem C95_zero_violated : ¬ ∀ (c : Chain) (mask : Str → List Bool) (w : World), Reach c true World.init w →
    ∀ (a : Addr) (limit : Nat) (r : Res (Str × Nat)), balancesPage mask w a ⟨[], 0, limit, false, false⟩ = some r →
    r.next ≠ [] → ∃ x ∈ r.items, x.2 ≠ 0 := by
  intro h
  obtain ⟨w, hr, hf⟩ := reached (l := two ++ [.pay tokA bob alice 5])
    (fun w => balancesPage capB w bob ⟨[], 0, 1, false, false⟩)
    (some ⟨[(denA, 0)], tokB.bytes, 0⟩) (by decide +kernel)
  obtain ⟨x, hx, hn⟩ := h toyChain capB w hr bob 1 _ hf (by decide)
  simp only [List.mem_singleton] at hx
  subst hx
  exact hn rfl

/-- **C95 fails: zero supplies are listed**, although the listing is documented as ignoring zero coins. -/
theorem C95_supply_violated : ¬ ∀ (c : Chain) (mask : Str → List Bool) (w : World) (regs : List Addr),
    Reach c true World.init w → (∀ k ∈ regs, w.erc20s k = true) →
    ∀ (q : Req) (r : Res (Str × Nat)), supplyPage mask w regs q = some r → ∀ x ∈ r.items, x.2 ≠ 0 := by
  intro h
  obtain ⟨w, hr, hf⟩ := reached (l := [.deploy tokA, .register tokA])
    (fun w => (w.erc20s tokA, supplyPage capB w [tokA] ⟨[], 0, 10, false, false⟩))
    (true, some ⟨[(denA, 0)], [], 0⟩) (by decide +kernel)
  rw [Prod.mk.injEq] at hf
  exact h toyChain capB w [tokA] hr (by simpa using hf.1) _ _ hf.2 (denA, 0) (by simp) rfl

/-- **C95 fails for paging by offset.** A client that counts on instead of following the next keys can see a token twice
when the account receives a new one between its requests. -/
theorem C95_offset_violated : ¬ ∀ (c : Chain) (w w' : World), Reach c true World.init w → Reach c true w w' →
    ∀ (a : Addr) (limit : Nat) (r r' : Res (Addr × Nat)), holdingsPage w a ⟨[], 0, limit, true, false⟩ = some r →
    holdingsPage w' a ⟨[], limit, limit, true, false⟩ = some r' → ((r.items ++ r'.items).map Prod.fst).Nodup := by
  intro h
  have e : ((acts [.deploy tokB, .register tokB, .mint tokB bob 7] World.init).bind fun w =>
      (acts [.deploy tokA, .register tokA, .mint tokA bob 5] w).map fun w' =>
        ((holdingsPage w bob ⟨[], 0, 1, true, false⟩).map Res.items,
         (holdingsPage w' bob ⟨[], 1, 1, true, false⟩).map Res.items)) =
      some (some [(tokB, 7)], some [(tokB, 7)]) := by decide +kernel
  obtain ⟨w, hw, h2⟩ := Option.bind_eq_some_iff.mp e
  obtain ⟨w', hw', h3⟩ := Option.map_eq_some_iff.mp h2
  rw [Prod.mk.injEq] at h3
  obtain ⟨r, hr, e1⟩ := Option.map_eq_some_iff.mp h3.1
  obtain ⟨r', hr', e2⟩ := Option.map_eq_some_iff.mp h3.2
  have := h toyChain w w' (acts_reach hw) (acts_reach hw') bob 1 r r' hr hr'
  rw [e1, e2] at this
  revert this
  decide +kernel

/-- **C95 (count).** The count a client can ask for is the number of entries all pages together have. -/
theorem C95_total (c : Chain) (mask : Str → List Bool) (w : World) (h0 : Reach c true World.init w) (a : Addr)
    (limit : Nat) (reverse : Bool) (r : Res (Str × Nat))
    (h : balancesPage mask w a ⟨[], 0, limit, true, reverse⟩ = some r) (limits : Nat → Nat) (count : Bool)
    (pages : List (List (Str × Nat))) (hc : Crawl (fun _ => balancesPage mask w a) limits count reverse 0 [] pages) :
    r.total = pages.flatten.length := by
  obtain ⟨hp, _⟩ := C95_whole c mask { Verif.Props.Bank.toyState with w := w } h0 a limits count reverse pages hc
  rw [hp.length_eq]
  obtain ⟨r0, h1, rfl⟩ := Option.map_eq_some_iff.mp h
  simp only [holdingsPage, page, ne_eq, not_true_eq_false, if_false, Nat.not_lt_zero, Bool.true_or, if_true,
    Option.some.injEq] at h1
  subst h1
  simp only [allBalances, List.length_map]
  rw [(storeKeys_perm _).length_eq, List.length_map]

example : (acts two World.init).map (fun w => (balancesPage capB w bob ⟨[], 0, 1, true, true⟩).map Res.total) =
    some (some 2) := by decide +kernel

/-- The hypotheses of `C95_balances` are met: bob holds a token when a client starts, receives another between the two
requests, and the client, in descending order, sees both. -/
example : ∃ (w : Nat → World) (pages : List (List (Addr × Nat))), Reach toyChain false World.init (w 0) ∧
    (∀ i, Reach toyChain false (w i) (w (i + 1))) ∧ Crawl (fun i => holdingsPage (w i) bob) (fun _ => 1) false true 0 [] pages ∧
    pages = [[(tokB, 7)], [(tokA, 9)]] := by
  -- both tokens exist and are registered before anybody holds them
  have e0 : ((acts [.deploy tokA, .register tokA, .deploy tokB, .register tokB] World.init).bind fun w =>
      (acts [.mint tokA bob 5, .mint tokB bob 7] w).bind fun w1 => (acts [.mint tokA bob 4] w1).map fun w2 =>
        (holdingsPage w1 bob ⟨[], 0, 1, false, true⟩, holdingsPage w2 bob ⟨tokA.bytes, 0, 1, false, true⟩)) =
      some (some ⟨[(tokB, 7)], tokA.bytes, 0⟩, some ⟨[(tokA, 9)], [], 0⟩) := by decide +kernel
  obtain ⟨w, hw, h2⟩ := Option.bind_eq_some_iff.mp e0
  obtain ⟨w1, hw1, h3⟩ := Option.bind_eq_some_iff.mp h2
  obtain ⟨w2, hw2, h4⟩ := Option.map_eq_some_iff.mp h3
  rw [Prod.mk.injEq] at h4
  obtain ⟨hr1, hr2⟩ := h4
  -- the steps, with early registration
  have call : ∀ {u u' : World} {k : Addr} {n : Nat}, act u (.mint k bob n) = some u' → Reach toyChain false u u' :=
    fun h => .step _ _ .refl (.call alice _ _ _ h)
  have r01 : Reach toyChain false World.init w := by
    obtain ⟨a1, g1, hw⟩ := Option.bind_eq_some_iff.mp hw
    obtain ⟨a2, g2, hw⟩ := Option.bind_eq_some_iff.mp hw
    obtain ⟨a3, g3, hw⟩ := Option.bind_eq_some_iff.mp hw
    obtain ⟨a4, g4, hw⟩ := Option.bind_eq_some_iff.mp hw
    cases hw
    have s1 : a1 = { World.init with
        tokens := fun x => if x = tokA then some (false, Token.fresh alice) else World.init.tokens x } := by
      simp only [act, World.init, if_true, Option.some.injEq] at g1
      exact g1.symm
    have z1 : ∀ x, balanceOf a1 tokA x = 0 := by intro x; subst s1; simp [balanceOf, Token.fresh]
    have t2 : a2.tokens tokB = none ∧ a2.tokens = a1.tokens := by
      obtain ⟨_, ⟨_, rfl⟩ | ⟨_, _, rfl⟩⟩ := register_form g2
      · subst s1; exact ⟨by decide, rfl⟩
      · subst s1; exact ⟨by decide, rfl⟩
    have s3 : a3 = { a2 with
        tokens := fun x => if x = tokB then some (false, Token.fresh alice) else a2.tokens x } := by
      simp only [act, t2.1, if_true, Option.some.injEq] at g3
      exact g3.symm
    have z3 : ∀ x, balanceOf a3 tokB x = 0 := by intro x; subst s3; simp [balanceOf, Token.fresh]
    refine .step a3 _ (.step a2 _ (.step a1 _ (.step _ _ .refl ?_) (.register toyParams tokA a2 g2 (Or.inr z1))) ?_)
      (.register toyParams tokB w g4 (Or.inr z3))
    · subst s1; exact .deploy tokA alice false rfl
    · subst s3; exact .deploy tokB alice false t2.1
  have r11 : Reach toyChain false w w1 := by
    obtain ⟨a1, g1, hw1⟩ := Option.bind_eq_some_iff.mp hw1
    obtain ⟨a2, g2, hw1⟩ := Option.bind_eq_some_iff.mp hw1
    cases hw1
    exact reach_trans (call g1) (call g2)
  have r12 : Reach toyChain false w1 w2 := by
    obtain ⟨a1, g1, hw2⟩ := Option.bind_eq_some_iff.mp hw2
    cases hw2
    exact call g1
  refine ⟨fun i => if i = 0 then w1 else w2, [[(tokB, 7)], [(tokA, 9)]], reach_trans r01 r11, ?_, ?_, rfl⟩
  · intro i
    cases i with
    | zero => exact r12
    | succ i => exact .refl
  · exact Crawl.more (ask := fun i => holdingsPage ((fun i => if i = 0 then w1 else w2) i) bob) (limit := fun _ => 1)
      (count := false) (reverse := true) 0 [] ⟨[(tokB, 7)], tokA.bytes, 0⟩ _ hr1 (by decide)
      (Crawl.last 1 tokA.bytes ⟨[(tokA, 9)], [], 0⟩ hr2 rfl)

end Verif.Paging
