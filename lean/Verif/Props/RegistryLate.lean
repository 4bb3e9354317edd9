import Verif.Props.Registry
/-
C28 without the restriction that contracts register before anybody holds them: which holdings are missing from
listings, and how they come back.
-/
namespace Verif.Props.Registry
open Verif Verif.Text Verif.Denom Verif.Tokens Verif.Spec.Tokens Verif.Spec.Ledger Verif.Props.Tokens
  Verif.Props.Ledger

/-- What everything except a registration does to listings: entries stay, and whoever is not listed did not gain. -/
structure Grow (w w' : World) : Prop where
  stays : ∀ x k, k ∈ w.stores x → k ∈ w'.stores x
  reg : ∀ k, w.erc20s k = true → w'.erc20s k = true
  bound : ∀ k x, w.erc20s k = true → k ∉ w'.stores x → balanceOf w' k x ≤ balanceOf w k x
  fresh : ∀ k x, w.erc20s k = false → w'.erc20s k = true → k ∉ w'.stores x → balanceOf w' k x = 0
  listed : ∀ x k, k ∈ w'.stores x → k ∈ w.stores x ∨ w'.erc20s k = true
  once : (∀ x, (w.stores x).Nodup) → ∀ x, (w'.stores x).Nodup

theorem Grow.refl (w : World) : Grow w w :=
  ⟨fun _ _ h => h, fun _ h => h, fun _ _ _ _ => Nat.le_refl _, fun _ _ h h' => (by rw [h] at h'; cases h'),
    fun _ _ h => Or.inl h, fun h => h⟩

theorem Grow.trans {a b c : World} (h1 : Grow a b) (h2 : Grow b c) : Grow a c where
  stays := fun x k h => h2.stays x k (h1.stays x k h)
  reg := fun k h => h2.reg k (h1.reg k h)
  bound := fun k x h hn =>
    Nat.le_trans (h2.bound k x (h1.reg k h) hn) (h1.bound k x h (fun g => hn (h2.stays x k g)))
  fresh := fun k x h h' hn => by
    cases hb : b.erc20s k with
    | true =>
      have e1 := h1.fresh k x h hb (fun g => hn (h2.stays x k g))
      have e2 := h2.bound k x hb hn
      omega
    | false => exact h2.fresh k x hb h' hn
  listed := fun x k h => by
    rcases h2.listed x k h with g | g
    · rcases h1.listed x k g with g | g
      · exact Or.inl g
      · exact Or.inr (h2.reg k g)
    · exact Or.inr g
  once := fun h => h2.once (h1.once h)

theorem call_grow {c : Chain} {w w' : World} {caller k : Addr} {call : Call}
    (h : callToken c w caller k call = some w') : Grow w w' := by
  rcases callToken_form h with ⟨_, rfl⟩ | ⟨s, t, t', h1, h2, h3⟩
  · exact Grow.refl _
  · have key : ∀ w1 : World, w1.tokens = w.tokens → w1.erc20s = w.erc20s →
        (∀ x y, y ∈ w.stores x → y ∈ w1.stores x) →
        (∀ x y, y ∈ w1.stores x → y ∈ w.stores x ∨ w.erc20s y = true) →
        ((∀ x, (w.stores x).Nodup) → ∀ x, (w1.stores x).Nodup) →
        (∀ x, t.bal x < t'.bal x → w.erc20s k = true → k ∈ w1.stores x) →
        w' = { w1 with tokens := fun x => if x = k then some (s, t') else w1.tokens x } → Grow w w' := by
      intro w1 e1 e2 e3 e4 e5 e6 e7
      subst e7
      refine ⟨e3, ?_, ?_, ?_, ?_, e5⟩
      · intro k' hk; simp only [e2]; exact hk
      · intro k' x hk hn
        simp only [balanceOf]
        by_cases hkk : k' = k
        · subst hkk
          simp only [if_true, h1]
          by_cases hlt : t.bal x < t'.bal x
          · exact absurd (e6 x hlt hk) hn
          · omega
        · simp only [hkk, if_false, e1]; exact Nat.le_refl _
      · intro k' x hk hk' _
        simp only [e2, hk] at hk'; cases hk'
      · intro x y hy; simp only [e2]; exact e4 x y hy
    cases hr : regTarget call with
    | none =>
      rw [hr] at h3
      refine key w rfl rfl (fun _ _ h => h) (fun _ _ h => Or.inl h) (fun h => h) ?_ h3
      intro x hx _
      have := grows_target c s caller call t t' h2 x hx
      rw [hr] at this; cases this
    | some a =>
      rw [hr] at h3
      obtain ⟨g1, g2, g3, g4, g5, g6, g7, g8⟩ := registerStore_spec w a k
      refine key (registerStore w a k) g3 g2 g5 ?_ g8 ?_ h3
      · intro x y hy
        rcases g6 x y hy with h | ⟨_, rfl, h⟩
        · exact Or.inl h
        · exact Or.inr h
      · intro x hx he
        have := grows_target c s caller call t t' h2 x hx
        rw [hr] at this; cases this
        exact g7 he

theorem send_grow {c : Chain} {f r : Addr} {coins : Coins} {w w' : World}
    (h : sendCoins c f r coins w = some w') : Grow w w' := by
  induction coins generalizing w with
  | nil => simp only [sendCoins, Option.some.injEq] at h; subst h; exact Grow.refl _
  | cons x rest ih =>
    obtain ⟨d, amt⟩ := x
    simp only [sendCoins] at h
    split at h
    · cases h
    · split at h
      · cases h
      · rename_i w1 h1
        exact (call_grow h1).trans (ih h)

theorem burn_grow {c : Chain} {p : Params} {f : Addr} {all coins : Coins} {w w' : World}
    (h : burnCoins c p f all coins w = some w') : Grow w w' := by
  induction coins generalizing w with
  | nil => simp only [burnCoins, Option.some.injEq] at h; subst h; exact Grow.refl _
  | cons x rest ih =>
    obtain ⟨d, amt⟩ := x
    simp only [burnCoins] at h
    split at h
    · split at h
      · cases h
      · rename_i w1 h1
        exact (send_grow h1).trans (ih h)
    · split at h
      · cases h
      · split at h
        · cases h
        · rename_i w1 h1
          exact (call_grow h1).trans (ih h)

theorem fresh_grow (w : World) (a owner : Addr) (sudo reg : Bool) (m : Maps) (n : Nat) :
    Grow w { w with
      maps := m, factoryNonce := n
      tokens := fun x => if x = a then some (sudo, Token.fresh owner) else w.tokens x
      erc20s := fun x => if x = a then (reg || w.erc20s a) else w.erc20s x } := by
  refine ⟨fun _ _ h => h, ?_, ?_, ?_, fun _ _ h => Or.inl h, fun h => h⟩
  · intro k hk
    simp only
    split
    · rename_i e; subst e; simp [hk]
    · exact hk
  · intro k x _ _
    simp only [balanceOf]
    by_cases hka : k = a
    · subst hka; simp [Token.fresh]
    · simp only [hka, if_false]; exact Nat.le_refl _
  · intro k x hk hk' _
    simp only [balanceOf] at hk' ⊢
    by_cases hka : k = a
    · subst hka; simp [Token.fresh]
    · simp only [hka, if_false, hk] at hk'; cases hk'

theorem ensure_grow {c : Chain} {p : Params} (w : World) (d : Str) : Grow w (ensure c p w d) := by
  unfold ensure
  split
  · exact Grow.refl _
  · exact fresh_grow w (p.deployed w.factoryNonce) c.chainAddr true true _ _

theorem mint_grow {c : Chain} {p : Params} {r : Addr} {coins : Coins} {w w' : World}
    (h : mintCoins c p r coins w = some w') : Grow w w' := by
  induction coins generalizing w with
  | nil => simp only [mintCoins, Option.some.injEq] at h; subst h; exact Grow.refl _
  | cons x rest ih =>
    obtain ⟨d, amt⟩ := x
    rw [mintCoins_cons] at h
    split at h
    · cases h
    · split at h
      · cases h
      · split at h
        · cases h
        · rename_i w2 h2
          exact (ensure_grow w d).trans ((call_grow h2).trans (ih h))

/-- One step: a registration of a contract until then unknown, or something that keeps listings as above. -/
theorem step_grow {c : Chain} {late : Bool} {w w' : World} (h : Step c late w w') :
    Grow w w' ∨ ∃ p k, register p w k = some w' ∧ w.erc20s k = false ∧
      w' = { w with erc20s := fun x => if x = k then true else w.erc20s x } := by
  cases h with
  | call caller k call w' h => exact Or.inl (call_grow h)
  | send f r coins w' h => exact Or.inl (send_grow h)
  | mint p r coins w' hp hcon hl h => exact Or.inl (mint_grow h)
  | burn p f all coins w' h => exact Or.inl (burn_grow h)
  | create p caller hf => exact Or.inl (fresh_grow w (p.deployed w.factoryNonce) caller true true _ _)
  | deploy a owner sudo hn =>
    have := fresh_grow w a owner sudo false w.maps w.factoryNonce
    have e : (fun x => if x = a then (false || w.erc20s a) else w.erc20s x) = w.erc20s := by
      funext x
      by_cases hx : x = a
      · subst hx; simp
      · simp [hx]
    rw [e] at this
    exact Or.inl this
  | register p k w' h hl =>
    obtain ⟨_, ⟨_, rfl⟩ | ⟨h1, _, h2⟩⟩ := register_form h
    · exact Or.inl (Grow.refl _)
    · exact Or.inr ⟨p, k, h, h1, h2⟩

theorem step_stays {c : Chain} {late : Bool} {w w' : World} (h : Step c late w w') (x k : Addr)
    (hk : k ∈ w.stores x) : k ∈ w'.stores x := by
  rcases step_grow h with g | ⟨_, _, _, _, rfl⟩
  · exact g.stays x k hk
  · exact hk

theorem reach_stays {c : Chain} {late : Bool} {w w' : World} (h : Reach c late w w') (x k : Addr)
    (hk : k ∈ w.stores x) : k ∈ w'.stores x := by
  induction h with
  | refl => exact hk
  | step w1 w2 _ hs ih => exact step_stays hs x k ih

/-- Entries of a listing are right, in every reachable state. -/
structure Tidy (w : World) : Prop where
  registered : ∀ x k, k ∈ w.stores x → w.erc20s k = true
  once : ∀ x, (w.stores x).Nodup

theorem step_tidy {c : Chain} {late : Bool} {w w' : World} (h : Step c late w w') (hw : Tidy w) : Tidy w' := by
  rcases step_grow h with g | ⟨_, k, _, _, rfl⟩
  · refine ⟨fun x k hk => ?_, g.once hw.once⟩
    rcases g.listed x k hk with h | h
    · exact g.reg k (hw.registered x k h)
    · exact h
  · refine ⟨fun x k' hk => ?_, hw.once⟩
    have := hw.registered x k' hk
    simp only
    split
    · rfl
    · exact this

theorem reach_tidy {c : Chain} {late : Bool} {w : World} (h : Reach c late World.init w) : Tidy w := by
  induction h with
  | refl => exact ⟨fun x k h => (by cases h), fun x => List.nodup_nil⟩
  | step w1 w2 _ hs ih => exact step_tidy hs ih

theorem mem_listing (w : World) (a k : Addr) (n : Nat) :
    (k, n) ∈ accountBalances w a ↔ k ∈ w.stores a ∧ balanceOf w k a = n ∧ n ≠ 0 := by
  simp only [accountBalances, List.mem_filterMap]
  constructor
  · rintro ⟨k', hk', h⟩
    split at h
    · cases h
    · rename_i hne
      simp only [Option.some.injEq, Prod.mk.injEq] at h
      obtain ⟨rfl, rfl⟩ := h
      exact ⟨hk', rfl, hne⟩
  · rintro ⟨h1, rfl, h3⟩
    exact ⟨k, h1, by simp [h3]⟩

/-- **C28 (no restriction): what is listed is right.** After any history, late registrations included, every entry of
an account's balance listing is a registered token with the amount the account holds, not zero, and no token appears
twice. -/
theorem C28_sound (c : Chain) (w : World) (h : Reach c true World.init w) (a : Addr) :
    (∀ k n, (k, n) ∈ accountBalances w a → w.erc20s k = true ∧ balanceOf w k a = n ∧ n ≠ 0) ∧
    ((accountBalances w a).map Prod.fst).Nodup := by
  have ht := reach_tidy h
  refine ⟨fun k n hk => ?_, ?_⟩
  · obtain ⟨h1, h2, h3⟩ := (mem_listing w a k n).mp hk
    exact ⟨ht.registered a k h1, h2, h3⟩
  · have hn := ht.once a
    have hs : ((accountBalances w a).map Prod.fst).Sublist (w.stores a) := by
      unfold accountBalances
      generalize w.stores a = l
      induction l with
      | nil => exact List.Sublist.refl _
      | cons k l ih =>
        rw [List.filterMap_cons]
        split
        · exact ih.cons _
        · rename_i b hb
          split at hb
          · cases hb
          · cases hb
            rw [List.map_cons]
            exact ih.cons₂ _
    exact hs.nodup hn

/-- **C28 (no restriction): what is missing.** If after any history an account holds a registered token that its listing
does not show, then the contract registered itself at some moment of the history when the account already held at least
that much — and nothing it received since: the amount has not grown from then on. -/
theorem C28_missing (c : Chain) (w : World) (h : Reach c true World.init w) (a k : Addr)
    (hk : w.erc20s k = true) (hb : balanceOf w k a ≠ 0)
    (hm : (k, balanceOf w k a) ∉ accountBalances w a) :
    ∃ w1 w2 p, Reach c true World.init w1 ∧ w1.erc20s k = false ∧ register p w1 k = some w2 ∧ w2.erc20s k = true ∧
      Reach c true w2 w ∧ balanceOf w k a ≤ balanceOf w1 k a ∧
      ∀ w3, Reach c true w2 w3 → Reach c true w3 w → balanceOf w k a ≤ balanceOf w3 k a ∧ w3.erc20s k = true := by
  have hn : k ∉ w.stores a := fun g => hm ((mem_listing w a k _).mpr ⟨g, rfl, hb⟩)
  -- along any later history: an unlisted account's balance of a registered token does not grow
  have after : ∀ {u v : World}, Reach c true u v → u.erc20s k = true → k ∉ v.stores a →
      balanceOf v k a ≤ balanceOf u k a ∧ v.erc20s k = true := by
    intro u v huv hu
    induction huv with
    | refl => intro _; exact ⟨Nat.le_refl _, hu⟩
    | step v1 v2 _ hs ih =>
      intro hv
      obtain ⟨i1, i2⟩ := ih (fun g => hv (step_stays hs a k g))
      rcases step_grow hs with g | ⟨_, k', _, _, rfl⟩
      · exact ⟨Nat.le_trans (g.bound k a i2 hv) i1, g.reg k i2⟩
      · refine ⟨i1, ?_⟩
        simp only
        split
        · rfl
        · exact i2
  clear hm
  induction h with
  | refl => cases hk
  | step v1 v2 hr hs ih =>
    cases hv : v1.erc20s k with
    | true =>
      have hn1 : k ∉ v1.stores a := fun g => hn (step_stays hs a k g)
      have hle := (after (.step v1 v2 .refl hs) hv hn).1
      obtain ⟨w1, w2, p, g1, g2, g3, g4, g5, g6, _⟩ := ih hv (by omega) hn1
      refine ⟨w1, w2, p, g1, g2, g3, g4, .step v1 v2 g5 hs, Nat.le_trans hle g6, fun w3 h3 h4 => ?_⟩
      have e1 := after h3 g4 (fun g => hn (reach_stays h4 a k g))
      exact ⟨(after h4 e1.2 hn).1, e1.2⟩
    | false =>
      rcases step_grow hs with g | ⟨p, k', g1, g2, g3⟩
      · exact absurd (g.fresh k a hv hk hn) hb
      · have hkk : k' = k := by
          rw [g3] at hk
          simp only at hk
          split at hk
          · rename_i e; exact e.symm
          · rw [hv] at hk; cases hk
        subst hkk
        have hbal : balanceOf v2 k' a = balanceOf v1 k' a := by rw [g3]; rfl
        refine ⟨v1, v2, p, hr, hv, g1, hk, .refl, by rw [hbal]; exact Nat.le_refl _, fun w3 h3 h4 => ?_⟩
        have e1 := after h3 hk (fun g => hn (reach_stays h4 a k' g))
        exact ⟨(after h4 e1.2 hn).1, e1.2⟩

/-- **C28 (no restriction): how it comes back.** From the moment a registered token is sent or minted to an account by
any call, even an amount of zero, its holding is listed, in every later state. -/
theorem C28_heals (c : Chain) (w w' : World) (caller k a : Addr) (call : Call) (hr : regTarget call = some a)
    (hk : w.erc20s k = true) (hc : (w.tokens k).isSome) (h : callToken c w caller k call = some w')
    (w2 : World) (h2 : Reach c true w' w2) (hb : balanceOf w2 k a ≠ 0) :
    (k, balanceOf w2 k a) ∈ accountBalances w2 a := by
  refine (mem_listing w2 a k _).mpr ⟨reach_stays h2 a k ?_, rfl, hb⟩
  rcases callToken_form h with ⟨hn, _⟩ | ⟨s, t, t', h1, _, h3⟩
  · rw [hn] at hc; cases hc
  · rw [hr] at h3
    rw [h3]
    exact (registerStore_spec w a k).2.2.2.2.2.2.1 hk

/-- instance: bob's 42, held when the contract registered, are not listed; after alice sends him nothing they are -/
example : (((callToken toyChain w1 alice custom (.mint bob 42)).bind fun w => register toyParams w custom).map
      fun w => accountBalances w bob) = some [] ∧
    (((callToken toyChain w1 alice custom (.mint bob 42)).bind fun w => (register toyParams w custom).bind fun w =>
      callToken toyChain w alice custom (.transfer bob 0)).map fun w => accountBalances w bob) = some [(custom, 42)] := by
  decide +kernel

end Verif.Props.Registry
