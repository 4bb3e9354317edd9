import Verif.Props.Ledger
/-
The ERC20 registry: C28 (balance listings are complete) and C29 (who enters the registry).
-/
namespace Verif.Props.Registry
open Verif Verif.Text Verif.Denom Verif.Tokens Verif.Spec.Tokens Verif.Spec.Ledger Verif.Props.Tokens
  Verif.Props.Ledger

/-- One thing that happens on the chain. `late = false` adds the requirement that a contract registers itself before
anybody holds its tokens (as the chain's own contracts do, in the constructor). Parameters may differ from step to
step. -/
inductive Step (c : Chain) (late : Bool) (w : World) : World → Prop where
  /-- any caller calls any token contract -/
  | call (caller k : Addr) (call : Call) (w' : World) (h : callToken c w caller k call = some w') : Step c late w w'
  /-- bank send -/
  | send (f r : Addr) (coins : Coins) (w' : World) (h : sendCoins c f r coins w = some w') : Step c late w w'
  /-- bank mint; factory addresses do not collide and are not taken -/
  | mint (p : Params) (r : Addr) (coins : Coins) (w' : World) (hp : NoCollision p) (hw : Consistent p w)
      (hl : w.factoryNonce + coins.length < 2 ^ 64) (h : mintCoins c p r coins w = some w') : Step c late w w'
  /-- bank burn -/
  | burn (p : Params) (f : Addr) (all coins : Coins) (w' : World) (h : burnCoins c p f all coins w = some w') :
      Step c late w w'
  /-- somebody asks the factory for a token -/
  | create (p : Params) (caller : Addr) (hf : w.tokens (p.deployed w.factoryNonce) = none) :
      Step c late w (factoryCreate p w caller).1
  /-- somebody deploys an ERC20 contract -/
  | deploy (a owner : Addr) (sudo : Bool) (h : w.tokens a = none) :
      Step c late w { w with tokens := fun x => if x = a then some (sudo, Token.fresh owner) else w.tokens x }
  /-- a contract registers itself -/
  | register (p : Params) (k : Addr) (w' : World) (h : register p w k = some w')
      (hl : late = true ∨ ∀ x, balanceOf w k x = 0) : Step c late w w'

/-- Histories. -/
inductive Reach (c : Chain) (late : Bool) (w0 : World) : World → Prop where
  | refl : Reach c late w0 w0
  | step (w w' : World) : Reach c late w0 w → Step c late w w' → Reach c late w0 w'

/-- The chain before any token exists. -/
def World.init : World := ⟨Maps.empty, fun _ => none, fun _ => false, fun _ => [], 0⟩

/-- The registry is complete and clean. -/
structure Complete (w : World) : Prop where
  holders : ∀ k x, w.erc20s k = true → balanceOf w k x ≠ 0 → k ∈ w.stores x
  registered : ∀ x k, k ∈ w.stores x → w.erc20s k = true
  once : ∀ x, (w.stores x).Nodup

/-! ### Invariance -/

theorem registerStore_spec (w : World) (a k : Addr) :
    (registerStore w a k).maps = w.maps ∧ (registerStore w a k).erc20s = w.erc20s ∧
    (registerStore w a k).tokens = w.tokens ∧ (registerStore w a k).factoryNonce = w.factoryNonce ∧
    (∀ x y, y ∈ w.stores x → y ∈ (registerStore w a k).stores x) ∧
    (∀ x y, y ∈ (registerStore w a k).stores x → y ∈ w.stores x ∨ (x = a ∧ y = k ∧ w.erc20s k = true)) ∧
    (w.erc20s k = true → k ∈ (registerStore w a k).stores a) ∧
    ((∀ x, (w.stores x).Nodup) → ∀ x, ((registerStore w a k).stores x).Nodup) := by
  unfold registerStore
  by_cases he : w.erc20s k = true
  · rw [if_pos he]
    by_cases hm : k ∈ w.stores a
    · rw [if_pos hm]
      exact ⟨rfl, rfl, rfl, rfl, fun _ _ h => h, fun _ _ h => Or.inl h, fun _ => hm, fun h => h⟩
    · rw [if_neg hm]
      refine ⟨rfl, rfl, rfl, rfl, ?_, ?_, ?_, ?_⟩
      · intro x y h
        simp only
        by_cases hx : x = a
        · subst hx; simp [h]
        · simp [hx, h]
      · intro x y h
        simp only at h
        by_cases hx : x = a
        · subst hx
          simp only [if_true, List.mem_append, List.mem_singleton] at h
          rcases h with h | h
          · exact Or.inl h
          · exact Or.inr ⟨rfl, h, he⟩
        · simp only [hx, if_false] at h; exact Or.inl h
      · intro _; simp
      · intro h x
        simp only
        by_cases hx : x = a
        · subst hx
          simp only [if_true]
          rw [List.nodup_append]
          refine ⟨h x, by simp, ?_⟩
          intro y hy z hz
          simp only [List.mem_singleton] at hz
          subst hz
          intro e; subst e; exact hm hy
        · simp only [hx, if_false]; exact h x
  · rw [if_neg he]
    exact ⟨rfl, rfl, rfl, rfl, fun _ _ h => h, fun _ _ h => Or.inl h, fun h => absurd h he, fun h => h⟩

/-- Only the account the call registers can see its balance grow. -/
theorem grows_target (c : Chain) (s : Bool) (caller : Addr) (call : Call) (t t' : Token)
    (h : exec c s caller call t = some t') (x : Addr) (hx : t.bal x < t'.bal x) : regTarget call = some x := by
  have tr : ∀ (u u' : Token) (s r : Addr) (amt : Nat), doTransfer u s r amt = some u' → u.bal x < u'.bal x →
      x = r := by
    intro u u' s r amt hh hd
    have := (doTransfer_spec hh).2.2.2.2.1 x
    by_cases g : x = r
    · exact g
    · simp only [g, if_false] at this
      split at this <;> omega
  have bu : ∀ (u u' : Token) (f : Addr) (amt : Nat), doBurn u f amt = some u' → ¬ u.bal x < u'.bal x := by
    intro u u' f amt hh hd
    obtain ⟨h1, _, _, _, _, h3⟩ := doBurn_spec hh
    rw [h3] at hd
    by_cases g : x = f
    · subst g; simp [setB] at hd; omega
    · simp [setB, g] at hd
  have mi : ∀ (u u' : Token) (f : Addr) (amt : Nat), doMint u f amt = some u' → u.bal x < u'.bal x → x = f := by
    intro u u' f amt hh hd
    obtain ⟨_, _, _, _, h3⟩ := doMint_spec hh
    rw [h3] at hd
    by_cases g : x = f
    · exact g
    · simp [setB, g] at hd
  cases call with
  | transfer to amt =>
    simp only [exec] at h; split at h
    · cases h
    · rw [tr _ _ _ _ _ h hx]; rfl
  | approve s amt => simp only [exec, Option.some.injEq] at h; subst h; exact absurd hx (Nat.lt_irrefl _)
  | transferFrom s r amt =>
    simp only [exec] at h; split at h
    · cases h
    · split at h
      · cases h
      · rename_i t1 h1
        obtain ⟨_, e⟩ := spend_spec h1
        subst e
        rw [tr _ _ _ _ _ h hx]; rfl
  | mint to amt =>
    simp only [exec] at h; split at h
    · cases h
    · split at h
      · cases h
      · rw [mi _ _ _ _ h hx]; rfl
  | burn amt =>
    simp only [exec] at h; split at h
    · cases h
    · exact absurd hx (bu _ _ _ _ h)
  | burnFrom f amt =>
    simp only [exec] at h; split at h
    · cases h
    · split at h
      · cases h
      · rename_i t1 h1
        obtain ⟨_, e⟩ := spend_spec h1
        subst e
        have hn := bu _ _ _ _ h
        exact absurd hx hn
  | sudoTransfer s r amt =>
    simp only [exec] at h; split at h
    · cases h
    · rw [tr _ _ _ _ _ h hx]; rfl
  | sudoMint to amt =>
    simp only [exec] at h; split at h
    · cases h
    · rw [mi _ _ _ _ h hx]; rfl
  | sudoBurn f amt =>
    simp only [exec] at h; split at h
    · cases h
    · exact absurd hx (bu _ _ _ _ h)
  | transferOwnership n =>
    simp only [exec] at h; split at h
    · cases h
    · split at h
      · cases h
      · cases h; exact absurd hx (Nat.lt_irrefl _)

/-- The state after a call, spelled out. -/
theorem callToken_form {c : Chain} {w w' : World} {caller k : Addr} {call : Call}
    (h : callToken c w caller k call = some w') :
    (w.tokens k = none ∧ w' = w) ∨ ∃ s t t', w.tokens k = some (s, t) ∧ exec c s caller call t = some t' ∧
      w' = { (match regTarget call with
        | some a => registerStore w a k
        | none => w) with
          tokens := fun x => if x = k then some (s, t') else
            (match regTarget call with
        | some a => registerStore w a k
        | none => w).tokens x } := by
  unfold callToken at h
  split at h
  · rename_i hn; cases h; exact Or.inl ⟨hn, rfl⟩
  · rename_i s t hs
    split at h
    · cases h
    · rename_i t' he
      simp only [Option.some.injEq] at h
      exact Or.inr ⟨s, t, t', hs, he, h.symm⟩

theorem call_complete {c : Chain} {w w' : World} {caller k : Addr} {call : Call} (hw : Complete w)
    (h : callToken c w caller k call = some w') : Complete w' := by
  rcases callToken_form h with ⟨_, rfl⟩ | ⟨s, t, t', h1, h2, h3⟩
  · exact hw
  · have key : ∀ w1 : World, w1.tokens = w.tokens → w1.erc20s = w.erc20s →
        (∀ x y, y ∈ w.stores x → y ∈ w1.stores x) →
        (∀ x y, y ∈ w1.stores x → w.erc20s y = true) → (∀ x, (w1.stores x).Nodup) →
        (∀ x, t.bal x < t'.bal x → w.erc20s k = true → k ∈ w1.stores x) →
        w' = { w1 with tokens := fun x => if x = k then some (s, t') else w1.tokens x } → Complete w' := by
      intro w1 e1 e2 e3 e4 e5 e6 e7
      subst e7
      refine ⟨?_, ?_, e5⟩
      · intro k' x hk hb
        simp only [e2] at hk
        simp only [balanceOf] at hb
        by_cases hkk : k' = k
        · subst hkk
          simp only [if_true] at hb
          by_cases hlt : t.bal x < t'.bal x
          · exact e6 x hlt hk
          · apply e3
            apply hw.holders k' x hk
            simp only [balanceOf, h1]
            omega
        · simp only [hkk, if_false, e1] at hb
          exact e3 _ _ (hw.holders k' x hk hb)
      · intro x y hy; simp only [e2]; exact e4 x y hy
    cases hr : regTarget call with
    | none =>
      rw [hr] at h3
      refine key w rfl rfl (fun _ _ h => h) hw.registered hw.once ?_ h3
      intro x hx _
      have := grows_target c s caller call t t' h2 x hx
      rw [hr] at this; cases this
    | some a =>
      rw [hr] at h3
      obtain ⟨g1, g2, g3, g4, g5, g6, g7, g8⟩ := registerStore_spec w a k
      refine key (registerStore w a k) g3 g2 g5 ?_ (g8 hw.once) ?_ h3
      · intro x y hy
        rcases g6 x y hy with h | ⟨_, rfl, h⟩
        · exact hw.registered x y h
        · exact h
      · intro x hx he
        have := grows_target c s caller call t t' h2 x hx
        rw [hr] at this; cases this
        exact g7 he

theorem send_complete {c : Chain} {f r : Addr} {coins : Coins} {w w' : World} (hw : Complete w)
    (h : sendCoins c f r coins w = some w') : Complete w' := by
  induction coins generalizing w with
  | nil => simp only [sendCoins, Option.some.injEq] at h; subst h; exact hw
  | cons x rest ih =>
    obtain ⟨d, amt⟩ := x
    simp only [sendCoins] at h
    split at h
    · cases h
    · split at h
      · cases h
      · rename_i w1 h1
        exact ih (call_complete hw h1) h

theorem burn_complete {c : Chain} {p : Params} {f : Addr} {all coins : Coins} {w w' : World} (hw : Complete w)
    (h : burnCoins c p f all coins w = some w') : Complete w' := by
  induction coins generalizing w with
  | nil => simp only [burnCoins, Option.some.injEq] at h; subst h; exact hw
  | cons x rest ih =>
    obtain ⟨d, amt⟩ := x
    simp only [burnCoins] at h
    split at h
    · split at h
      · cases h
      · rename_i w1 h1
        exact ih (send_complete hw h1) h
    · split at h
      · cases h
      · split at h
        · cases h
        · rename_i w1 h1
          exact ih (call_complete hw h1) h

/-- Putting a fresh contract on an address without code, registered or not. -/
theorem fresh_complete {w : World} (hw : Complete w) (a owner : Addr) (sudo reg : Bool) (m : Maps) (n : Nat)
    (h : w.tokens a = none) :
    Complete { w with
      maps := m, factoryNonce := n
      tokens := fun x => if x = a then some (sudo, Token.fresh owner) else w.tokens x
      erc20s := fun x => if x = a then (reg || w.erc20s a) else w.erc20s x } := by
  refine ⟨?_, ?_, hw.once⟩
  · intro k x hk hb
    simp only [balanceOf] at hb hk
    by_cases hka : k = a
    · subst hka; simp [Token.fresh] at hb
    · simp only [hka, if_false] at hb hk
      exact hw.holders k x hk hb
  · intro x k hk
    have := hw.registered x k hk
    simp only
    split
    · rename_i e; subst e; simp [this]
    · exact this

theorem ensure_complete {c : Chain} {p : Params} {w : World} (hw : Complete w) (d : Str)
    (hf : w.tokens (p.deployed w.factoryNonce) = none) : Complete (ensure c p w d) := by
  unfold ensure
  split
  · exact hw
  · exact fresh_complete hw (p.deployed w.factoryNonce) c.chainAddr true true _ _ hf

theorem mint_complete {c : Chain} {p : Params} (hinj : NoCollision p) {r : Addr} {coins : Coins} {w w' : World}
    (hcon : Consistent p w) (hl : w.factoryNonce + coins.length < 2 ^ 64) (hw : Complete w)
    (h : mintCoins c p r coins w = some w') : Complete w' := by
  induction coins generalizing w with
  | nil => simp only [mintCoins, Option.some.injEq] at h; subst h; exact hw
  | cons x rest ih =>
    obtain ⟨d, amt⟩ := x
    rw [mintCoins_cons] at h
    simp only [List.length_cons] at hl
    split at h
    · cases h
    · rename_i hne
      have hne' : isERC20Denom d = false := by simpa using hne
      have hf := hcon.fresh w.factoryNonce (Nat.le_refl _) (by omega)
      obtain ⟨v1, v2, ⟨a0, v3⟩, v4, v5, v6, v7, v8⟩ := ensure_spec c p hinj w hcon (by omega) d
      have hcw := ensure_complete (c := c) (p := p) hw d hf
      generalize ensure c p w d = w1 at *
      have hda : ∀ m : Maps, denomToContract m d = m.toAddr d := by intro m; simp [denomToContract, hne']
      rw [hda, v3] at h
      simp only at h
      split at h
      · cases h
      · rename_i w2 h2
        obtain ⟨e1, e2, e3, e4, e4', _, e5, e6⟩ := sudoMint_step h2 (v1.denoms d a0 v3)
        have hlim2 : w2.factoryNonce + rest.length < 2 ^ 64 := by
          rw [e3, v8]; split <;> omega
        have hw2 : Consistent p w2 := by
          refine ⟨?_, ?_⟩
          · intro d' a' hd'; rw [e4]; rw [e1] at hd'; exact v1.denoms d' a' hd'
          · intro n hn hn2; rw [e3] at hn
            have := v1.fresh n hn hn2
            have g := e4 (p.deployed n)
            rw [this] at g
            simpa using g
        exact ih hw2 hlim2 (call_complete hcw h2) h

theorem register_form {p : Params} {w w' : World} {k : Addr} (h : register p w k = some w') :
    p.allowCustom = true ∧ ((w.erc20s k = true ∧ w' = w) ∨
      (w.erc20s k = false ∧ (p.allowList = [] ∨ k ∈ p.allowList) ∧
        w' = { w with erc20s := fun x => if x = k then true else w.erc20s x })) := by
  unfold register at h
  split at h
  · cases h
  · rename_i hc
    have hc' : p.allowCustom = true := by simpa using hc
    refine ⟨hc', ?_⟩
    split at h
    · rename_i he; cases h; exact Or.inl ⟨he, rfl⟩
    · rename_i he
      split at h
      · cases h
      · rename_i ha
        simp only [Option.some.injEq] at h
        refine Or.inr ⟨by simpa using he, ?_, h.symm⟩
        by_cases g : p.allowList = []
        · exact Or.inl g
        · right
          by_cases g2 : k ∈ p.allowList
          · exact g2
          · exact absurd ⟨g, g2⟩ ha

theorem step_complete {c : Chain} {w w' : World} (h : Step c false w w') (hw : Complete w) : Complete w' := by
  cases h with
  | call caller k call w' h => exact call_complete hw h
  | send f r coins w' h => exact send_complete hw h
  | mint p r coins w' hp hcon hl h => exact mint_complete hp hcon hl hw h
  | burn p f all coins w' h => exact burn_complete hw h
  | create p caller hf => exact fresh_complete hw (p.deployed w.factoryNonce) caller true true _ _ hf
  | deploy a owner sudo hn =>
    have := fresh_complete hw a owner sudo false w.maps w.factoryNonce hn
    have e : (fun x => if x = a then (false || w.erc20s a) else w.erc20s x) = w.erc20s := by
      funext x
      by_cases hx : x = a
      · subst hx; simp
      · simp [hx]
    rw [e] at this
    exact this
  | register p k w' h hl =>
    have hz : ∀ x, balanceOf w k x = 0 := by
      rcases hl with h | h
      · cases h
      · exact h
    obtain ⟨_, ⟨_, rfl⟩ | ⟨_, _, rfl⟩⟩ := register_form h
    · exact hw
    · refine ⟨?_, ?_, hw.once⟩
      · intro k' x hk hb
        simp only at hk
        split at hk
        · rename_i e; subst e; exact absurd (hz x) hb
        · exact hw.holders k' x hk hb
      · intro x k' hk
        have := hw.registered x k' hk
        simp only
        split
        · rfl
        · exact this

theorem reach_complete {c : Chain} {w0 w : World} (h : Reach c false w0 w) (h0 : Complete w0) : Complete w := by
  induction h with
  | refl => exact h0
  | step w w' _ hs ih => exact step_complete hs ih

theorem init_complete : Complete World.init :=
  ⟨fun k x h => (by cases h), fun x k h => (by cases h), fun x => List.nodup_nil⟩

/-- What a complete balance listing of account `a` is: exactly the registered tokens of which `a` holds a non-zero
amount, with that amount, each once. -/
def ListsAll (w : World) (a : Addr) (l : List (Addr × Nat)) : Prop :=
  (∀ k n, (k, n) ∈ l ↔ w.erc20s k = true ∧ balanceOf w k a = n ∧ n ≠ 0) ∧ (l.map Prod.fst).Nodup

theorem listing_of_complete {w : World} (hw : Complete w) (a : Addr) : ListsAll w a (accountBalances w a) := by
  refine ⟨?_, ?_⟩
  · intro k n
    simp only [accountBalances, List.mem_filterMap]
    constructor
    · rintro ⟨k', hk', h⟩
      split at h
      · cases h
      · rename_i hne
        simp only [Option.some.injEq, Prod.mk.injEq] at h
        obtain ⟨rfl, rfl⟩ := h
        exact ⟨hw.registered a k' hk', rfl, hne⟩
    · rintro ⟨h1, rfl, h3⟩
      exact ⟨k, hw.holders k a h1 h3, by simp [h3]⟩
  · have hn := hw.once a
    unfold accountBalances
    generalize w.stores a = l at *
    induction l with
    | nil => simp
    | cons x xs ih =>
      simp only [List.nodup_cons] at hn
      have hsub : ∀ y, y ∈ ((xs.filterMap fun k => if balanceOf w k a = 0 then none
          else some (k, balanceOf w k a)).map Prod.fst) → y ∈ xs := by
        intro y hy
        simp only [List.mem_map, List.mem_filterMap] at hy
        obtain ⟨⟨y1, n⟩, ⟨k, hk, he⟩, rfl⟩ := hy
        split at he
        · cases he
        · simp only [Option.some.injEq, Prod.mk.injEq] at he
          rw [← he.1]; exact hk
      simp only [List.filterMap_cons]
      by_cases hz : balanceOf w x a = 0
      · simp only [hz, if_true]; exact ih hn.2
      · simp only [hz, if_false, List.map_cons, List.nodup_cons]
        exact ⟨fun h => hn.1 (hsub x h), ih hn.2⟩

/-- **C28 (partial: contracts register before anybody holds them).** After any history of transfers, approvals,
chain sends, mints, burns, factory creations, deployments and early self-registrations, every account's balance
listing contains exactly its non-zero registered tokens, each once, with the right amount. -/
theorem C28_partial (c : Chain) (w : World) (h : Reach c false World.init w) (a : Addr) :
    ListsAll w a (accountBalances w a) :=
  listing_of_complete (reach_complete h init_complete) a

/-- A history with a registered custom token held by alice. -/
def custom : Addr := Addr.ofNat 60

def w1 : World := { World.init with
  tokens := fun x => if x = custom then some (false, Token.fresh alice) else World.init.tokens x }

def early : World := { w1 with erc20s := fun x => if x = custom then true else w1.erc20s x }

theorem reach_early : Reach toyChain false World.init early := by
  refine .step w1 _ (.step World.init _ .refl (.deploy custom alice false rfl)) (.register toyParams custom early ?_ ?_)
  · rfl
  · right; intro x; simp [balanceOf, w1, Token.fresh]

example : ∃ w, Reach toyChain false World.init w ∧ accountBalances w bob = [(custom, 42)] := by
  have hs : ((callToken toyChain early alice custom (.mint bob 42)).map fun w => accountBalances w bob) =
      some [(custom, 42)] := by decide +kernel
  cases hc : callToken toyChain early alice custom (.mint bob 42) with
  | none => rw [hc] at hs; cases hs
  | some w =>
    rw [hc] at hs
    exact ⟨w, .step early w reach_early (.call alice custom _ w hc), by simpa using hs⟩

/-- **C28 fails** when a contract registers itself after it has holders: nothing enters the existing holders into the
listing. Here bob holds 42 of a registered token and his listing is empty. -/
theorem C28_violated : ¬ ∀ (c : Chain) (w : World), Reach c true World.init w → ∀ a,
    ListsAll w a (accountBalances w a) := by
  intro h
  have hs : ((callToken toyChain w1 alice custom (.mint bob 42)).map fun w =>
      (accountBalances w bob, balanceOf w custom bob, w.erc20s custom, (register toyParams w custom).isSome)) =
      some ([], 42, false, true) := by decide +kernel
  cases hc : callToken toyChain w1 alice custom (.mint bob 42) with
  | none => rw [hc] at hs; cases hs
  | some w =>
    rw [hc] at hs
    simp only [Option.map_some, Option.some.injEq, Prod.mk.injEq] at hs
    obtain ⟨s1, s2, s3, s4⟩ := hs
    obtain ⟨w', hw'⟩ := Option.isSome_iff_exists.mp s4
    have hr : Reach toyChain true World.init w' := by
      refine .step w _ (.step w1 _ (.step World.init _ .refl (.deploy custom alice false rfl))
        (.call alice custom _ w hc)) (.register toyParams custom w' hw' (Or.inl rfl))
    have hl := h toyChain w' hr bob
    obtain ⟨_, ⟨g, _⟩ | ⟨_, _, rfl⟩⟩ := register_form hw'
    · rw [s3] at g; cases g
    · have : (custom, 42) ∈ accountBalances w bob :=
        (hl.1 custom 42).mpr ⟨by simp, s2, by omega⟩
      rw [s1] at this; cases this

/-! ### C29 -/

/-- **C29 (entry).** If a step puts a contract into the registry, then the factory has just created it, or it
registered itself while custom tokens were allowed and, if an allow list was set, it is on the list. -/
theorem C29_entry (c : Chain) (w w' : World) (k : Addr) (h : Step c true w w') (h0 : w.erc20s k = false)
    (h1 : w'.erc20s k = true) :
    (∃ p : Params, ∃ n, w.factoryNonce ≤ n ∧ n < w'.factoryNonce ∧ k = p.deployed n) ∨
    (∃ p : Params, p.allowCustom = true ∧ (p.allowList = [] ∨ k ∈ p.allowList) ∧ register p w k = some w') := by
  have send : ∀ (f r : Addr) (coins : Coins) (u u' : World), sendCoins c f r coins u = some u' →
      u'.erc20s = u.erc20s := by
    intro f r coins
    induction coins with
    | nil => intro u u' h; simp only [sendCoins, Option.some.injEq] at h; subst h; rfl
    | cons x rest ih =>
      obtain ⟨d, amt⟩ := x
      intro u u' h
      simp only [sendCoins] at h
      split at h
      · cases h
      · split at h
        · cases h
        · rename_i u1 hu
          rw [ih u1 u' h, (callToken_spec hu).2.1]
  cases h with
  | call caller k' call w' h => rw [(callToken_spec h).2.1] at h1; rw [h0] at h1; cases h1
  | send f r coins w' h => rw [send _ _ _ _ _ h] at h1; rw [h0] at h1; cases h1
  | burn p f all coins w' h =>
    have : w'.erc20s = w.erc20s := by
      clear h1 h0
      induction coins generalizing w with
      | nil => simp only [burnCoins, Option.some.injEq] at h; subst h; rfl
      | cons x rest ih =>
        obtain ⟨d, amt⟩ := x
        simp only [burnCoins] at h
        split at h
        · split at h
          · cases h
          · rename_i u1 hu
            rw [ih u1 h, send _ _ _ _ _ hu]
        · split at h
          · cases h
          · split at h
            · cases h
            · rename_i u1 hu
              rw [ih u1 h, (callToken_spec hu).2.1]
    rw [this, h0] at h1; cases h1
  | mint p r coins w' hp hw hl h =>
    left
    refine ⟨p, ?_⟩
    clear hw hl
    induction coins generalizing w with
    | nil => simp only [mintCoins, Option.some.injEq] at h; subst h; rw [h0] at h1; cases h1
    | cons x rest ih =>
      obtain ⟨d, amt⟩ := x
      rw [mintCoins_cons] at h
      split at h
      · cases h
      · split at h
        · cases h
        · split at h
          · cases h
          · rename_i a ha u1 hu
            obtain ⟨_, e2, e3, _⟩ := callToken_spec hu
            have hmono : ∀ (cs : Coins) (u u' : World), mintCoins c p r cs u = some u' →
                u.factoryNonce ≤ u'.factoryNonce := by
              intro cs
              induction cs with
              | nil => intro u u' h; simp only [mintCoins, Option.some.injEq] at h; subst h; exact Nat.le_refl _
              | cons y ys ihy =>
                obtain ⟨d', amt'⟩ := y
                intro u u' h
                rw [mintCoins_cons] at h
                split at h
                · cases h
                · split at h
                  · cases h
                  · split at h
                    · cases h
                    · rename_i u2 hu2
                      have := ihy _ _ h
                      rw [(callToken_spec hu2).2.2.1] at this
                      refine Nat.le_trans ?_ this
                      unfold ensure
                      split
                      · exact Nat.le_refl _
                      · simp [factoryCreate]
            have hens : (ensure c p w d).erc20s k = true →
                k = p.deployed w.factoryNonce ∧ (ensure c p w d).factoryNonce = w.factoryNonce + 1 := by
              intro he
              unfold ensure at he ⊢
              split at he
              · rw [h0] at he; cases he
              · simp only [factoryCreate] at he ⊢
                split at he
                · rename_i e; exact ⟨e, trivial⟩
                · rw [h0] at he; cases he
            cases hk : u1.erc20s k with
            | true =>
              rw [e2] at hk
              obtain ⟨g1, g2⟩ := hens hk
              have := hmono _ _ _ h
              exact ⟨w.factoryNonce, Nat.le_refl _, by rw [e3, g2] at this; omega, g1⟩
            | false =>
              obtain ⟨n, n1, n2, n3⟩ := ih u1 hk h
              refine ⟨n, ?_, n2, n3⟩
              refine Nat.le_trans ?_ n1
              rw [e3]
              unfold ensure
              split
              · exact Nat.le_refl _
              · simp [factoryCreate]
  | create p caller hf =>
    left
    refine ⟨p, w.factoryNonce, Nat.le_refl _, by simp [factoryCreate], ?_⟩
    simp only [factoryCreate] at h1
    split at h1
    · assumption
    · rw [h0] at h1; cases h1
  | deploy a owner sudo hn => simp only at h1; rw [h0] at h1; cases h1
  | register p k' w' h hl =>
    right
    obtain ⟨g1, ⟨_, rfl⟩ | ⟨_, g3, g4⟩⟩ := register_form h
    · rw [h0] at h1; cases h1
    · have : k = k' := by
        rw [g4] at h1
        simp only at h1
        split at h1
        · assumption
        · rw [h0] at h1; cases h1
      subst this
      exact ⟨p, g1, g3, h⟩

/-- **C29 (permanence).** A registered contract stays registered. -/
theorem C29_stays (c : Chain) (w w' : World) (k : Addr) (h : Step c true w w') (h0 : w.erc20s k = true) :
    w'.erc20s k = true := by
  have call : ∀ (caller a : Addr) (cl : Call) (u u' : World), callToken c u caller a cl = some u' →
      u'.erc20s = u.erc20s := fun _ _ _ _ _ h => (callToken_spec h).2.1
  have send : ∀ (f r : Addr) (coins : Coins) (u u' : World), sendCoins c f r coins u = some u' →
      u'.erc20s = u.erc20s := by
    intro f r coins
    induction coins with
    | nil => intro u u' h; simp only [sendCoins, Option.some.injEq] at h; subst h; rfl
    | cons x rest ih =>
      obtain ⟨d, amt⟩ := x
      intro u u' h
      simp only [sendCoins] at h
      split at h
      · cases h
      · split at h
        · cases h
        · rename_i u1 hu
          rw [ih u1 u' h, call _ _ _ _ _ hu]
  cases h with
  | call caller k' cl w' h => rw [call _ _ _ _ _ h]; exact h0
  | send f r coins w' h => rw [send _ _ _ _ _ h]; exact h0
  | burn p f all coins w' h =>
    induction coins generalizing w with
    | nil => simp only [burnCoins, Option.some.injEq] at h; subst h; exact h0
    | cons x rest ih =>
      obtain ⟨d, amt⟩ := x
      simp only [burnCoins] at h
      split at h
      · split at h
        · cases h
        · rename_i u1 hu
          exact ih u1 (by rw [send _ _ _ _ _ hu]; exact h0) h
      · split at h
        · cases h
        · split at h
          · cases h
          · rename_i u1 hu
            exact ih u1 (by rw [call _ _ _ _ _ hu]; exact h0) h
  | mint p r coins w' hp hw hl h =>
    clear hw hl
    induction coins generalizing w with
    | nil => simp only [mintCoins, Option.some.injEq] at h; subst h; exact h0
    | cons x rest ih =>
      obtain ⟨d, amt⟩ := x
      rw [mintCoins_cons] at h
      split at h
      · cases h
      · split at h
        · cases h
        · split at h
          · cases h
          · rename_i u1 hu
            refine ih u1 ?_ h
            rw [call _ _ _ _ _ hu]
            unfold ensure
            split
            · exact h0
            · simp only [factoryCreate]
              split
              · rfl
              · exact h0
  | create p caller hf =>
    simp only [factoryCreate]
    split
    · rfl
    · exact h0
  | deploy a owner sudo hn => exact h0
  | register p k' w' h hl =>
    obtain ⟨_, ⟨_, rfl⟩ | ⟨_, _, rfl⟩⟩ := register_form h
    · exact h0
    · simp only
      split
      · rfl
      · exact h0

/-- **C29 (the factory door).** Only the factory contract can register another contract, and it always can. -/
theorem C29_factory_only (p : Params) (w : World) (caller k : Addr) :
    (∃ w', registerFromFactory p w caller k = some w' ∧ w'.erc20s k = true ∧
      (∀ x, x ≠ k → w'.erc20s x = w.erc20s x) ∧ w'.tokens = w.tokens ∧ w'.stores = w.stores) ↔ caller = p.factory := by
  unfold registerFromFactory
  constructor
  · rintro ⟨w', h, _⟩
    split at h
    · cases h
    · rename_i g; simp only [ne_eq, Decidable.not_not] at g; exact g.symm
  · rintro rfl
    simp only [ne_eq, not_true, if_false]
    exact ⟨_, rfl, by simp, by intro x hx; simp [hx], rfl, rfl⟩

/-- **C29 (self-registration is decided by the parameters alone).** -/
theorem C29_register (p : Params) (w : World) (k : Addr) (h0 : w.erc20s k = false) :
    (∃ w', register p w k = some w') ↔ p.allowCustom = true ∧ (p.allowList = [] ∨ k ∈ p.allowList) := by
  constructor
  · rintro ⟨w', h⟩
    obtain ⟨g1, ⟨g, _⟩ | ⟨_, g3, _⟩⟩ := register_form h
    · rw [h0] at g; cases g
    · exact ⟨g1, g3⟩
  · rintro ⟨h1, h2⟩
    unfold register
    simp only [h1, h0, Bool.not_true, Bool.false_eq_true, if_false]
    rw [if_neg]
    · exact ⟨_, rfl⟩
    · rintro ⟨g1, g2⟩
      rcases h2 with h | h
      · exact g1 h
      · exact g2 h

example : (∃ w', register toyParams w1 custom = some w') ∧
    ¬ ∃ w', register { toyParams with allowList := [alice] } w1 custom = some w' := by
  constructor
  · exact (C29_register toyParams w1 custom rfl).mpr ⟨rfl, Or.inl rfl⟩
  · intro h
    have := (C29_register { toyParams with allowList := [alice] } w1 custom rfl).mp h
    rcases this.2 with h | h
    · cases h
    · revert h; decide +kernel

/-! ### C23 on the whole chain -/

/-- **C23 (whole chain).** After any history every token is sound: its supply is the sum of its balances. -/
theorem C23_chain (c : Chain) (w : World) (h : Reach c true World.init w) (k : Addr) (s : Bool) (t : Token)
    (ht : w.tokens k = some (s, t)) : SumsTo t.bal t.supply ∧ t.supply < 2 ^ 256 := by
  have call : ∀ (caller a : Addr) (cl : Call) (u u' : World), (∀ k s t, u.tokens k = some (s, t) → Sound t) →
      callToken c u caller a cl = some u' → ∀ k s t, u'.tokens k = some (s, t) → Sound t := by
    intro caller a cl u u' hu h k s t ht
    obtain ⟨_, _, _, e4, h5⟩ := callToken_spec h
    by_cases hk : k = a
    · subst hk
      rcases h5 with ⟨_, rfl⟩ | ⟨s1, t1, t2, p1, p2, p3⟩
      · exact hu k s t ht
      · rw [p3] at ht; cases ht
        exact exec_sound c _ _ _ _ _ p2 (hu k _ _ p1)
    · rw [e4 k hk] at ht; exact hu k s t ht
  have send : ∀ (f r : Addr) (coins : Coins) (u u' : World), (∀ k s t, u.tokens k = some (s, t) → Sound t) →
      sendCoins c f r coins u = some u' → ∀ k s t, u'.tokens k = some (s, t) → Sound t := by
    intro f r coins
    induction coins with
    | nil => intro u u' hu h; simp only [sendCoins, Option.some.injEq] at h; subst h; exact hu
    | cons x rest ih =>
      obtain ⟨d, amt⟩ := x
      intro u u' hu h
      simp only [sendCoins] at h
      split at h
      · cases h
      · split at h
        · cases h
        · rename_i u1 h1
          exact ih u1 u' (call _ _ _ _ _ hu h1) h
  have fr : ∀ (u : World) (a o : Addr) (b : Bool), (∀ k s t, u.tokens k = some (s, t) → Sound t) →
      ∀ k s t, (if k = a then some (b, Token.fresh o) else u.tokens k) = some (s, t) → Sound t := by
    intro u a o b hu k s t ht
    split at ht
    · cases ht; exact fresh_sound o
    · exact hu k s t ht
  have burn : ∀ (p : Params) (f : Addr) (all coins : Coins) (w w' : World),
      (∀ k s t, w.tokens k = some (s, t) → Sound t) → burnCoins c p f all coins w = some w' →
      ∀ k s t, w'.tokens k = some (s, t) → Sound t := by
    intro p f all coins w w' ih h
    induction coins generalizing w with
    | nil => simp only [burnCoins, Option.some.injEq] at h; subst h; exact ih
    | cons x rest ih2 =>
      obtain ⟨d, amt⟩ := x
      simp only [burnCoins] at h
      split at h
      · split at h
        · cases h
        · rename_i u1 hu
          exact ih2 u1 (send _ _ _ _ _ ih hu) h
      · split at h
        · cases h
        · split at h
          · cases h
          · rename_i u1 hu
            exact ih2 u1 (call _ _ _ _ _ ih hu) h
  have mint : ∀ (p : Params) (r : Addr) (coins : Coins) (w w' : World),
      (∀ k s t, w.tokens k = some (s, t) → Sound t) → mintCoins c p r coins w = some w' →
      ∀ k s t, w'.tokens k = some (s, t) → Sound t := by
    intro p r coins w w' ih h
    induction coins generalizing w with
    | nil => simp only [mintCoins, Option.some.injEq] at h; subst h; exact ih
    | cons x rest ih2 =>
      obtain ⟨d, amt⟩ := x
      rw [mintCoins_cons] at h
      split at h
      · cases h
      · split at h
        · cases h
        · split at h
          · cases h
          · rename_i u1 hu
            refine ih2 u1 (call _ _ _ _ _ ?_ hu) h
            unfold ensure
            split
            · exact ih
            · exact fr w _ _ _ ih
  have all : ∀ k s t, w.tokens k = some (s, t) → Sound t := by
    clear ht
    induction h with
    | refl => intro k s t h; cases h
    | step w w' _ hs ih =>
      cases hs with
      | call caller k' cl w' h => exact call _ _ _ _ _ ih h
      | send f r coins w' h => exact send _ _ _ _ _ ih h
      | burn p f all coins w' h =>
        exact burn _ _ _ _ _ _ ih h
      | mint p r coins w' hp hw hl h => exact mint _ _ _ _ _ ih h
      | create p caller hf => exact fr w _ _ _ ih
      | deploy a owner sudo hn => exact fr w _ _ _ ih
      | register p k' w' h hl =>
        obtain ⟨_, ⟨_, rfl⟩ | ⟨_, _, rfl⟩⟩ := register_form h
        · exact ih
        · exact ih
  exact all k s t ht

end Verif.Props.Registry
