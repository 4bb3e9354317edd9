import Verif.Props.Tokens
import Verif.Spec.Ledger
/-
The bank ledger on top of ERC20 contracts: C25 (send), C26 (burn), C27 (mint).
-/
namespace Verif.Props.Ledger
open Verif Verif.Text Verif.Denom Verif.Tokens Verif.Spec.Tokens Verif.Spec.Ledger Verif.Props.Tokens

/-- Case analysis on two propositions governing `if`s, then linear arithmetic. -/
macro "ifs" "(" p:term ")" "(" q:term ")" "at" h1:ident h2:ident : tactic =>
  `(tactic| (by_cases g1 : $p <;> by_cases g2 : $q <;>
      first
      | (simp only [if_pos g1, if_pos g2] at $h1:ident $h2:ident ⊢; omega)
      | (simp only [if_pos g1, if_neg g2] at $h1:ident $h2:ident ⊢; omega)
      | (simp only [if_neg g1, if_pos g2] at $h1:ident $h2:ident ⊢; omega)
      | (simp only [if_neg g1, if_neg g2] at $h1:ident $h2:ident ⊢; omega)))

/-! ### One call -/

/-- What a call does to everything but the called token, and to the called token. -/
theorem callToken_spec {c : Chain} {w w' : World} {caller a : Addr} {call : Call}
    (h : callToken c w caller a call = some w') :
    w'.maps = w.maps ∧ w'.erc20s = w.erc20s ∧ w'.factoryNonce = w.factoryNonce ∧
    (∀ k, k ≠ a → w'.tokens k = w.tokens k) ∧
    ((w.tokens a = none ∧ w' = w) ∨
     ∃ s t t', w.tokens a = some (s, t) ∧ exec c s caller call t = some t' ∧ w'.tokens a = some (s, t')) := by
  unfold callToken at h
  split at h
  · rename_i hn
    cases h
    exact ⟨rfl, rfl, rfl, fun _ _ => rfl, Or.inl ⟨hn, rfl⟩⟩
  · rename_i s t hs
    split at h
    · cases h
    · rename_i t' he
      simp only [Option.some.injEq] at h
      have hreg : ∀ (x : Addr), (registerStore w x a).maps = w.maps ∧ (registerStore w x a).erc20s = w.erc20s ∧
          (registerStore w x a).factoryNonce = w.factoryNonce ∧ (registerStore w x a).tokens = w.tokens := by
        intro x
        unfold registerStore
        split
        · split <;> exact ⟨rfl, rfl, rfl, rfl⟩
        · exact ⟨rfl, rfl, rfl, rfl⟩
      rw [← h]
      cases hr : regTarget call with
      | none =>
        refine ⟨rfl, rfl, rfl, ?_, Or.inr ⟨s, t, t', hs, he, by simp⟩⟩
        intro k hk; simp [hk]
      | some x =>
        obtain ⟨e1, e2, e3, e4⟩ := hreg x
        refine ⟨e1, e2, e3, ?_, Or.inr ⟨s, t, t', hs, he, by simp⟩⟩
        intro k hk; simp [hk, e4]

/-- The parts of a token other than its balances. -/
def others (w : World) (k : Addr) : Option (Bool × Nat × (Addr → Addr → Nat) × Addr) :=
  (w.tokens k).map fun p => (p.1, p.2.supply, p.2.allow, p.2.owner)

theorem sudoTransfer_step {c : Chain} {w w' : World} {a f r : Addr} {amt : Nat}
    (h : callToken c w c.chainAddr a (.sudoTransfer f r amt) = some w') (hc : (w.tokens a).isSome) :
    w'.maps = w.maps ∧ w'.erc20s = w.erc20s ∧ (∀ k, others w' k = others w k) ∧
    (∀ k, (w'.tokens k).isSome = (w.tokens k).isSome) ∧ amt ≤ balanceOf w a f ∧
    ∀ k x, balanceOf w' k x + (if k = a ∧ x = f then amt else 0) =
      balanceOf w k x + (if k = a ∧ x = r then amt else 0) := by
  obtain ⟨e1, e2, e3, e4, h5⟩ := callToken_spec h
  rcases h5 with ⟨hn, _⟩ | ⟨s, t, t', h1, h2, h3⟩
  · rw [hn] at hc; cases hc
  · simp only [exec] at h2
    split at h2
    · cases h2
    · obtain ⟨g1, g2, g3, g4, g5, _, _⟩ := doTransfer_spec h2
      refine ⟨e1, e2, ?_, ?_, by simp [balanceOf, h1, g1], ?_⟩
      · intro k
        by_cases hk : k = a
        · subst hk; simp [others, h1, h3, g2, g3, g4]
        · simp [others, e4 k hk]
      · intro k
        by_cases hk : k = a
        · subst hk; simp [h1, h3]
        · simp [e4 k hk]
      · intro k x
        by_cases hk : k = a
        · subst hk; simp [balanceOf, h1, h3]; exact g5 x
        · simp [balanceOf, e4 k hk, hk]

/-! ### C25 -/

/-- What a send of `coins` from `f` to `r` must do to balances. -/
def Moved (w w' : World) (coins : Coins) (f r : Addr) : Prop :=
  ∀ k x, balanceOf w' k x + (if x = f then listed w.maps coins k else 0) =
    balanceOf w k x + (if x = r then listed w.maps coins k else 0)

/-- Every listed denom names a deployed contract. -/
def Deployed (w : World) (coins : Coins) : Prop :=
  ∀ x ∈ coins, ∀ a, denomToContract w.maps x.1 = some a → (w.tokens a).isSome

/-- **C25 (partial: the listed coins must exist).** A successful send debits the sender and credits the recipient in
every token with exactly the listed amount (no more, no less, sender = recipient included), touches no other
account, and changes no supply, allowance, owner, denom or registry entry. -/
theorem C25_partial (c : Chain) (f r : Addr) (coins : Coins) (w w' : World)
    (hd : Deployed w coins) (h : sendCoins c f r coins w = some w') :
    Moved w w' coins f r ∧ (∀ k, others w' k = others w k) ∧ w'.maps = w.maps ∧ w'.erc20s = w.erc20s ∧
    (∀ k, listed w.maps coins k ≤ balanceOf w k f ∨ f = r) := by
  induction coins generalizing w with
  | nil =>
    simp only [sendCoins, Option.some.injEq] at h; subst h
    exact ⟨by intro k x; simp [listed_nil], fun _ => rfl, rfl, rfl, fun _ => Or.inl (Nat.zero_le _)⟩
  | cons x rest ih =>
    obtain ⟨d, amt⟩ := x
    simp only [sendCoins] at h
    split at h
    · cases h
    · rename_i a ha
      split at h
      · cases h
      · rename_i w1 h1
        have hca := hd (d, amt) (List.mem_cons_self ..) a ha
        obtain ⟨e1, e2, e3, e4, e5, e6⟩ := sudoTransfer_step h1 hca
        have hd1 : Deployed w1 rest := by
          intro y hy b hb
          rw [e4]
          exact hd y (List.mem_cons_of_mem _ hy) b (by rw [← e1]; exact hb)
        obtain ⟨m1, m2, m3, m4, m5⟩ := ih w1 hd1 h
        refine ⟨?_, fun k => (m2 k).trans (e3 k), m3.trans e1, m4.trans e2, ?_⟩
        · intro k y
          have a1 := m1 k y
          have a2 := e6 k y
          rw [e1] at a1
          rw [listed_cons, ha]
          simp only [Option.some.injEq]
          by_cases hk : k = a
          · subst hk
            simp only [if_true, true_and] at a2 ⊢
            ifs (y = f) (y = r) at a1 a2
          · have : a ≠ k := fun e => hk e.symm
            simp only [hk, false_and, if_false, this] at a2 ⊢
            ifs (y = f) (y = r) at a1 a2
        · intro k
          by_cases hfr : f = r
          · exact Or.inr hfr
          · left
            rcases m5 k with g | g
            · have a2 := e6 k f
              rw [e1] at g
              rw [listed_cons, ha]
              simp only [Option.some.injEq]
              by_cases hk : k = a
              · subst hk
                simp only [if_true, true_and, hfr, if_false] at a2 ⊢
                omega
              · have : a ≠ k := fun e => hk e.symm
                simp only [hk, false_and, if_false, this] at a2 ⊢
                omega
            · exact absurd g hfr

theorem sumsTo_two {A : Addr → Nat} {n : Nat} (h : SumsTo A n) (a b : Addr) (hab : a ≠ b) : A a + A b ≤ n := by
  obtain ⟨l1, s1⟩ := sumsTo_set h a 0
  obtain ⟨l2, _⟩ := sumsTo_set s1 b 0
  simp only [setB, Ne.symm hab, if_false] at l2
  omega

theorem doTransfer_accepts (t : Token) (ht : Sound t) (s r : Addr) (amt : Nat) (h : amt ≤ t.bal s) :
    ∃ t', doTransfer t s r amt = some t' := by
  unfold doTransfer
  simp only [subU, h, if_true]
  have h2 := ht.2
  have : setB t.bal s (t.bal s - amt) r + amt < 2 ^ 256 := by
    simp only [setB]
    split
    · have := (sumsTo_set ht.1 s 0).1; omega
    · rename_i hne
      have := sumsTo_two ht.1 r s hne
      omega
  simp [addU, this]

/-- **C25 (a covered send succeeds).** If every listed denom exists, the tokens are sound (C23: always the case) and
the sender holds the listed amounts, the send succeeds. -/
theorem C25_accepts (c : Chain) (f r : Addr) (coins : Coins) (w : World)
    (hs : ∀ k s t, w.tokens k = some (s, t) → Sound t)
    (hd : ∀ x ∈ coins, ∃ a, denomToContract w.maps x.1 = some a ∧ (w.tokens a).isSome)
    (hb : ∀ k, listed w.maps coins k ≤ balanceOf w k f) : ∃ w', sendCoins c f r coins w = some w' := by
  induction coins generalizing w with
  | nil => exact ⟨w, rfl⟩
  | cons x rest ih =>
    obtain ⟨d, amt⟩ := x
    obtain ⟨a, ha, hsome⟩ := hd (d, amt) (List.mem_cons_self ..)
    obtain ⟨⟨s, t⟩, ht⟩ := Option.isSome_iff_exists.mp hsome
    have hba := hb a
    rw [listed_cons, ha, if_pos rfl] at hba
    have hle : amt ≤ t.bal f := by simp only [balanceOf, ht] at hba; omega
    obtain ⟨t', ht'⟩ := doTransfer_accepts t (hs a s t ht) f r amt hle
    have hex : exec c s c.chainAddr (.sudoTransfer f r amt) t = some t' := by simp [exec, ht']
    have : ∃ w1, callToken c w c.chainAddr a (.sudoTransfer f r amt) = some w1 := by
      unfold callToken; rw [ht]; simp only [hex]; exact ⟨_, rfl⟩
    obtain ⟨w1, h1⟩ := this
    obtain ⟨e1, e2, e3, e4, e5, e6⟩ := sudoTransfer_step h1 hsome
    simp only [sendCoins, ha, h1]
    apply ih
    · intro k s' t1 hk
      obtain ⟨_, _, _, g4, g5⟩ := callToken_spec h1
      by_cases hka : k = a
      · subst hka
        rcases g5 with ⟨hn, _⟩ | ⟨s2, t2, t3, p1, p2, p3⟩
        · rw [hn] at hsome; cases hsome
        · rw [p3] at hk; cases hk
          exact exec_sound c _ _ _ _ _ p2 (hs k _ _ p1)
      · rw [g4 k hka] at hk; exact hs k s' t1 hk
    · intro y hy
      obtain ⟨b, hb1, hb2⟩ := hd y (List.mem_cons_of_mem _ hy)
      exact ⟨b, by rw [e1]; exact hb1, by rw [e4]; exact hb2⟩
    · intro k
      have a2 := e6 k f
      have a1 := hb k
      rw [listed_cons, ha] at a1
      rw [e1]
      simp only [Option.some.injEq] at a1
      by_cases hk : k = a
      · subst hk
        simp only [if_true, true_and, and_true] at a2 a1
        split at a2 <;> omega
      · have : a ≠ k := fun e => hk e.symm
        simp only [hk, false_and, if_false, this] at a2 a1
        omega

/-! A concrete world: `uinit` is contract 50 (made by the chain), contract 60 is somebody's own ERC20. -/

def uinit : Str := "uinit".toList
def evm60 : Str := "evm/000000000000000000000000000000000000003c".toList
def evm70 : Str := "evm/0000000000000000000000000000000000000046".toList
def alice : Addr := Addr.ofNat 100
def bob : Addr := Addr.ofNat 101

def toyTok : Token :=
  { Token.fresh (Addr.ofNat 1) with bal := fun x => if x = Addr.ofNat 100 then 100 else 0, supply := 100 }

def toyWorld : World where
  maps := createERC20 Maps.empty uinit (Addr.ofNat 50)
  tokens := fun k => if k = Addr.ofNat 50 then some (true, toyTok) else if k = Addr.ofNat 60 then some (false, toyTok)
    else none
  erc20s := fun k => k = Addr.ofNat 50 ∨ k = Addr.ofNat 60
  stores := fun _ => []
  factoryNonce := 1

def toyParams : Params :=
  ⟨true, [], Addr.ofNat 40, fun n => ⟨toBE 20 (1000 + n), toBE_length _ _⟩, Addr.ofNat 200⟩

/-- The hypotheses of `C25_accepts` and `C25_partial` are met by a two-coin send. -/
example : ((sendCoins toyChain alice bob [(uinit, 30), (evm60, 7)] toyWorld).map fun w =>
    [balanceOf w (Addr.ofNat 50) alice, balanceOf w (Addr.ofNat 50) bob, balanceOf w (Addr.ofNat 60) alice,
     balanceOf w (Addr.ofNat 60) bob]) = some [70, 30, 93, 7] := by decide +kernel

example : Deployed toyWorld [(uinit, 30), (evm60, 7)] := by
  intro x hx a ha
  simp only [List.mem_cons, List.not_mem_nil, or_false] at hx
  rcases hx with rfl | rfl
  · have e : denomToContract toyWorld.maps uinit = some (Addr.ofNat 50) := by decide +kernel
    rw [e] at ha; cases ha; decide +kernel
  · have e : denomToContract toyWorld.maps evm60 = some (Addr.ofNat 60) := by decide +kernel
    rw [e] at ha; cases ha; decide +kernel

/-- **C25: what a successful send does, for every list of coins.** It moves exactly the listed amount of every
token whose contract has code, and nothing of the others; the sender held the former (unless it sends to itself,
when each single coin was held). -/
theorem C25_exact (c : Chain) (f r : Addr) (coins : Coins) (w w' : World)
    (h : sendCoins c f r coins w = some w') :
    (∀ k x, balanceOf w' k x + (if x = f ∧ (w.tokens k).isSome then listed w.maps coins k else 0) =
      balanceOf w k x + (if x = r ∧ (w.tokens k).isSome then listed w.maps coins k else 0)) ∧
    (∀ k, others w' k = others w k) ∧ w'.maps = w.maps ∧ w'.erc20s = w.erc20s ∧
    (∀ k, (w.tokens k).isSome → listed w.maps coins k ≤ balanceOf w k f ∨ f = r) := by
  induction coins generalizing w with
  | nil =>
    simp only [sendCoins, Option.some.injEq] at h; subst h
    exact ⟨by intro k x; simp [listed_nil], fun _ => rfl, rfl, rfl, fun _ _ => Or.inl (Nat.zero_le _)⟩
  | cons x rest ih =>
    obtain ⟨d, amt⟩ := x
    simp only [sendCoins] at h
    split at h
    · cases h
    · rename_i a ha
      split at h
      · cases h
      · rename_i w1 h1
        by_cases hca : (w.tokens a).isSome = true
        · obtain ⟨e1, e2, e3, e4, e5, e6⟩ := sudoTransfer_step h1 hca
          obtain ⟨m1, m2, m3, m4, m5⟩ := ih w1 h
          refine ⟨?_, fun k => (m2 k).trans (e3 k), m3.trans e1, m4.trans e2, ?_⟩
          · intro k y
            have a1 := m1 k y
            have a2 := e6 k y
            rw [e1, e4] at a1
            rw [listed_cons, ha]
            by_cases hk : k = a
            · subst hk
              simp only [if_true, true_and, hca, and_true] at a1 a2 ⊢
              by_cases hf : y = f
              · rw [if_pos hf] at a1 a2 ⊢
                by_cases hr : y = r
                · rw [if_pos hr] at a1 a2 ⊢; omega
                · rw [if_neg hr] at a1 a2 ⊢; omega
              · rw [if_neg hf] at a1 a2 ⊢
                by_cases hr : y = r
                · rw [if_pos hr] at a1 a2 ⊢; omega
                · rw [if_neg hr] at a1 a2 ⊢; omega
            · have : ¬ (some a = some k) := fun g => hk (by cases g; rfl)
              simp only [if_neg this, hk, false_and, if_false, Nat.zero_add, Nat.add_zero] at a1 a2 ⊢
              rw [← a2]; exact a1
          · intro k hk
            by_cases hfr : f = r
            · exact Or.inr hfr
            · refine Or.inl ?_
              have b1 := (m5 k (by rw [e4]; exact hk)).resolve_right hfr
              rw [e1] at b1
              have b2 := e6 k f
              rw [listed_cons, ha]
              by_cases hka : k = a
              · subst hka
                have hb : ¬ (k = k ∧ f = r) := fun g => hfr g.2
                rw [if_pos ⟨rfl, rfl⟩, if_neg hb] at b2
                rw [if_pos rfl]
                omega
              · have hn : ¬ (some a = some k) := fun g => hka (by cases g; rfl)
                have hb : ∀ z, ¬ (k = a ∧ f = z) := fun z g => hka g.1
                rw [if_neg (hb f), if_neg (hb r)] at b2
                rw [if_neg hn]
                omega
        · have hn : w.tokens a = none := by simpa using hca
          have hw : w1 = w := by simp only [callToken, hn, Option.some.injEq] at h1; exact h1.symm
          subst hw
          obtain ⟨m1, m2, m3, m4, m5⟩ := ih w1 h
          have hl : ∀ k, (w1.tokens k).isSome = true → listed w1.maps ((d, amt) :: rest) k = listed w1.maps rest k := by
            intro k hk
            rw [listed_cons, ha, if_neg, Nat.zero_add]
            intro g; cases g; exact hca hk
          refine ⟨?_, m2, m3, m4, fun k hk => by rw [hl k hk]; exact m5 k hk⟩
          intro k y
          have a1 := m1 k y
          by_cases hk : (w1.tokens k).isSome = true
          · rw [hl k hk]; exact a1
          · simpa only [hk, Bool.false_eq_true, and_false, if_false] using a1

/-- **C25: exactly when a successful send does what it says:** it is from an account to itself, or names no more than
zero of a token whose contract has no code. -/
theorem C25_iff (c : Chain) (f r : Addr) (coins : Coins) (w w' : World) (h : sendCoins c f r coins w = some w') :
    Moved w w' coins f r ↔ f = r ∨ ∀ k, w.tokens k = none → listed w.maps coins k = 0 := by
  obtain ⟨h1, _⟩ := C25_exact c f r coins w w' h
  constructor
  · intro hm
    by_cases hfr : f = r
    · exact Or.inl hfr
    · refine Or.inr fun k hk => ?_
      have a1 := h1 k f
      have a2 := hm k f
      simp only [hk, Option.isSome_none, Bool.false_eq_true, and_false, if_false] at a1
      rw [if_pos rfl, if_neg hfr] at a2
      omega
  · intro hc k x
    have a1 := h1 k x
    rcases hc with rfl | hc
    · by_cases hx : x = f <;> by_cases hk : (w.tokens k).isSome = true <;> simp_all
    · by_cases hk : (w.tokens k).isSome = true
      · simpa only [hk, and_true] using a1
      · have := hc k (by simpa using hk)
        simp only [hk, Bool.false_eq_true, and_false, if_false] at a1
        rw [this]; simpa using a1

/-- **C25 fails** for a denom `evm/<address without code>`: the send of any amount succeeds although the sender holds
nothing, and nothing is moved. (The hypothesis of `C25_partial` cannot be dropped.) -/
theorem C25_violated : ¬ ∀ (c : Chain) (f r : Addr) (coins : Coins) (w w' : World),
    sendCoins c f r coins w = some w' → Moved w w' coins f r := by
  intro h
  have hs : ∃ w', sendCoins toyChain alice bob [(evm70, 1000)] toyWorld = some w' ∧
      balanceOf w' (Addr.ofNat 70) alice = 0 := by
    have e : denomToContract toyWorld.maps evm70 = some (Addr.ofNat 70) := by decide +kernel
    have e2 : toyWorld.tokens (Addr.ofNat 70) = none := by
      have : (toyWorld.tokens (Addr.ofNat 70)).isNone = true := by decide +kernel
      simpa using this
    refine ⟨toyWorld, ?_, by simp [balanceOf, e2]⟩
    simp only [sendCoins, e, callToken, e2]
  obtain ⟨w', h1, h2⟩ := hs
  have := h toyChain alice bob [(evm70, 1000)] toyWorld w' h1 (Addr.ofNat 70) alice
  have e0 : balanceOf toyWorld (Addr.ofNat 70) alice = 0 := by decide +kernel
  have e1 : listed toyWorld.maps [(evm70, 1000)] (Addr.ofNat 70) = 1000 := by decide +kernel
  have e2 : ¬ alice = bob := by decide +kernel
  rw [h2, e0, e1, if_neg e2] at this
  simp at this

/-! ### C26 -/

/-- Allowances, owners and kind of each token. -/
def grants (w : World) (k : Addr) : Option (Bool × (Addr → Addr → Nat) × Addr) :=
  (w.tokens k).map fun p => (p.1, p.2.allow, p.2.owner)

theorem sudoBurn_step {c : Chain} {w w' : World} {a f : Addr} {amt : Nat}
    (h : callToken c w c.chainAddr a (.sudoBurn f amt) = some w') (hc : (w.tokens a).isSome) :
    w'.maps = w.maps ∧ w'.erc20s = w.erc20s ∧ (∀ k, grants w' k = grants w k) ∧
    (∀ k, (w'.tokens k).isSome = (w.tokens k).isSome) ∧
    (∀ k, supplyOf w' k + (if k = a then amt else 0) = supplyOf w k) ∧
    ∀ k x, balanceOf w' k x + (if k = a ∧ x = f then amt else 0) = balanceOf w k x := by
  obtain ⟨e1, e2, e3, e4, h5⟩ := callToken_spec h
  rcases h5 with ⟨hn, _⟩ | ⟨s, t, t', h1, h2, h3⟩
  · rw [hn] at hc; cases hc
  · simp only [exec] at h2
    split at h2
    · cases h2
    · obtain ⟨g1, g2, g3, g4, g5, g6⟩ := doBurn_spec h2
      refine ⟨e1, e2, ?_, ?_, ?_, ?_⟩
      · intro k
        by_cases hk : k = a
        · subst hk; simp [grants, h1, h3, g4, g5]
        · simp [grants, e4 k hk]
      · intro k
        by_cases hk : k = a
        · subst hk; simp [h1, h3]
        · simp [e4 k hk]
      · intro k
        by_cases hk : k = a
        · subst hk; simp [supplyOf, h1, h3, g3]; omega
        · simp [supplyOf, e4 k hk, hk]
      · intro k x
        by_cases hk : k = a
        · subst hk; simp only [balanceOf, h1, h3, g6, setB, true_and]
          by_cases hx : x = f
          · subst hx; simp; omega
          · simp [hx]
        · simp [balanceOf, e4 k hk, hk]

/-- What destroying `coins` held by `f` must do. -/
def Destroyed (w w' : World) (coins : Coins) (f : Addr) : Prop :=
  (∀ k x, balanceOf w' k x + (if x = f then listed w.maps coins k else 0) = balanceOf w k x) ∧
  (∀ k, supplyOf w' k + listed w.maps coins k = supplyOf w k)

/-- **C26 (partial: no third-party coin in the list).** Burning coins made by the chain destroys exactly the listed
amounts: the holder's balances and the supplies drop by exactly that, nothing else changes. -/
theorem C26_partial (c : Chain) (p : Params) (f : Addr) (all coins : Coins) (w w' : World)
    (hne : ∀ x ∈ coins, isERC20Denom x.1 = false) (hd : Deployed w coins)
    (h : burnCoins c p f all coins w = some w') :
    Destroyed w w' coins f ∧ (∀ k, grants w' k = grants w k) ∧ w'.maps = w.maps ∧ w'.erc20s = w.erc20s := by
  induction coins generalizing w with
  | nil =>
    simp only [burnCoins, Option.some.injEq] at h; subst h
    exact ⟨⟨by intro k x; simp [listed_nil], by intro k; simp [listed_nil]⟩, fun _ => rfl, rfl, rfl⟩
  | cons x rest ih =>
    obtain ⟨d, amt⟩ := x
    have hx := hne (d, amt) (List.mem_cons_self ..)
    simp only at hx
    simp only [burnCoins, hx] at h
    split at h
    · rename_i hh; cases hh
    · split at h
      · cases h
      · rename_i a ha
        split at h
        · cases h
        · rename_i w1 h1
          have hca := hd (d, amt) (List.mem_cons_self ..) a ha
          obtain ⟨e1, e2, e3, e4, e5, e6⟩ := sudoBurn_step h1 hca
          have hd1 : Deployed w1 rest := by
            intro y hy b hb
            rw [e4]
            exact hd y (List.mem_cons_of_mem _ hy) b (by rw [← e1]; exact hb)
          obtain ⟨⟨m1, m1'⟩, m2, m3, m4⟩ := ih w1 (fun y hy => hne y (List.mem_cons_of_mem _ hy)) hd1 h
          refine ⟨⟨?_, ?_⟩, fun k => (m2 k).trans (e3 k), m3.trans e1, m4.trans e2⟩
          · intro k y
            have a1 := m1 k y
            have a2 := e6 k y
            rw [e1] at a1
            rw [listed_cons, ha]
            simp only [Option.some.injEq]
            by_cases hk : k = a
            · subst hk
              simp only [if_true, true_and] at a2 ⊢
              ifs (y = f) (y = f) at a1 a2
            · have : a ≠ k := fun e => hk e.symm
              simp only [hk, false_and, if_false, this] at a2 ⊢
              ifs (y = f) (y = f) at a1 a2
          · intro k
            have a1 := m1' k
            have a2 := e5 k
            rw [e1] at a1
            rw [listed_cons, ha]
            simp only [Option.some.injEq]
            by_cases hk : k = a
            · subst hk; simp only [if_true] at a2 ⊢; omega
            · have : a ≠ k := fun e => hk e.symm
              simp only [hk, if_false, this] at a2 ⊢; omega

/-- **C26 (partial: a single third-party coin).** Such a coin is not destroyed but moved to the community pool:
exactly the listed amount leaves the holder and arrives at the pool, supplies unchanged. -/
theorem C26_pool_partial (c : Chain) (p : Params) (f : Addr) (d : Str) (n : Nat) (w w' : World)
    (he : isERC20Denom d = true) (hd : Deployed w [(d, n)])
    (h : burnCoins c p f [(d, n)] [(d, n)] w = some w') :
    Moved w w' [(d, n)] f p.feeCollector ∧ (∀ k, others w' k = others w k) ∧ w'.maps = w.maps ∧
    w'.erc20s = w.erc20s := by
  unfold burnCoins at h
  rw [if_pos he] at h
  split at h
  · cases h
  · rename_i w1 h1
    simp only [burnCoins, Option.some.injEq] at h; subst h
    obtain ⟨a1, a2, a3, a4, _⟩ := C25_partial c f p.feeCollector _ w w1 hd h1
    exact ⟨a1, a2, a3, a4⟩

/-- Both cases happen. -/
example : ((burnCoins toyChain toyParams alice [(uinit, 30)] [(uinit, 30)] toyWorld).map fun w =>
    [balanceOf w (Addr.ofNat 50) alice, supplyOf w (Addr.ofNat 50)]) = some [70, 70] ∧
    ((burnCoins toyChain toyParams alice [(evm60, 30)] [(evm60, 30)] toyWorld).map fun w =>
    [balanceOf w (Addr.ofNat 60) alice, supplyOf w (Addr.ofNat 60),
      balanceOf w (Addr.ofNat 60) toyParams.feeCollector]) = some [70, 100, 30] := by
  constructor <;> decide +kernel

/-- **C26 fails** when a third-party coin is listed with another coin: the whole list is sent to the community pool
and the other coin is burned on top. Burning (7 of a third-party token, 30 uinit) takes 60 uinit. -/
theorem C26_violated : ¬ ∀ (c : Chain) (p : Params) (f : Addr) (coins : Coins) (w w' : World), Deployed w coins →
    burnCoins c p f coins coins w = some w' → ∀ k, f ≠ p.feeCollector →
    balanceOf w' k f + listed w.maps coins k = balanceOf w k f := by
  intro h
  have hd : Deployed toyWorld [(evm60, 7), (uinit, 30)] := by
    intro x hx a ha
    simp only [List.mem_cons, List.not_mem_nil, or_false] at hx
    rcases hx with rfl | rfl
    · have e : denomToContract toyWorld.maps evm60 = some (Addr.ofNat 60) := by decide +kernel
      rw [e] at ha; cases ha; decide +kernel
    · have e : denomToContract toyWorld.maps uinit = some (Addr.ofNat 50) := by decide +kernel
      rw [e] at ha; cases ha; decide +kernel
  have hv : ((burnCoins toyChain toyParams alice [(evm60, 7), (uinit, 30)] [(evm60, 7), (uinit, 30)] toyWorld).map
      fun w => balanceOf w (Addr.ofNat 50) alice) = some 40 := by decide +kernel
  cases hb : burnCoins toyChain toyParams alice [(evm60, 7), (uinit, 30)] [(evm60, 7), (uinit, 30)] toyWorld with
  | none => rw [hb] at hv; cases hv
  | some w' =>
    rw [hb] at hv
    simp only [Option.map_some, Option.some.injEq] at hv
    have := h _ _ _ _ _ _ hd hb (Addr.ofNat 50) (by decide +kernel)
    have e0 : balanceOf toyWorld (Addr.ofNat 50) alice = 100 := by decide +kernel
    have e1 : listed toyWorld.maps [(evm60, 7), (uinit, 30)] (Addr.ofNat 50) = 30 := by decide +kernel
    rw [hv, e0, e1] at this
    omega

/-! ### C27 -/

theorem sudoMint_step {c : Chain} {w w' : World} {a r : Addr} {amt : Nat}
    (h : callToken c w c.chainAddr a (.sudoMint r amt) = some w') (hc : (w.tokens a).isSome) :
    w'.maps = w.maps ∧ w'.erc20s = w.erc20s ∧ w'.factoryNonce = w.factoryNonce ∧
    (∀ k, (w'.tokens k).isSome = (w.tokens k).isSome) ∧
    (∀ k, k ≠ a → w'.tokens k = w.tokens k) ∧
    (∀ k, grants w' k = grants w k) ∧
    (∀ k, supplyOf w' k = supplyOf w k + (if k = a then amt else 0)) ∧
    ∀ k x, balanceOf w' k x = balanceOf w k x + (if k = a ∧ x = r then amt else 0) := by
  obtain ⟨e1, e2, e3, e4, h5⟩ := callToken_spec h
  rcases h5 with ⟨hn, _⟩ | ⟨s, t, t', h1, h2, h3⟩
  · rw [hn] at hc; cases hc
  · simp only [exec] at h2
    split at h2
    · cases h2
    · obtain ⟨g1, g2, g3, g4, g5⟩ := doMint_spec h2
      refine ⟨e1, e2, e3, ?_, e4, ?_, ?_, ?_⟩
      · intro k
        by_cases hk : k = a
        · subst hk; simp [h1, h3]
        · simp [e4 k hk]
      · intro k
        by_cases hk : k = a
        · subst hk; simp [grants, h1, h3, g3, g4]
        · simp [grants, e4 k hk]
      · intro k
        by_cases hk : k = a
        · subst hk; simp [supplyOf, h1, h3, g1]
        · simp [supplyOf, e4 k hk, hk]
      · intro k x
        by_cases hk : k = a
        · subst hk; simp only [balanceOf, h1, h3, g5, setB, true_and]
          by_cases hx : x = r
          · subst hx; simp
          · simp [hx]
        · simp [balanceOf, e4 k hk, hk]

/-- The world as the bank keeps it: every denom's contract exists, and no contract exists yet where the factory will
deploy next (contract addresses are never reused). -/
structure Consistent (p : Params) (w : World) : Prop where
  denoms : ∀ d a, w.maps.toAddr d = some a → (w.tokens a).isSome
  fresh : ∀ n, w.factoryNonce ≤ n → n < 2 ^ 64 → w.tokens (p.deployed n) = none

/-- Different nonces (64-bit) of the factory give different contract addresses (keccak collision resistance). -/
def NoCollision (p : Params) : Prop := ∀ n m, n < 2 ^ 64 → m < 2 ^ 64 → p.deployed n = p.deployed m → n = m

/-- What creating `coins` for `r` must do. The denoms are read in the new state, where each has a contract. -/
def Created (w w' : World) (coins : Coins) (r : Addr) : Prop :=
  (∀ k x, balanceOf w' k x = balanceOf w k x + (if x = r then listed w'.maps coins k else 0)) ∧
  (∀ k, supplyOf w' k = supplyOf w k + listed w'.maps coins k)

/-- The maps only grow. -/
def Extends (m m' : Maps) : Prop := ∀ d a, m.toAddr d = some a → m'.toAddr d = some a

/-- One iteration's contract creation. -/
def ensure (c : Chain) (p : Params) (w : World) (d : Str) : World :=
  match w.maps.toAddr d with
  | some _ => w
  | none =>
    let r := factoryCreate p w c.chainAddr
    { r.1 with maps := createERC20 r.1.maps d r.2 }

theorem ensure_spec (c : Chain) (p : Params) (hinj : NoCollision p) (w : World)
    (hw : Consistent p w) (hlim : w.factoryNonce < 2 ^ 64) (d : Str) :
    Consistent p (ensure c p w d) ∧ Extends w.maps (ensure c p w d).maps ∧
    (∃ a, (ensure c p w d).maps.toAddr d = some a) ∧
    (∀ d', d' ≠ d → (ensure c p w d).maps.toAddr d' = w.maps.toAddr d') ∧
    (∀ k x, balanceOf (ensure c p w d) k x = balanceOf w k x) ∧
    (∀ k, supplyOf (ensure c p w d) k = supplyOf w k) ∧
    (∀ k, (w.tokens k).isSome → (ensure c p w d).tokens k = w.tokens k) ∧
    (ensure c p w d).factoryNonce = w.factoryNonce + (if w.maps.toAddr d = none then 1 else 0) := by
  unfold ensure
  cases hd : w.maps.toAddr d with
  | some a =>
    exact ⟨hw, fun _ _ h => h, ⟨a, hd⟩, fun _ _ => rfl, fun _ _ => rfl, fun _ => rfl, fun _ _ => rfl, by simp⟩
  | none =>
    have hf := hw.fresh w.factoryNonce (Nat.le_refl _) hlim
    refine ⟨⟨?_, ?_⟩, ?_, ?_, ?_, ?_, ?_, ?_, by simp [factoryCreate]⟩
    · intro d' a' h
      simp only [factoryCreate, createERC20] at h ⊢
      split
      · rfl
      · rename_i hne
        split at h
        · cases h; exact absurd rfl hne
        · exact hw.denoms d' a' h
    · intro n hn hn2
      simp only [factoryCreate] at hn ⊢
      split
      · rename_i e; have := hinj _ _ hn2 hlim e; omega
      · exact hw.fresh n (by omega) hn2
    · intro d' a' h
      simp only [factoryCreate, createERC20]
      split
      · rename_i e; subst e; rw [hd] at h; cases h
      · exact h
    · exact ⟨p.deployed w.factoryNonce, by simp [factoryCreate, createERC20]⟩
    · intro d' hne; simp [factoryCreate, createERC20, hne]
    · intro k x
      simp only [factoryCreate, balanceOf]
      by_cases hk : k = p.deployed w.factoryNonce
      · subst hk; simp [hf, Token.fresh]
      · simp [hk]
    · intro k
      simp only [factoryCreate, supplyOf]
      by_cases hk : k = p.deployed w.factoryNonce
      · subst hk; simp [hf, Token.fresh]
      · simp [hk]
    · intro k hk
      simp only [factoryCreate]
      by_cases hk' : k = p.deployed w.factoryNonce
      · subst hk'; rw [hf] at hk; cases hk
      · simp [hk']

theorem mintCoins_cons (c : Chain) (p : Params) (r : Addr) (d : Str) (amt : Nat) (rest : Coins) (w : World) :
    mintCoins c p r ((d, amt) :: rest) w =
      if isERC20Denom d then none
      else match denomToContract (ensure c p w d).maps d with
        | none => none
        | some a => match callToken c (ensure c p w d) c.chainAddr a (.sudoMint r amt) with
          | none => none
          | some w' => mintCoins c p r rest w' := rfl

/-- **C27.** A successful mint lists no third-party (`evm/`) coin, gives every listed denom a contract (existing denoms
keep theirs), credits the recipient with exactly the listed amounts, raises the supplies by exactly that and changes
nothing else. -/
theorem C27_mint (c : Chain) (p : Params) (hinj : NoCollision p) (r : Addr)
    (coins : Coins) (w w' : World) (hw : Consistent p w)
    (hlim : w.factoryNonce + coins.length < 2 ^ 64) (h : mintCoins c p r coins w = some w') :
    (∀ x ∈ coins, isERC20Denom x.1 = false) ∧
    (∀ x ∈ coins, ∃ a, w'.maps.toAddr x.1 = some a) ∧ Extends w.maps w'.maps ∧
    (∀ d, d ∉ coins.map Prod.fst → w'.maps.toAddr d = w.maps.toAddr d) ∧
    Created w w' coins r ∧ Consistent p w' := by
  induction coins generalizing w with
  | nil =>
    simp only [mintCoins, Option.some.injEq] at h; subst h
    exact ⟨by simp, by simp, fun _ _ h => h, fun _ _ => rfl, ⟨by simp [listed_nil], by simp [listed_nil]⟩, hw⟩
  | cons x rest ih =>
    obtain ⟨d, amt⟩ := x
    rw [mintCoins_cons] at h
    simp only [List.length_cons] at hlim
    split at h
    · cases h
    · rename_i hne
      have hne' : isERC20Denom d = false := by simpa using hne
      obtain ⟨v1, v2, ⟨a0, v3⟩, v4, v5, v6, v7, v8⟩ := ensure_spec c p hinj w hw (by omega) d
      generalize hw1 : ensure c p w d = w1 at *
      have hda : ∀ m : Maps, denomToContract m d = m.toAddr d := by intro m; simp [denomToContract, hne']
      rw [hda, v3] at h
      simp only at h
      split at h
      · cases h
      · rename_i w2 h2
        obtain ⟨e1, e2, e3, e4, e4', _, e5, e6⟩ := sudoMint_step h2 (v1.denoms d a0 v3)
        have hlim2 : w2.factoryNonce + rest.length < 2 ^ 64 := by
          rw [e3, v8]; split <;> omega
        have hw2 : Consistent p w2 := by
          refine ⟨?_, ?_⟩
          · intro d' a' hd'; rw [e4]; rw [e1] at hd'; exact v1.denoms d' a' hd'
          · intro n hn hn2; rw [e3] at hn
            have := v1.fresh n hn hn2
            have g := e4 (p.deployed n)
            rw [this] at g
            simpa using g
        obtain ⟨m1, m2, m3, m4, ⟨m5, m6⟩, m7⟩ := ih w2 hw2 hlim2 h
        have hfin : w'.maps.toAddr d = some a0 := m3 d a0 (by rw [e1]; exact v3)
        refine ⟨?_, ?_, ?_, ?_, ⟨?_, ?_⟩, m7⟩
        · intro y hy
          rcases List.mem_cons.mp hy with rfl | hy
          · exact hne'
          · exact m1 y hy
        · intro y hy
          rcases List.mem_cons.mp hy with rfl | hy
          · exact ⟨a0, hfin⟩
          · exact m2 y hy
        · intro d' a' hd'; exact m3 d' a' (by rw [e1]; exact v2 d' a' hd')
        · intro d' hd'
          simp only [List.map_cons, List.mem_cons, not_or] at hd'
          rw [m4 d' hd'.2, e1, v4 d' hd'.1]
        · intro k y
          rw [m5, e6, v5, listed_cons, hda, hfin]
          simp only [Option.some.injEq]
          by_cases hk : k = a0
          · subst hk
            by_cases hy : y = r
            · simp [hy]; omega
            · simp [hy]
          · have : a0 ≠ k := fun e => hk e.symm
            simp [hk, this]
        · intro k
          rw [m6, e5, v6, listed_cons, hda, hfin]
          simp only [Option.some.injEq]
          by_cases hk : k = a0
          · subst hk; simp; omega
          · have : a0 ≠ k := fun e => hk e.symm
            simp [hk, this]

/-- **C27 (third-party tokens).** A mint never touches a contract that has no denom of its own. -/
theorem C27_third_party (c : Chain) (p : Params) (hinj : NoCollision p) (r : Addr)
    (coins : Coins) (w w' : World) (hw : Consistent p w)
    (hlim : w.factoryNonce + coins.length < 2 ^ 64) (h : mintCoins c p r coins w = some w') (k : Addr)
    (hk : ∀ d, w'.maps.toAddr d ≠ some k) :
    supplyOf w' k = supplyOf w k ∧ ∀ x, balanceOf w' k x = balanceOf w k x := by
  obtain ⟨h1, _, _, _, ⟨h5, h6⟩, _⟩ := C27_mint c p hinj r coins w w' hw hlim h
  have : listed w'.maps coins k = 0 := by
    clear h h5 h6 hlim
    revert h1
    generalize coins = cs
    induction cs with
    | nil => intro _; rfl
    | cons x xs ih2 =>
      intro h1
      obtain ⟨d, n⟩ := x
      have hx := h1 (d, n) (List.mem_cons_self ..)
      have : denomToContract w'.maps d = w'.maps.toAddr d := by simp only at hx; simp [denomToContract, hx]
      rw [listed_cons, this, if_neg (hk d), ih2 (fun y hy => h1 y (List.mem_cons_of_mem _ hy))]
  exact ⟨by rw [h6, this, Nat.add_zero], fun x => by rw [h5, this]; simp⟩

/-- **C27 (creation).** Exactly one contract is created per listed denom that had none (coin lists carry each denom
once). -/
theorem C27_creates (c : Chain) (p : Params) (hinj : NoCollision p) (r : Addr)
    (coins : Coins) (w w' : World) (hw : Consistent p w)
    (hlim : w.factoryNonce + coins.length < 2 ^ 64) (h : mintCoins c p r coins w = some w')
    (hnd : (coins.map Prod.fst).Nodup) :
    w'.factoryNonce = w.factoryNonce + ((coins.map Prod.fst).filter fun d => w.maps.toAddr d = none).length := by
  induction coins generalizing w with
  | nil => simp only [mintCoins, Option.some.injEq] at h; subst h; simp
  | cons x rest ih =>
    obtain ⟨d, amt⟩ := x
    rw [mintCoins_cons] at h
    simp only [List.length_cons] at hlim
    split at h
    · cases h
    · rename_i hne
      have hne' : isERC20Denom d = false := by simpa using hne
      obtain ⟨v1, v2, ⟨a0, v3⟩, v4, v5, v6, v7, v8⟩ := ensure_spec c p hinj w hw (by omega) d
      generalize hw1 : ensure c p w d = w1 at *
      have hda : ∀ m : Maps, denomToContract m d = m.toAddr d := by intro m; simp [denomToContract, hne']
      rw [hda, v3] at h
      simp only at h
      split at h
      · cases h
      · rename_i w2 h2
        obtain ⟨e1, e2, e3, e4, e4', _, e5, e6⟩ := sudoMint_step h2 (v1.denoms d a0 v3)
        have hlim2 : w2.factoryNonce + rest.length < 2 ^ 64 := by
          rw [e3, v8]; split <;> omega
        have hw2 : Consistent p w2 := by
          refine ⟨?_, ?_⟩
          · intro d' a' hd'; rw [e4]; rw [e1] at hd'; exact v1.denoms d' a' hd'
          · intro n hn hn2; rw [e3] at hn
            have := v1.fresh n hn hn2
            have g := e4 (p.deployed n)
            rw [this] at g
            simpa using g
        simp only [List.map_cons, List.nodup_cons] at hnd
        have := ih w2 hw2 hlim2 h hnd.2
        rw [this, e3, v8]
        have hcong : ((rest.map Prod.fst).filter fun d => decide (w2.maps.toAddr d = none)) =
            ((rest.map Prod.fst).filter fun d => decide (w.maps.toAddr d = none)) := by
          apply List.filter_congr
          intro d' hd'
          have : d' ≠ d := by intro e; subst e; exact hnd.1 hd'
          rw [e1, v4 d' this]
        rw [hcong, List.map_cons, List.filter_cons]
        by_cases hd0 : w.maps.toAddr d = none
        · simp [hd0]; omega
        · simp [hd0]

/-- **C27 (refusal).** A list with a third-party coin is refused, whatever comes before it. -/
theorem C27_refuses (c : Chain) (p : Params) (r : Addr) (coins : Coins) (w : World)
    (h : ∃ x ∈ coins, isERC20Denom x.1 = true) : mintCoins c p r coins w = none := by
  induction coins generalizing w with
  | nil => obtain ⟨x, hx, _⟩ := h; cases hx
  | cons y rest ih =>
    obtain ⟨d, amt⟩ := y
    rw [mintCoins_cons]
    split
    · rfl
    · rename_i hne
      have : ∃ x ∈ rest, isERC20Denom x.1 = true := by
        obtain ⟨x, hx, hx'⟩ := h
        rcases List.mem_cons.mp hx with rfl | hx
        · exact absurd hx' hne
        · exact ⟨x, hx, hx'⟩
      split
      · rfl
      · split
        · rfl
        · exact ih _ this

def uatom : Str := "uatom".toList

example : Consistent toyParams toyWorld := by
  refine ⟨?_, ?_⟩
  · intro d a h
    simp only [toyWorld, createERC20, Maps.empty] at h ⊢
    split at h
    · cases h; decide +kernel
    · cases h
  · intro n _ hn
    have big : ∀ m, m < 256 → toyParams.deployed n ≠ ⟨toBE 20 m, toBE_length _ _⟩ := by
      intro m hm e
      have := congrArg (fun a : Addr => fromBE a.bytes) e
      simp only [toyParams] at this
      rw [fromBE_toBE 20 _ (by omega), fromBE_toBE 20 _ (by omega)] at this
      omega
    have h50 := big 50 (by omega)
    have h60 := big 60 (by omega)
    have e50 : (⟨toBE 20 50, toBE_length _ _⟩ : Addr) = Addr.ofNat 50 := by decide +kernel
    have e60 : (⟨toBE 20 60, toBE_length _ _⟩ : Addr) = Addr.ofNat 60 := by decide +kernel
    rw [e50] at h50
    rw [e60] at h60
    simp [toyWorld, h50, h60]

example : NoCollision toyParams := by
  intro n m hn hm e
  have := congrArg (fun a : Addr => fromBE a.bytes) e
  simp only [toyParams] at this
  rw [fromBE_toBE 20 _ (by omega), fromBE_toBE 20 _ (by omega)] at this
  omega

/-- A mint of a known and a new denom. -/
example : ((mintCoins toyChain toyParams bob [(uinit, 5), (uatom, 9)] toyWorld).map fun w =>
    (balanceOf w (Addr.ofNat 50) bob, supplyOf w (Addr.ofNat 50), w.maps.toAddr uatom = some (toyParams.deployed 1),
     balanceOf w (toyParams.deployed 1) bob, w.factoryNonce)).map (fun x => (x.1, x.2.1, x.2.2.2)) =
    some (5, 105, 9, 2) := by decide +kernel

end Verif.Props.Ledger
