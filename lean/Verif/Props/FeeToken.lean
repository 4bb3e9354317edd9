import Verif.Props.Value
import Verif.Model.FeeToken
/-
C70 and C74: the balances in the model of the state database (Verif.Model.World, a plain function from addresses to
amounts) are those of the fee token's contract (Verif.Model.Tokens), through every operation of the state database.
-/
namespace Verif.Props.FeeToken
open Verif Verif.Tokens Verif.Props.Tokens Verif.Props.Ledger Verif.Props.Value
open Verif.World (StateOp)
open Verif.FeeToken

/-- What an operation adds to the supply. -/
def credit : StateOp → Nat
  | .addBalance _ n => n
  | _ => 0

/-- The operations that reach the fee token's contract. -/
def touches : StateOp → Bool
  | .addBalance .. => true
  | .subBalance .. => true
  | .selfDestruct _ => true
  | .selfDestruct6780 _ => true
  | _ => false

/-- The fee token is a deployed contract with the chain's mint and burn entry points, its books are in order with supply `s`,
and the state database's balances are its balances. -/
def Linked (fee : Addr) (W : World.World) (w : Tokens.World) (s : Nat) : Prop :=
  ∃ t, w.tokens fee = some (true, t) ∧ Sound t ∧ t.supply = s ∧ ∀ a, W.bal a = t.bal a

theorem linked_balance {fee : Addr} {W : World.World} {w : Tokens.World} {s : Nat} (h : Linked fee W w s) (a : Addr) :
    Value.getBalance w fee a = W.getBalance a := by
  obtain ⟨t, h1, _, _, h3⟩ := h
  simp only [Value.getBalance, balanceOf, h1, World.World.getBalance, h3]

theorem sub_linked {c : Chain} {fee : Addr} {W : World.World} {w : Tokens.World} {s : Nat} (h : Linked fee W w s) (a : Addr)
    (n : Nat) :
    (∀ W', W.subBalance a n = some W' → ∃ w' s', Value.subBalance c fee w a n = some w' ∧ s' ≤ s ∧ Linked fee W' w' s') ∧
    (W.subBalance a n = none → Value.subBalance c fee w a n = none) := by
  by_cases hn : n = 0
  · subst hn
    simp only [World.World.subBalance, Value.subBalance, if_true, Option.some.injEq, reduceCtorEq, false_implies, and_true]
    intro W' e; subst e; exact ⟨w, s, rfl, Nat.le_refl _, h⟩
  · obtain ⟨t, h1, h2, hs0, h3⟩ := h
    simp only [World.World.subBalance, Value.subBalance, if_neg hn]
    have hex : exec c true c.chainAddr (.sudoBurn a n) t = doBurn t a n := by simp [exec]
    have hcall := call_token (c := c) h1 c.chainAddr (.sudoBurn a n)
    rw [hex] at hcall
    by_cases hb : n ≤ W.bal a
    · have hb' : n ≤ t.bal a := by rw [← h3]; exact hb
      have hs : n ≤ t.supply := Nat.le_trans hb' (sumsTo_set h2.1 a 0).1
      have hd : doBurn t a n = some { t with bal := setB t.bal a (t.bal a - n), supply := t.supply - n } := by
        simp [doBurn, subU, hb', hs]
      rcases hcall with ⟨e, _⟩ | ⟨t', w', e1, e2, e3, e4⟩
      · rw [hd] at e; cases e
      · rw [if_pos hb]
        refine ⟨?_, by simp⟩
        intro W' e
        simp only [Option.some.injEq] at e
        subst e
        refine ⟨w', s - n, e2, Nat.sub_le _ _, t', e3, exec_sound c true c.chainAddr (.sudoBurn a n) t t' (by rw [hex, e1]) h2, ?_, ?_⟩
        · rw [hd] at e1; cases e1; simp [hs0]
        · intro x
          rw [hd] at e1; cases e1
          by_cases hx : x = a
          · subst hx; simp [World.upd, setB, h3]
          · simp [World.upd, setB, hx, h3]
    · have hb' : ¬ n ≤ t.bal a := by rw [← h3]; exact hb
      rw [if_neg hb]
      refine ⟨by simp, fun _ => ?_⟩
      have hd : doBurn t a n = none := by simp [doBurn, subU, hb']
      rcases hcall with ⟨_, e⟩ | ⟨t', w', e1, _⟩
      · exact e
      · rw [hd] at e1; cases e1

theorem add_linked {c : Chain} {fee : Addr} {W : World.World} {w : Tokens.World} {s : Nat} (h : Linked fee W w s) (a : Addr)
    (n : Nat) :
    (s + n < 2 ^ 256 → ∃ W' w', W.addBalance a n = some W' ∧ Value.addBalance c fee w a n = some w' ∧
      Linked fee W' w' (s + n)) ∧
    (2 ^ 256 ≤ s + n → n ≠ 0 → Value.addBalance c fee w a n = none) := by
  obtain ⟨t, h1, h2, hs0, h3⟩ := h
  by_cases hn : n = 0
  · subst hn
    simp only [World.World.addBalance, Value.addBalance, if_true, ne_eq, not_true, false_implies, implies_true, and_true]
    intro _; exact ⟨W, w, rfl, rfl, t, h1, h2, by simpa using hs0, h3⟩
  · simp only [World.World.addBalance, Value.addBalance, if_neg hn]
    have hex : exec c true c.chainAddr (.sudoMint a n) t = doMint t a n := by simp [exec]
    have hcall := call_token (c := c) h1 c.chainAddr (.sudoMint a n)
    rw [hex] at hcall
    have hle := (sumsTo_set h2.1 a 0).1
    constructor
    · intro hlt
      have hb : t.bal a + n < 2 ^ 256 := by omega
      have hd : doMint t a n = some { t with bal := setB t.bal a (t.bal a + n), supply := t.supply + n } := by
        simp only [doMint, addU]
        rw [if_pos hb, if_pos (by omega)]
      rcases hcall with ⟨e, _⟩ | ⟨t', w', e1, e2, e3, e4⟩
      · rw [hd] at e; cases e
      · rw [if_pos (by rw [h3]; exact hb)]
        refine ⟨_, w', rfl, e2, t', e3, exec_sound c true c.chainAddr (.sudoMint a n) t t' (by rw [hex, e1]) h2, ?_, ?_⟩
        · rw [hd] at e1; cases e1; simp [hs0]
        · intro x
          rw [hd] at e1; cases e1
          by_cases hx : x = a
          · subst hx; simp [World.upd, setB, h3]
          · simp [World.upd, setB, hx, h3]
    · intro hge _
      have hd : doMint t a n = none := by
        simp only [doMint, addU]
        rw [if_neg (show ¬ t.supply + n < 2 ^ 256 by omega)]
        split <;> simp_all
      rcases hcall with ⟨_, e⟩ | ⟨t', w', e1, _⟩
      · exact e
      · rw [hd] at e1; cases e1

/-- Operations that do not reach the contract leave the balances alone. -/
theorem step_bal {keccak : Bytes → Hash} {e : Nat} {op : StateOp} {W W' : World.World} (ht : touches op = false)
    (h : W.step keccak e op = some W') : W'.bal = W.bal := by
  cases op with
  | addBalance => simp [touches] at ht
  | subBalance => simp [touches] at ht
  | selfDestruct => simp [touches] at ht
  | selfDestruct6780 => simp [touches] at ht
  | addRefund g => simp only [World.World.step, World.World.addRefund] at h; split at h <;> cases h; rfl
  | subRefund g =>
    simp only [World.World.step, World.World.subRefund] at h
    split at h
    · cases h
    · split at h <;> cases h; rfl
  | addAddress a => simp only [World.World.step, Option.some.injEq] at h; subst h; rfl
  | addSlot a s =>
    simp only [World.World.step, Option.some.injEq] at h; subst h
    simp only [World.World.addSlot]; split <;> rfl
  | createAccount a => simp only [World.World.step, Option.some.injEq] at h; subst h; rfl
  | createContract a =>
    simp only [World.World.step, World.World.createContract] at h
    split at h
    · split at h <;> cases h; rfl
    · cases h; rfl
  | setCode a code =>
    simp only [World.World.step, World.World.setCode] at h
    split at h
    · cases h
      simp only [World.World.getOrNew]; split <;> rfl
    · cases h
  | setNonce a n =>
    simp only [World.World.step, Option.some.injEq] at h; subst h
    simp only [World.World.setNonce, World.World.getOrNew]; split <;> rfl
  | setState a s v => simp only [World.World.step, Option.some.injEq] at h; subst h; rfl
  | setTransientState a k v =>
    simp only [World.World.step, Option.some.injEq] at h; subst h
    simp only [World.World.setTransientState]; split <;> rfl
  | addLog l => simp only [World.World.step, World.World.addLog] at h; split at h <;> cases h; rfl

theorem onToken_other {c : Chain} {fee : Addr} {W : World.World} {e : Nat} {op : StateOp} {w : Tokens.World}
    (ht : touches op = false) : onToken c fee W e op w = some w ∧ credit op = 0 := by
  cases op <;> simp_all [touches, onToken, credit]

theorem destruct_linked {c : Chain} {fee : Addr} {W : World.World} {w : Tokens.World} {s : Nat} (h : Linked fee W w s)
    (e : Nat) (a : Addr) :
    ∃ W' w' s', { W with destructed := World.upd2 W.destructed e a true }.subBalance a (W.getBalance a) = some W' ∧
      Value.subBalance c fee w a (Value.getBalance w fee a) = some w' ∧ s' ≤ s ∧ Linked fee W' w' s' := by
  have h' : Linked fee { W with destructed := World.upd2 W.destructed e a true } w s := h
  obtain ⟨h1, _⟩ := sub_linked (c := c) h' a (W.getBalance a)
  rw [linked_balance h a]
  cases hw : { W with destructed := World.upd2 W.destructed e a true }.subBalance a (W.getBalance a) with
  | none =>
    simp only [World.World.subBalance] at hw
    by_cases h0 : W.getBalance a = 0
    · rw [if_pos h0] at hw; cases hw
    · rw [if_neg h0, if_pos (show W.getBalance a ≤ W.bal a from Nat.le_refl _)] at hw; cases hw
  | some W' =>
    obtain ⟨w', s', e1, e2, e3⟩ := h1 W' hw
    exact ⟨W', w', s', rfl, e1, e2, e3⟩

/-- **C70 (balances): one operation.** If the supply leaves room for what the operation adds, the plain balances and the fee
token's contract agree on whether the operation aborts and remain equal. -/
theorem C70_fee_step {keccak : Bytes → Hash} {c : Chain} {fee : Addr} {W : World.World} {w : Tokens.World} {s : Nat}
    (h : Linked fee W w s) (e : Nat) (op : StateOp) (hs : s + credit op < 2 ^ 256) :
    (∀ W', W.step keccak e op = some W' →
      ∃ w' s', onToken c fee W e op w = some w' ∧ s' ≤ s + credit op ∧ Linked fee W' w' s') ∧
    (touches op = true → W.step keccak e op = none → onToken c fee W e op w = none) := by
  by_cases ht : touches op = true
  · cases op with
    | addBalance a n =>
      obtain ⟨W', w', h1, h2, h3⟩ := (add_linked (c := c) h a n).1 hs
      simp only [World.World.step, onToken]
      rw [h1, h2]
      refine ⟨fun W'' hw => ?_, fun _ hw => by cases hw⟩
      cases hw
      exact ⟨w', s + n, rfl, Nat.le_refl _, h3⟩
    | subBalance a n =>
      obtain ⟨h1, h2⟩ := sub_linked (c := c) h a n
      simp only [World.World.step, onToken, credit]
      exact ⟨fun W' hw => h1 W' hw, fun _ hw => h2 hw⟩
    | selfDestruct a =>
      simp only [World.World.step, onToken, World.World.selfDestruct, credit]
      cases ha : W.acct a with
      | none =>
        refine ⟨fun W' hw => ?_, fun _ hw => by cases hw⟩
        cases hw
        exact ⟨w, s, by simp, Nat.le_refl _, h⟩
      | some acc =>
        obtain ⟨W', w', s', h1, h2, h3, h4⟩ := destruct_linked (c := c) h e a
        simp only [h1, reduceCtorEq, if_false, Option.some.injEq, implies_true, and_true, false_implies]
        intro W'' hw; subst hw
        exact ⟨w', s', h2, h3, h4⟩
    | selfDestruct6780 a =>
      simp only [World.World.step, onToken, World.World.selfDestruct6780, credit]
      cases ha : W.acct a with
      | none =>
        refine ⟨fun W' hw => ?_, fun _ hw => by cases hw⟩
        cases hw
        exact ⟨w, s, by simp, Nat.le_refl _, h⟩
      | some acc =>
        by_cases hc : W.created e a = true
        · obtain ⟨W', w', s', h1, h2, h3, h4⟩ := destruct_linked (c := c) h e a
          simp only [hc, World.World.selfDestruct, ha, h1, ne_eq, reduceCtorEq, not_false_eq_true, and_self, if_true,
            Option.some.injEq, implies_true, and_true, false_implies]
          intro W'' hw; subst hw
          exact ⟨w', s', h2, h3, h4⟩
        · simp only [if_neg hc, Option.some.injEq, reduceCtorEq, false_implies, implies_true, and_true]
          intro W'' hw; subst hw
          refine ⟨w, s, ?_, Nat.le_refl _, h⟩
          rw [if_neg (by simp [hc])]
    | _ => simp [touches] at ht
  · have ht' : touches op = false := by simpa using ht
    obtain ⟨h1, h2⟩ := onToken_other (c := c) (fee := fee) (W := W) (e := e) (w := w) ht'
    refine ⟨fun W' hw => ⟨w, s, h1, by omega, ?_⟩, fun h => absurd h ht⟩
    obtain ⟨t, a1, a2, a3, a4⟩ := h
    exact ⟨t, a1, a2, a3, by rw [step_bal ht' hw]; exact a4⟩

/-- What a list of operations adds to the supply. -/
def credits (ops : List (Nat × StateOp)) : Nat := (ops.map fun p => credit p.2).sum

/-- **C70 (balances): the state database's balances are the fee token's.** Start with balances equal to those of the fee
token's contract and perform any operations of any executions in any interleaving, together crediting no more than the
256 bits of the supply have room for. The fee token's contract never aborts where the plain balances do not, nor the other
way round, and afterwards every balance the state database reports is the one the contract reports; the contract's books are
still in order. -/
theorem C70_fee_token (keccak : Bytes → Hash) (c : Chain) (fee : Addr) (ops : List (Nat × StateOp)) :
    ∀ (W : World.World) (w : Tokens.World) (s : Nat), Linked fee W w s → s + credits ops < 2 ^ 256 →
    (runBoth keccak c fee (W, w) ops).map Prod.fst = W.run keccak ops ∧
    ∀ W' w', runBoth keccak c fee (W, w) ops = some (W', w') →
      (∃ s', s' ≤ s + credits ops ∧ Linked fee W' w' s') ∧ ∀ a, Value.getBalance w' fee a = W'.getBalance a := by
  induction ops with
  | nil =>
    intro W w s h _
    refine ⟨rfl, fun W' w' e => ?_⟩
    cases e
    exact ⟨⟨s, by omega, h⟩, linked_balance h⟩
  | cons x ops ih =>
    obtain ⟨e, op⟩ := x
    intro W w s h hs
    have hc : credits ((e, op) :: ops) = credit op + credits ops := by simp [credits]
    rw [hc] at hs ⊢
    obtain ⟨h1, h2⟩ := C70_fee_step (keccak := keccak) (c := c) h e op (by omega)
    simp only [runBoth, stepBoth, World.World.run]
    cases hw : W.step keccak e op with
    | none => simp
    | some W1 =>
      obtain ⟨w1, s1, e1, e2, e3⟩ := h1 W1 hw
      rw [e1]
      obtain ⟨i1, i2⟩ := ih W1 w1 s1 e3 (by omega)
      refine ⟨i1, fun W' w' hr => ?_⟩
      obtain ⟨⟨s', j1, j2⟩, j3⟩ := i2 W' w' hr
      exact ⟨⟨s', by omega, j2⟩, j3⟩

theorem burns_linked {c : Chain} {fee : Addr} (l : List Addr) : ∀ {W : World.World} {w : Tokens.World} {s : Nat},
    Linked fee W w s → ∃ w' s', commitBurns c fee w l = some w' ∧ s' ≤ s ∧
      Linked fee { W with bal := fun a => if a ∈ l then 0 else W.bal a } w' s' := by
  induction l with
  | nil => intro W w s h; exact ⟨w, s, rfl, Nat.le_refl _, by simpa using h⟩
  | cons a l ih =>
    intro W w s h
    obtain ⟨h1, _⟩ := sub_linked (c := c) h a (W.getBalance a)
    have hsub : W.subBalance a (W.getBalance a) = some { W with bal := World.upd W.bal a 0 } := by
      simp only [World.World.subBalance]
      by_cases h0 : W.getBalance a = 0
      · have : World.upd W.bal a 0 = W.bal := by
          funext x; simp only [World.upd]; split <;> simp_all [World.World.getBalance]
        rw [if_pos h0, this]
      · rw [if_neg h0, if_pos (show W.getBalance a ≤ W.bal a from Nat.le_refl _)]
        simp [World.World.getBalance]
    obtain ⟨w1, s1, e1, e2, e3⟩ := h1 _ hsub
    obtain ⟨w2, s2, f1, f2, f3⟩ := ih e3
    refine ⟨w2, s2, ?_, by omega, ?_⟩
    · simp only [commitBurns, linked_balance h a]
      rw [e1]; exact f1
    · obtain ⟨t, g1, g2, g3, g4⟩ := f3
      refine ⟨t, g1, g2, g3, fun x => ?_⟩
      rw [← g4 x]
      simp only [World.upd, List.mem_cons]
      by_cases hx : x = a
      · simp [hx]
      · simp [hx]

/-- **C70 (balances): committing.** Burning what the destructed addresses hold never aborts, and leaves the contract with the
balances of the committed state. -/
theorem C70_fee_commit {c : Chain} {fee : Addr} {W : World.World} {w : Tokens.World} {s : Nat} (h : Linked fee W w s) (e : Nat)
    (l : List Addr) (hl : ∀ a, a ∈ l ↔ W.destructed e a = true) :
    ∃ w' s', commitBurns c fee w l = some w' ∧ s' ≤ s ∧ Linked fee (W.commitDestructs e) w' s' := by
  obtain ⟨w', s', h1, h2, t, h3, h4, h5, h6⟩ := burns_linked (c := c) l h
  refine ⟨w', s', h1, h2, t, h3, h4, h5, fun a => ?_⟩
  rw [← h6 a]
  simp only [World.World.commitDestructs, hl]

/-- Without room in the supply the two differ: the contract refuses a credit that the receiver's own balance has room for. -/
theorem C70_fee_supply {c : Chain} {fee : Addr} {W : World.World} {w : Tokens.World} {s : Nat} (h : Linked fee W w s) (e a : Nat)
    (b : Addr) (hs : 2 ^ 256 ≤ s + a) (ha : a ≠ 0) : onToken c fee W e (.addBalance b a) w = none :=
  (add_linked h b a).2 hs ha

/-- The state database over the toy token: two accounts, the first created by execution 3. -/
def toyDB : World.World where
  acct := fun a => if a = alice ∨ a = bob then some ⟨.base, 1, 0, none⟩ else none
  nextNum := 2
  vm := fun _ => none
  tstate := fun _ _ => none
  created := fun e a => e = 3 ∧ a = alice
  destructed := fun _ _ => false
  logs := fun _ _ => none
  logSize := fun _ => some 0
  access := fun _ _ => false
  refund := fun _ => some 0
  bal := toyTok.bal

/-- Hypotheses are met: credits, debits, a self-destruct of what was created in the same execution, in two executions. -/
example : Linked feeTok toyDB toyWorld toyTok.supply := ⟨toyTok, rfl, toyTok_sound, rfl, fun _ => rfl⟩
example : ((runBoth (fun _ => Hash.ofNat 0) toyChain feeTok (toyDB, toyWorld)
    [(3, .subBalance alice 30), (3, .addBalance bob 30), (4, .setNonce bob 1), (4, .addBalance bob 5),
     (3, .selfDestruct6780 alice)]).map
    fun p => [p.1.bal alice, p.1.bal bob, Value.getBalance p.2 feeTok alice, Value.getBalance p.2 feeTok bob]) =
    some [0, 35, 0, 35] := by decide +kernel
example : (runBoth (fun _ => Hash.ofNat 0) toyChain feeTok (toyDB, toyWorld) [(3, .subBalance alice 101)]).isNone = true := by
  decide +kernel

end Verif.Props.FeeToken
