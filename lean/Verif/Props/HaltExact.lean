import Verif.Props.Halt
/-!
C92: exactly which transactions and blocks stop a node.
-/
namespace Verif.Halt
open Verif Verif.TxUtils Verif.SigAnte

variable {K : Type}

/-- **C92 (exact, transactions).** The indexer panics on a transaction exactly if it has one message, a memo that reads as
an Ethereum transaction's metadata, one signature that comes without a public key, and a fee that is not in a foreign
denom. Messages, signature and signer do not matter. -/
theorem C92_panics_iff (e : Env K) (t : ATx K) : convert e t = .panic ↔
    t.msgs.length = 1 ∧ t.memo ≠ [] ∧ (e.memoDec t.memo).isSome = true ∧ wrongFeeDenom e t.fee = false ∧
      ∃ sig, t.sigs = [sig] ∧ sig.pubKey = none := by
  unfold convert
  rcases hm : t.msgs with _ | ⟨m, _ | ⟨m', ms⟩⟩
  · simp
  · simp only [List.length_cons, List.length_nil, true_and]
    by_cases hmemo : t.memo = []
    · simp [hmemo]
    · rw [if_neg hmemo]
      cases hd : e.memoDec t.memo with
      | none => simp
      | some md =>
        rcases hs : t.sigs with _ | ⟨s, _ | ⟨s', ss⟩⟩
        · simp
        · simp only
          by_cases hw : wrongFeeDenom e t.fee = true
          · simp [hw]
          · rw [if_neg hw]
            simp only [Bool.not_eq_true] at hw
            cases hk : s.pubKey with
            | none => simp [hmemo, hw, hk]
            | some k =>
              simp only [hmemo, hw, List.cons.injEq, and_true, Option.isSome_some, not_false_eq_true, ne_eq, true_and]
              constructor
              · intro h
                exfalso
                revert h
                unfold Conv.of
                split <;> intro h <;> cases h
              · rintro ⟨sig, rfl, h⟩; rw [hk] at h; cases h
        · simp
  · simp

/-- Does a block stop a node? -/
def Stops (e : Env K) (stopOnErr : Bool) (b : List (Option (ATx K) × Bool)) : Prop :=
  listen e b = .panic ∨ (listen e b = .error ∧ stopOnErr = true)

/-- **C92 (exact, blocks).** Whatever is to happen with a block is decided by its first transaction that the indexer does
not get through. -/
theorem C92_block_iff (e : Env K) (o : Out) (ho : o ≠ .done) : ∀ b : List (Option (ATx K) × Bool), listen e b = o ↔
    ∃ pre t ok post, b = pre ++ (t, ok) :: post ∧ (∀ p ∈ pre, listenTx e p.1 p.2 = .done) ∧ listenTx e t ok = o
  | [] => by
    constructor
    · intro h; exact absurd h.symm ho
    · rintro ⟨pre, t, ok, post, h, _⟩; cases pre <;> cases h
  | (t, ok) :: rest => by
    rw [listen]
    cases ht : listenTx e t ok with
    | done =>
      simp only
      rw [C92_block_iff e o ho rest]
      constructor
      · rintro ⟨pre, t', ok', post, rfl, h1, h2⟩
        refine ⟨(t, ok) :: pre, t', ok', post, rfl, fun p hp => ?_, h2⟩
        rcases List.mem_cons.1 hp with rfl | hp
        · exact ht
        · exact h1 p hp
      · rintro ⟨pre, t', ok', post, h, h1, h2⟩
        cases pre with
        | nil => cases h; rw [ht] at h2; exact absurd h2.symm ho
        | cons p pre =>
          cases h
          exact ⟨pre, t', ok', post, rfl, fun p hp => h1 p (List.mem_cons_of_mem _ hp), h2⟩
    | error =>
      simp only
      constructor
      · rintro rfl; exact ⟨[], t, ok, rest, rfl, fun p hp => (by cases hp), ht⟩
      · rintro ⟨pre, t', ok', post, h, h1, h2⟩
        cases pre with
        | nil => cases h; rw [ht] at h2; exact h2
        | cons p pre =>
          cases h
          have := h1 (t, ok) (by simp)
          rw [ht] at this; cases this
    | panic =>
      simp only
      constructor
      · rintro rfl; exact ⟨[], t, ok, rest, rfl, fun p hp => (by cases hp), ht⟩
      · rintro ⟨pre, t', ok', post, h, h1, h2⟩
        cases pre with
        | nil => cases h; rw [ht] at h2; exact h2
        | cons p pre =>
          cases h
          have := h1 (t, ok) (by simp)
          rw [ht] at this; cases this

theorem step_pass (e : Env K) (stopOnErr : Bool) (chain : Nat → List (Option (ATx K) × Bool)) (n : Nat)
    (h : ¬ Stops e stopOnErr (chain (n + 1))) : step e stopOnErr chain ⟨n, true⟩ .block = ⟨n + 1, true⟩ := by
  simp only [step, if_true]
  cases hl : listen e (chain (n + 1)) with
  | done => rfl
  | panic => exact absurd (.inl hl) h
  | error =>
    cases hs : stopOnErr with
    | false => simp
    | true => exact absurd (.inr ⟨hl, hs⟩) h

theorem run_append (e : Env K) (s : Bool) (chain : Nat → List (Option (ATx K) × Bool)) :
    ∀ (a b : List Event) (n : Node), runNode e s chain n (a ++ b) = runNode e s chain (runNode e s chain n a) b
  | [], _, _ => rfl
  | _ :: a, b, n => by simp only [List.cons_append, runNode]; exact run_append e s chain a b _

/-- **C92 (exact, chains).** On every chain a node that starts from the beginning can get to block `h`, by whatever
sequence of blocks and restarts, exactly if none of the blocks up to `h` stops a node; and then it needs no restart. -/
theorem C92_exact (e : Env K) (stopOnErr : Bool) (chain : Nat → List (Option (ATx K) × Bool)) (h : Nat) :
    ((∃ evs, h ≤ (runNode e stopOnErr chain ⟨0, true⟩ evs).height) ↔ ∀ i, 1 ≤ i → i ≤ h → ¬ Stops e stopOnErr (chain i)) ∧
    ((∀ i, 1 ≤ i → i ≤ h → ¬ Stops e stopOnErr (chain i)) →
      runNode e stopOnErr chain ⟨0, true⟩ (List.replicate h .block) = ⟨h, true⟩) := by
  have fwd : (∀ i, 1 ≤ i → i ≤ h → ¬ Stops e stopOnErr (chain i)) →
      runNode e stopOnErr chain ⟨0, true⟩ (List.replicate h .block) = ⟨h, true⟩ := by
    induction h with
    | zero => intro _; rfl
    | succ h ih =>
      intro hs
      rw [List.replicate_succ', run_append, ih (fun i h1 h2 => hs i h1 (by omega))]
      exact step_pass e stopOnErr chain h (hs (h + 1) (by omega) (by omega))
  refine ⟨⟨?_, fun hs => ⟨_, by rw [fwd hs]; exact Nat.le_refl _⟩⟩, fwd⟩
  rintro ⟨evs, he⟩ i h1 h2 hst
  have := stuck_below e stopOnErr chain i hst evs ⟨0, true⟩ (by simp; omega)
  omega

/-! ### The hypotheses are met -/

open Verif.Props.TxUtils (toyEnv)
open Verif.Props.SigAnte (toyATx)

/-- A transaction that panics the indexer, and the same with a second message or without the memo, which do not. -/
example : let t := poison (toyEnv 18) ⟨0, [], []⟩ (.other ['s']) 9 4 [1] (List.replicate 20 7)
    (match convert (toyEnv 18) t with | .panic => true | _ => false) = true ∧
    (match convert (toyEnv 18) { t with memo := [] } with | .panic => true | _ => false) = false ∧
    (match convert (toyEnv 18) { t with msgs := t.msgs ++ t.msgs } with | .panic => true | _ => false) = false := by decide +kernel

/-- In block 3: a node gets to block 2, and needs no restart for it, but not to block 3. -/
example : let t := poison (toyEnv 18) ⟨0, [], []⟩ (.other ['s']) 9 4 [1] (List.replicate 20 7)
    let chain := fun i => if i = 3 then [(some t, true)] else [(some toyATx, true)]
    (∀ i, 1 ≤ i → i ≤ 2 → ¬ Stops (toyEnv 18) false (chain i)) ∧ Stops (toyEnv 18) false (chain 3) ∧
    ¬ ∃ evs, 3 ≤ (runNode (toyEnv 18) false chain ⟨0, true⟩ evs).height := by
  intro t chain
  have h3 : Stops (toyEnv 18) false (chain 3) := .inl (by decide +kernel)
  refine ⟨?_, h3, fun h => ((C92_exact (toyEnv 18) false chain 3).1.mp h) 3 (by decide) (by decide) h3⟩
  intro i h1 h2 hs
  have e : listen (toyEnv 18) (chain i) = .done := by
    have : chain i = [(some toyATx, true)] := if_neg (by omega)
    rw [this]; decide +kernel
  rcases hs with hs | ⟨hs, _⟩
  · rw [e] at hs; cases hs
  · rw [e] at hs; cases hs

end Verif.Halt
