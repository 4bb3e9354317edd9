import Verif.Props.Bank
import Verif.Props.ModuleAcct
import Verif.Props.Startup
import Verif.Props.Lanes
/-
Exactly when certain bank operations are refused, and that they do not panic (C44, C89); what runs with a node (C160); the
gas available to a block without limit (C158).
-/
namespace Verif.Props.RefusalExact
open Verif Verif.Text Verif.Bank Verif.ModuleAcct

/-- **C44** (who may switch, exactly): the message is accepted iff it comes from the authority, lists no denom twice and
names valid denoms only; otherwise it is refused with an error. -/
theorem C44_switches_iff (g : Cfg) (auth : Str) (entries : List (Str × Bool)) (dl : List Str) (s : State) :
    ((∃ s', msgSetSendEnabled g auth entries dl s = .ok s') ↔
      auth = g.authority ∧ (entries.map Prod.fst).Nodup ∧ (∀ x ∈ entries, g.validDenom x.1 = true) ∧
        ∀ d ∈ dl, g.validDenom d = true) ∧
    ((∃ s', msgSetSendEnabled g auth entries dl s = .ok s') ∨ msgSetSendEnabled g auth entries dl s = .err) := by
  have no {P : Prop} : (∃ s', (Res.err : Res State) = .ok s') → P := fun ⟨_, h⟩ => by cases h
  unfold msgSetSendEnabled
  by_cases c1 : g.authority = auth
  · rw [if_neg (by simp [c1])]
    by_cases c2 : noDup (entries.map Prod.fst) = true
    · rw [if_neg (by simp [c2])]
      by_cases c3 : entries.all (fun x => g.validDenom x.1) = true
      · rw [if_neg (by simp [c3])]
        by_cases c4 : dl.all g.validDenom = true
        · rw [if_neg (by simp [c4])]
          exact ⟨⟨fun _ => ⟨c1.symm, (Props.Bank.noDup_iff _).1 c2, by simpa using c3, by simpa using c4⟩, fun _ => ⟨_, rfl⟩⟩, .inl ⟨_, rfl⟩⟩
        · rw [if_pos (by simp [c4])]
          exact ⟨⟨no, fun h => absurd (List.all_eq_true.2 h.2.2.2) c4⟩, .inr rfl⟩
      · rw [if_pos (by rw [Bool.not_eq_true] at c3; rw [c3]; rfl)]
        exact ⟨⟨no, fun h => absurd (List.all_eq_true.2 h.2.2.1) c3⟩, .inr rfl⟩
    · rw [if_pos (by simp [c2])]
      exact ⟨⟨no, fun h => absurd ((Props.Bank.noDup_iff _).2 h.2.1) c2⟩, .inr rfl⟩
  · rw [if_pos (by simp [c1])]
    exact ⟨⟨no, fun h => absurd h.1.symm c1⟩, .inr rfl⟩

/-- Non-vacuity: both outcomes occur. -/
example : (Props.Bank.Res.toOption (msgSetSendEnabled Props.Bank.toyCfg "gov".toList [("uinit".toList, false)] [] Props.Bank.toyState)).isSome = true ∧
    (Props.Bank.Res.toOption (msgSetSendEnabled Props.Bank.toyCfg "gov".toList [("uinit".toList, false), ("uinit".toList, true)] []
      Props.Bank.toyState)).isSome = false := by decide +kernel

/-- **C89** (payments out of a module, exactly): they panic iff there is no such module; a recipient that may not receive is
refused with an error. -/
theorem C89_out_exact (g : Cfg) (m : Str) (r : Bytes) (coins : Bank.Coins) (s : State) :
    (moduleToAccountA g m r coins s = .panic ↔ g.modules m = none) ∧
    (g.modules m ≠ none → g.blockedAddrs r = true → moduleToAccountA g m r coins s = .err) := by
  unfold moduleToAccountA
  cases hm : g.modules m with
  | none => exact ⟨by simp, fun h => absurd rfl h⟩
  | some mo =>
    simp only [reduceCtorEq, iff_false]
    constructor
    · split
      · simp
      · unfold bankSendA
        split
        · simp
        · split
          · simp
          · split <;> simp
    · intro _ hb; rw [if_pos hb]

/-- A module's account cannot be used: there is no such module, or an account of another kind lies at its address. -/
def Unusable (g : Cfg) (m : Str) (s : State) : Prop :=
  ∀ mo, g.modules m = some mo → ∃ x, s.accts (bytesToAddress mo.addr) = some x ∧ x ≠ .module

theorem moduleAccount_none (g : Cfg) (m : Str) (s : State) : moduleAccount g m s = none ↔ Unusable g m s := by
  unfold moduleAccount Unusable
  cases hm : g.modules m with
  | none => simp
  | some mo =>
    simp only [Option.map_eq_none_iff, Option.some.injEq, forall_eq']
    unfold getModule
    cases ha : s.accts (bytesToAddress mo.addr) with
    | none => simp
    | some x => cases x <;> simp

theorem moduleAccount_some {g : Cfg} {m : Str} {s : State} {q : Module × State} (h : moduleAccount g m s = some q) :
    g.modules m = some q.1 := by
  unfold moduleAccount at h
  cases hm : g.modules m with
  | none => rw [hm] at h; cases h
  | some mo =>
    rw [hm] at h
    simp only [Option.map_eq_some_iff] at h
    obtain ⟨a, _, e⟩ := h
    rw [← e]

/-- **C89** (minting, exactly): a mint panics iff the keeper's restriction lets it through and the module's account cannot
be used or the module may not mint; what the restriction does not let through is refused with an error. -/
theorem C89_mint_exact (g : Cfg) (m : Str) (coins : Bank.Coins) (s : State) :
    (bankMintA g m coins s = .panic ↔
      g.mintOk coins = true ∧ (Unusable g m s ∨ ∃ mo, g.modules m = some mo ∧ mo.minter = false)) ∧
    (g.mintOk coins = false → bankMintA g m coins s = .err) := by
  unfold bankMintA
  cases hk : g.mintOk coins with
  | false => exact ⟨by simp, fun _ => by simp⟩
  | true =>
    refine ⟨?_, fun h => by cases h⟩
    rw [if_neg (by simp)]
    cases hq : moduleAccount g m s with
    | none => simp [(moduleAccount_none g m s).1 hq]
    | some q =>
      obtain ⟨mo, s1⟩ := q
      have hu : ¬ Unusable g m s := fun h => by rw [(moduleAccount_none g m s).2 h] at hq; cases hq
      have hmo := moduleAccount_some hq
      simp only at hmo
      cases hmi : mo.minter with
      | false => simp [hmi, hmo]
      | true =>
        simp only [hmi, hmo, hu, Bool.not_true, Bool.false_eq_true, if_false, true_and, false_or, Option.some.injEq,
          exists_eq_left', reduceCtorEq, iff_false]
        split
        · simp
        · split
          · simp
          · split <;> simp

theorem accountToModule_no_panic {g : Cfg} {m : Str} {mo : Module} (hm : g.modules m = some mo) {s : State}
    (h : s.accts (bytesToAddress mo.addr) = some .module) (f : Bytes) (coins : Bank.Coins) :
    accountToModuleA g f m coins s ≠ .panic := by
  unfold accountToModuleA
  have e : moduleAccount g m s = some (mo, s) := by simp [moduleAccount, hm, getModule, h]
  rw [e]
  simp only
  unfold bankSendA
  split
  · simp
  · split
    · simp
    · split <;> simp

theorem burnLoop_no_panic {g : Cfg} {fc : Str} {fm : Module} (hf : g.modules fc = some fm) (f : Addr) (all : Bank.Coins)
    (coins : Bank.Coins) : ∀ s : State, s.accts (bytesToAddress fm.addr) = some .module →
    burnLoopA g fc f all coins s ≠ .panic := by
  induction coins with
  | nil => intro s _; simp [burnLoopA]
  | cons x rest ih =>
    intro s h
    obtain ⟨d, amt⟩ := x
    have keep : ∀ s' : State, Props.ModuleAcct.Ok (bytesToAddress fm.addr) s.accts s'.accts →
        s'.accts (bytesToAddress fm.addr) = some .module := fun s' ho => by
      obtain ⟨y, hy, e⟩ := ho _ h
      rw [hy, e.1 rfl]
    unfold burnLoopA
    split
    · cases h1 : accountToModuleA g f.bytes fc all s with
      | ok s1 => exact ih s1 (keep s1 (Props.ModuleAcct.ok_accountToModuleA h1))
      | err => simp
      | panic => exact absurd h1 (accountToModule_no_panic hf h _ _)
    · split
      · simp
      · split
        · simp
        · rename_i p hp
          exact ih _ (keep (withPair s p) (Props.ModuleAcct.ok_callTokenA (p := (s.w, s.accts)) hp))

/-- **C89** (burning, exactly): where the account that collects other contracts' tokens is in place, a burn panics iff the
module's account cannot be used or the module may not burn. -/
theorem C89_burn_exact (g : Cfg) (fc : Str) (fm : Module) (hf : g.modules fc = some fm) (m : Str) (coins : Bank.Coins) (s : State)
    (h : s.accts (bytesToAddress fm.addr) = some .module) :
    bankBurnA g fc m coins s = .panic ↔ Unusable g m s ∨ ∃ mo, g.modules m = some mo ∧ mo.burner = false := by
  unfold bankBurnA
  cases hq : moduleAccount g m s with
  | none => simp [(moduleAccount_none g m s).1 hq]
  | some q =>
    obtain ⟨mo, s1⟩ := q
    have hu : ¬ Unusable g m s := fun h => by rw [(moduleAccount_none g m s).2 h] at hq; cases hq
    have hmo := moduleAccount_some hq
    simp only at hmo
    cases hb : mo.burner with
    | false => simp [hb, hmo]
    | true =>
      simp only [hb, hmo, hu, Bool.not_true, Bool.false_eq_true, if_false, false_or, Option.some.injEq,
        exists_eq_left', reduceCtorEq, iff_false]
      split
      · simp
      · rename_i ef m1 hc
        apply burnLoop_no_panic hf
        obtain ⟨y, hy, e⟩ := Props.ModuleAcct.ok_trans (Props.ModuleAcct.ok_moduleAccount hq)
          (Props.ModuleAcct.ok_convert hc) _ h
        simp only at hy ⊢
        rw [hy, e.1 rfl]

def isPanic {α : Type} : Res α → Bool
  | .panic => true
  | _ => false

/-- Non-vacuity: a module that may not mint panics, the minter of the toy chain does not, and the hypothesis of
`C89_burn_exact` holds once the fee account exists. -/
example : isPanic (bankMintA Props.Bank.toyCfg "fee".toList [(Props.Ledger.uinit, 3)] Props.Bank.toyState) = true ∧
    isPanic (bankMintA Props.Bank.toyCfg "minter".toList [(Props.Ledger.uinit, 3)] Props.Bank.toyState) = false ∧
    (Props.Bank.Res.toOption (step Props.Bank.toyCfg "fee".toList (.accountToModule Props.Bank.aliceB "fee".toList [(Props.Ledger.uinit, 30)])
      Props.Bank.toyState)).map (fun s => s.accts (bytesToAddress Props.Bank.feeB)) = some (some .module) := by
  decide +kernel

end Verif.Props.RefusalExact

namespace Verif.Props.Startup
open Verif.Startup

/-- **C160** (what runs, exactly): a node whose key-value indexer is switched on feeds both indexers, the EVM one first, and
serves pending transactions; a node where it is off feeds neither. -/
theorem C160_runs (kv : Bool) :
    (newApp kv).listeners = (if kv then [.evm, .kv] else []) ∧ (newApp kv).mempoolWrapped = kv ∧ (newApp kv).evmIndexer = kv := by
  cases kv <;> decide

end Verif.Props.Startup

namespace Verif.Props.Lanes
open Verif.Lanes

/-- **C158** (no gas limit): without a limit in the consensus parameters, the transactions of a proposal may use any amount
of gas up to the largest 64-bit number in total, and no more. -/
theorem C158_unlimited (b : Block) (n : Int) (select : Lane → Proposal → List Tx) (h : b.maxGas = none) :
    gasOf (propose b n select) ≤ 2 ^ 64 - 1 := by
  obtain ⟨_, _, _, _, _, _, _, _, _, _, _, _, _, _, _, _, _, hg⟩ := C158_parts b n select
  have hb : b.gasLimit = 2 ^ 64 - 1 := by unfold Block.gasLimit; rw [h]; rfl
  rw [hb] at hg
  exact hg

end Verif.Props.Lanes
