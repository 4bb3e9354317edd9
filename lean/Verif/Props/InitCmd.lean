import Verif.Model.InitCmd
/-
C165: `minitiad init`.
-/
namespace Verif.Props.InitCmd
open Verif.InitCmd

variable {K A C : Type}

/-- The command line can be read. -/
def Readable (e : Env K A C) (c : Cmd) : Prop :=
  (∀ f ∈ c.flags, f ∈ registered) ∧ ∀ m, c.recover = some m → e.validMnemonic m = true

theorem run_unreadable (e : Env K A C) (c : Cmd) (h : Home K A C) (hr : ¬ Readable e c) :
    ∃ x, run e c h = (h, some x) := by
  unfold run
  by_cases h1 : (c.flags.all fun f => registered.contains f) = true
  · have hb : badMnemonic e c = true := by
      cases hb : badMnemonic e c with
      | true => rfl
      | false =>
        refine absurd ⟨fun f hf => by simpa using List.all_eq_true.mp h1 f hf, fun m hm => ?_⟩ hr
        unfold badMnemonic at hb
        rw [hm] at hb
        simpa using hb
    rw [h1, hb]
    exact ⟨_, rfl⟩
  · have : (c.flags.all fun f => registered.contains f) = false := by simpa using h1
    rw [this]
    exact ⟨_, rfl⟩

theorem run_readable (e : Env K A C) (c : Cmd) (h : Home K A C) (hr : Readable e c) :
    run e c h = (let h1 := keyFiles e c.recover h
      if !c.overwrite && h1.genesis.isSome then (h1, some .exists_)
      else match h1.genesis with
        | some none => (h1, some .unreadable)
        | g =>
          if (chainIdOf e c).utf8ByteSize > 50 || chainIdOf e c == "" then (h1, some .chainId)
          else
          ({ h1 with genesis := some (some (newGenesis e c (g.getD none))), moniker := some c.moniker }, none)) := by
  unfold run
  have h1 : (c.flags.all fun f => registered.contains f) = true :=
    List.all_eq_true.mpr fun f hf => by simpa using hr.1 f hf
  have h2 : badMnemonic e c = false := by
    unfold badMnemonic
    cases hm : c.recover with
    | none => rfl
    | some m => simp [hr.2 m hm]
  rw [h1, h2]
  rfl

/-- **C165 (accepted).** The command succeeds exactly if its flags exist, the mnemonic is valid, a genesis is there only with
`--overwrite` and can be read, and the chain id has at most 50 bytes. -/
theorem C165_accepted_iff (e : Env K A C) (c : Cmd) (h : Home K A C) (hid : e.randomId ≠ "") :
    (run e c h).2 = none ↔ Readable e c ∧ (h.genesis.isSome = true → c.overwrite = true) ∧ h.genesis ≠ some none ∧
      (chainIdOf e c).utf8ByteSize ≤ 50 := by
  have hne : (chainIdOf e c == "") = false := by
    unfold chainIdOf
    by_cases hc : c.chainId = ""
    · rw [if_pos hc]; simp [hid]
    · rw [if_neg hc]; simp [hc]
  by_cases hr : Readable e c
  · rw [run_readable e c h hr]
    have hg : (keyFiles e c.recover h).genesis = h.genesis := rfl
    simp only [hg, hne, Bool.or_false]
    cases hgn : h.genesis with
    | none =>
      simp only [Option.isSome_none, Bool.and_false, Bool.false_eq_true, if_false]
      by_cases hl : (chainIdOf e c).utf8ByteSize > 50
      · simp [hl, hr]
      · simp [hl, hr]; omega
    | some o =>
      cases ho : c.overwrite with
      | false => simp
      | true =>
        cases o with
        | none => simp
        | some g =>
          by_cases hl : (chainIdOf e c).utf8ByteSize > 50
          · simp [hl, hr]
          · simp [hl, hr]; omega
  · obtain ⟨x, hx⟩ := run_unreadable e c h hr
    rw [hx]
    simp [hr]

/-- **C165 (the genesis).** A genesis that is there is replaced only if `--overwrite` is given and the command succeeds. If it
succeeds, the genesis has the chain id asked for (or a random one), the default state for the denom asked for, and starts at block
1; what an old genesis said of its time and application hash is kept, its consensus parameters are not. -/
theorem C165_genesis (e : Env K A C) (c : Cmd) (h : Home K A C) :
    ((run e c h).1.genesis ≠ h.genesis → (run e c h).2 = none) ∧
    ((run e c h).2 = none → (h.genesis = none ∨ c.overwrite = true) ∧
      ∃ g, (run e c h).1.genesis = some (some g) ∧ (c.chainId ≠ "" → g.chainId = c.chainId) ∧
        g.appState = e.defaultState c.denom ∧ g.initialHeight = 1 ∧ g.params = e.defaultParams ∧
        (h.genesis = none → g.time = e.now ∧ g.appHash = "") ∧
        (∀ o, h.genesis = some (some o) → (o.time ≠ 0 → g.time = o.time) ∧ g.appHash = o.appHash)) := by
  by_cases hr : Readable e c
  · rw [run_readable e c h hr]
    have hg : (keyFiles e c.recover h).genesis = h.genesis := rfl
    simp only [hg]
    have hh : heightOf c = 1 := rfl
    have hc : ∀ o, (newGenesis e c o).chainId = chainIdOf e c := fun _ => rfl
    have hi : c.chainId ≠ "" → chainIdOf e c = c.chainId := fun hh => by unfold chainIdOf; rw [if_neg hh]
    cases hgn : h.genesis with
    | none =>
      simp only [Option.isSome_none, Bool.and_false, Bool.false_eq_true, if_false]
      by_cases hl : (decide ((chainIdOf e c).utf8ByteSize > 50) || chainIdOf e c == "") = true
      · rw [if_pos hl]; exact ⟨fun h' => absurd hg (by rw [hgn]; exact h'), fun h' => nomatch h'⟩
      · rw [if_neg hl]
        refine ⟨fun _ => rfl, fun _ => ⟨.inl trivial, _, rfl, fun h' => hi h', rfl, hh, rfl, fun _ => ⟨rfl, rfl⟩, ?_⟩⟩
        intro o ho; cases ho
    | some o =>
      cases ho : c.overwrite with
      | false =>
        simp only [Option.isSome_some, Bool.not_false, Bool.and_true, if_true]
        exact ⟨fun h' => absurd hg (by rw [hgn]; exact h'), fun h' => nomatch h'⟩
      | true =>
        simp only [Bool.not_true, Bool.false_and, Bool.false_eq_true, if_false]
        cases o with
        | none => exact ⟨fun h' => absurd hg (by rw [hgn]; exact h'), fun h' => nomatch h'⟩
        | some o =>
          simp only
          by_cases hl : (decide ((chainIdOf e c).utf8ByteSize > 50) || chainIdOf e c == "") = true
          · rw [if_pos hl]; exact ⟨fun h' => absurd hg (by rw [hgn]; exact h'), fun h' => nomatch h'⟩
          · rw [if_neg hl]
            refine ⟨fun _ => rfl, fun _ => ⟨.inr trivial, _, rfl, fun h' => hi h', rfl, hh, rfl, (fun h' => nomatch h'), ?_⟩⟩
            intro o' ho'
            cases ho'
            refine ⟨fun ht => ?_, rfl⟩
            simp only [newGenesis, Option.getD_some]
            rw [if_neg ht]
  · obtain ⟨x, hx⟩ := run_unreadable e c h hr
    rw [hx]
    exact ⟨fun h' => absurd rfl h', fun h' => nomatch h'⟩

theorem run_val (e : Env K A C) (c : Cmd) (h : Home K A C) (hr : Readable e c) :
    (run e c h).1.val = (keyFiles e c.recover h).val ∧ (run e c h).1.nodeKey = (keyFiles e c.recover h).nodeKey := by
  rw [run_readable e c h hr]
  simp only
  split
  · exact ⟨rfl, rfl⟩
  · split
    · exact ⟨rfl, rfl⟩
    · split
      · exact ⟨rfl, rfl⟩
      · exact ⟨rfl, rfl⟩

/-- **C165 (keys).** The node's key, once there, is never replaced. Without `--recover` neither is the validator's, nor is its record of
what it signed, with or without `--overwrite`, whether the command succeeds or not. -/
theorem C165_keys (e : Env K A C) (c : Cmd) (h : Home K A C) :
    (∀ k, h.nodeKey = some k → (run e c h).1.nodeKey = some k) ∧
    (∀ v, c.recover = none → h.val = some v → (run e c h).1.val = some v) ∧
    ((run e c h).2 = none → c.recover = none → h.val = none → (run e c h).1.val = some ⟨e.newKey, 0⟩) ∧
    (∀ m, (run e c h).2 = none → c.recover = some m → (run e c h).1.val = some ⟨e.keyOf m, 0⟩) := by
  by_cases hr : Readable e c
  · rw [(run_val e c h hr).1, (run_val e c h hr).2]
    refine ⟨fun k hk => ?_, fun v hm hv => ?_, fun _ hm hv => ?_, fun m _ hm => ?_⟩
    · simp [keyFiles, hk]
    · simp [keyFiles, hm, hv]
    · simp [keyFiles, hm, hv]
    · simp [keyFiles, hm]
  · obtain ⟨x, hx⟩ := run_unreadable e c h hr
    rw [hx]
    exact ⟨fun _ h => h, fun _ _ h => h, (fun h => nomatch h), (fun _ h => nomatch h)⟩

/-- **C165 is violated** (a refused command changes the home). `init --recover` in a home that has a genesis, without `--overwrite`, is
refused, but only after the validator's key has been replaced by that of the mnemonic. If it is the same key, the validator forgets
what it signed, and may sign those heights again. -/
theorem C165_refused_violated (e : Env K A C) (c : Cmd) (h : Home K A C) (m : String) (v : Val K) (hf : ∀ f ∈ c.flags, f ∈ registered)
    (hm : c.recover = some m) (hv : e.validMnemonic m = true) (ho : c.overwrite = false) (hg : h.genesis.isSome = true)
    (_hval : h.val = some v) :
    (run e c h).2 = some .exists_ ∧ (run e c h).1.val = some ⟨e.keyOf m, 0⟩ := by
  have hr : Readable e c := ⟨hf, fun m' h' => by rw [hm] at h'; cases h'; exact hv⟩
  rw [run_readable e c h hr]
  have hg' : (keyFiles e c.recover h).genesis = h.genesis := rfl
  simp only [hg', ho, hg, Bool.not_false, Bool.and_self, if_true]
  exact ⟨trivial, by simp [keyFiles, hm]⟩

/-- **C165 is violated** (the first height). The code reads `--initial-height`, but asking for it is refused, whatever it says; and no
genesis the command writes starts anywhere but at block 1. -/
theorem C165_height_violated (e : Env K A C) (c : Cmd) (h : Home K A C) :
    ("initial-height" ∈ c.flags → run e c h = (h, some .unknownFlag)) ∧
    (∀ g, (run e c h).2 = none → (run e c h).1.genesis = some (some g) → g.initialHeight = 1) := by
  constructor
  · intro hf
    unfold run
    have : (c.flags.all fun f => registered.contains f) = false := by
      rw [Bool.eq_false_iff]
      intro ha
      have := List.all_eq_true.mp ha _ hf
      exact absurd this (by decide)
    rw [this]
    rfl
  · intro g hs hg
    obtain ⟨_, g', h1, _, _, h2, _⟩ := (C165_genesis e c h).2 hs
    rw [hg] at h1
    cases h1
    exact h2

/-- A home with a genesis and a validator that signed block 900. -/
def toyHome : Home Nat String Nat := ⟨some 1, some ⟨42, 900⟩, some (some ⟨"a-1", "s", 1, 77, "h", 3⟩), some "me"⟩
/-- Mnemonics are their own keys' sizes. -/
def toyEnv : Env Nat String Nat := ⟨2, 3, fun s => s != "", fun s => s.utf8ByteSize, "test-chain-x", 100, fun d => d, 5⟩
def toyCmd : Cmd := ⟨"me", ["chain-id", "denom"], "b-1", "GAS", false, none, 0⟩

/-- Refused without `--overwrite`; with it the time stays; a refused `--recover` resets the validator. -/
example : (run toyEnv toyCmd toyHome).2 = some .exists_ ∧ (run toyEnv toyCmd toyHome).1.val = some ⟨42, 900⟩ ∧
    (run toyEnv { toyCmd with overwrite := true } toyHome).1.genesis = some (some ⟨"b-1", "GAS", 1, 77, "h", 5⟩) ∧
    (run toyEnv { toyCmd with recover := some "word" } toyHome).2 = some .exists_ ∧
    (run toyEnv { toyCmd with recover := some "word" } toyHome).1.val = some ⟨4, 0⟩ ∧
    (run toyEnv toyCmd ⟨none, none, none, none⟩).2 = none := by decide +kernel

end Verif.Props.InitCmd
