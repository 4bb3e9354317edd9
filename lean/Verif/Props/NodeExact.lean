import Verif.Props.Startup
import Verif.Props.RevertText
import Verif.Props.BankQuery
/-
C143, C145, C160: exactly what happens.
-/
namespace Verif.Props.Startup
open Verif Verif.Text Verif.NodeConfig Verif.Startup

/-- When a node starts: both servers are off, or the other indexer is enabled and the size of the transaction queue positive. -/
def Starts (r : Run) : Prop :=
  (r.cfg.enable = false ∧ r.cfg.enableWS = false) ∨ (r.kvEnabled = true ∧ 0 < r.cfg.queuedCap)

theorem finalizeN_exact (a : App) (x : Nat) : ∀ (k : Nat) (n : Node), (finalizeN a k n).height = n.height + k ∧
    (x ∈ (finalizeN a k n).indexed ↔ x ∈ n.indexed ∨ (a.listeners.contains .evm = true ∧ n.height < x ∧ x ≤ n.height + k))
  | 0, n => ⟨rfl, by
      constructor
      · intro h; exact .inl h
      · rintro (h | h)
        · exact h
        · have := h.2.1; have := h.2.2; omega⟩
  | k + 1, n => by
    have ih := finalizeN_exact a x k (finalize a n)
    have hh : (finalize a n).height = n.height + 1 := rfl
    rw [hh] at ih
    constructor
    · show (finalizeN a k (finalize a n)).height = _
      rw [ih.1]; omega
    · show x ∈ (finalizeN a k (finalize a n)).indexed ↔ _
      rw [ih.2]
      cases hl : a.listeners.contains .evm with
      | true =>
        have : (finalize a n).indexed = n.indexed ++ [n.height + 1] := by simp only [finalize, hl, if_true]
        rw [this]
        simp only [List.mem_append, List.mem_singleton, true_and]
        constructor
        · rintro ((h | h) | h)
          · exact .inl h
          · right; omega
          · right; omega
        · rintro (h | h)
          · exact .inl (.inl h)
          · by_cases e : x = n.height + 1
            · exact .inl (.inr e)
            · right; omega
      | false =>
        have : (finalize a n).indexed = n.indexed := by simp only [finalize, hl]; rfl
        rw [this]
        simp

theorem starts_iff (r : Run) : postSetup (newApp r.kvEnabled) r.cfg = true ↔ Starts r := by
  unfold postSetup startJSONRPC newApp setupIndexer Starts
  by_cases hq : r.cfg.queuedCap ≤ 0
  · cases r.kvEnabled <;> cases r.cfg.enable <;> cases r.cfg.enableWS <;> simp [hq]
  · have : 0 < r.cfg.queuedCap := by omega
    cases r.kvEnabled <;> cases r.cfg.enable <;> cases r.cfg.enableWS <;> simp [hq, this]

/-- **C160 (exact).** A run of a node goes ahead exactly if both JSON-RPC servers are off, or the other indexer is enabled and the
queue size positive; otherwise nothing happens. It finalizes its blocks, and they are indexed exactly if the other indexer is
enabled. -/
theorem C160_run_exact (r : Run) (n : Node) (x : Nat) :
    (¬ Starts r → runNode r n = n) ∧
    (Starts r → (runNode r n).height = n.height + r.blocks ∧
      (x ∈ (runNode r n).indexed ↔ x ∈ n.indexed ∨ (r.kvEnabled = true ∧ n.height < x ∧ x ≤ n.height + r.blocks))) := by
  constructor
  · intro h
    unfold runNode
    simp only
    rw [if_neg (fun e => h ((starts_iff r).mp e))]
  · intro h
    unfold runNode
    simp only
    rw [if_pos ((starts_iff r).mpr h)]
    have := finalizeN_exact (newApp r.kvEnabled) x r.blocks n
    refine ⟨this.1, this.2.trans ?_⟩
    cases r.kvEnabled <;> simp [newApp, setupIndexer]

/-- **C160 (exact, over the life of a node).** A block is in the index exactly if the run that finalized it had the other indexer
enabled, whatever the configuration of all other runs, before and after. -/
theorem C160_life_exact (x : Nat) : ∀ (rs : List Run) (n : Node),
    x ∈ (live rs n).indexed ↔ x ∈ n.indexed ∨ ∃ pre r post, rs = pre ++ r :: post ∧ Starts r ∧ r.kvEnabled = true ∧
      (live pre n).height < x ∧ x ≤ (live pre n).height + r.blocks
  | [], n => by
    constructor
    · intro h; exact .inl h
    · rintro (h | ⟨pre, r, post, h, _⟩)
      · exact h
      · cases pre <;> cases h
  | r :: rs, n => by
    show x ∈ (live rs (runNode r n)).indexed ↔ _
    rw [C160_life_exact x rs (runNode r n)]
    constructor
    · rintro (h | ⟨pre, q, post, h, a, b, c, d⟩)
      · by_cases hs : Starts r
        · rcases ((C160_run_exact r n x).2 hs).2.mp h with h | ⟨a, b, c⟩
          · exact .inl h
          · exact .inr ⟨[], r, rs, rfl, hs, a, b, c⟩
        · rw [(C160_run_exact r n x).1 hs] at h; exact .inl h
      · exact .inr ⟨r :: pre, q, post, by rw [h]; rfl, a, b, c, d⟩
    · rintro (h | ⟨pre, q, post, h, a, b, c, d⟩)
      · left
        by_cases hs : Starts r
        · exact ((C160_run_exact r n x).2 hs).2.mpr (.inl h)
        · rw [(C160_run_exact r n x).1 hs]; exact h
      · cases pre with
        | nil =>
          injection h with h1 h2
          subst h1
          exact .inl (((C160_run_exact r n x).2 a).2.mpr (.inr ⟨b, c, d⟩))
        | cons p pre =>
          injection h with h1 h2
          subst h1
          exact .inr ⟨pre, q, post, h2, a, b, c, d⟩

/-- Three runs, the second without the other indexer and without JSON-RPC: its two blocks are missing. -/
example : (live [⟨true, defaults, 2⟩, ⟨false, { defaults with enable := false, enableWS := false }, 2⟩, ⟨true, defaults, 1⟩] ⟨0, []⟩)
    = ⟨5, [1, 2, 5]⟩ := by decide +kernel

/-- **C156 is violated** (cross-origin requests). Whether `enable-unsafe-cors` is set or not, a page of any site can call the HTTP server
from its visitor's browser and read the answers: the policy used without it is the library's default, which allows every origin too. -/
theorem C156_cors_violated (g : Cfg) (origin : Option Str) : httpAnswers { g with unsafeCors := false } origin "POST" = true ∧
    (∀ m, httpAnswers { g with unsafeCors := false } origin m = httpAnswers { g with unsafeCors := true } origin m) := by
  refine ⟨by cases origin <;> rfl, fun m => ?_⟩
  unfold httpAnswers
  by_cases hm : m = "POST"
  · subst hm; cases origin <;> rfl
  · have : (m == "POST") = false := by simp [hm]
    rw [this]; rfl

/-- **C156 (cross-origin WebSocket connections).** The WebSocket server does obey the switch: without it exactly the connections without
an origin, from `http://localhost` and from the host itself are accepted; with it all are. -/
theorem C156_cors_ws (allows : Str → Str → Bool) (host : Str) (g : Cfg) (origin : Option Str) :
    (wsAccepts allows host { g with unsafeCors := true } origin = true) ∧
    (wsAccepts allows host { g with unsafeCors := false } origin = true ↔
      ∀ o, origin = some o → allows "http://localhost".toList o = true ∨ allows ("http://".toList ++ host) o = true) := by
  cases origin with
  | none => exact ⟨rfl, by simp [wsAccepts]⟩
  | some o =>
    refine ⟨rfl, ?_⟩
    simp only [wsAccepts, Bool.false_or, Bool.or_eq_true]
    constructor
    · intro h o' ho; cases ho; exact h
    · intro h; exact h o rfl

/-- A page of another site reaches the HTTP server of a node with the default configuration, but not its WebSocket server. -/
example : defaults.unsafeCors = false ∧ httpAnswers defaults (some "https://evil.example".toList) "POST" = true ∧
    wsAccepts (fun a b => a == b) "node".toList defaults (some "https://evil.example".toList) = false ∧
    wsAccepts (fun a b => a == b) "node".toList defaults (some "http://node".toList) = true := by decide +kernel

/-- The host of a listening address. -/
def hostOf (a : Str) : Str := a.takeWhile (· ≠ ':')

/-- **C156 (exposed by default).** With the file the node writes for itself both servers listen on every interface of the machine, at
different ports. -/
theorem C156_exposed : hostOf defaults.address = "0.0.0.0".toList ∧ hostOf defaults.addressWS = "0.0.0.0".toList ∧
    defaults.address.drop 8 = "8545".toList ∧ defaults.addressWS.drop 8 = "8546".toList := by decide +kernel

end Verif.Props.Startup

namespace Verif.Props.RevertText
open Verif Verif.Text Verif.RevertText

/-- **C145 is violated** (what exactly is lost). Without gas left over, and in every static call, no answer depends on the data the
contract reverted with: of any two reverts, with any data, the caller learns the same, on every path. -/
theorem C145_lost_violated (unpack : Bytes → Option Str) (k : Kind) (d d' : Bytes) (left : Nat) (after : Except Str Unit) (gas : Nat) :
    evmRun unpack k ⟨.reverted d, 0⟩ after = evmRun unpack k ⟨.reverted d', 0⟩ after ∧
    msgServer unpack k ⟨.reverted d, 0⟩ after = msgServer unpack k ⟨.reverted d', 0⟩ after ∧
    queryCall unpack k ⟨.reverted d, 0⟩ after = queryCall unpack k ⟨.reverted d', 0⟩ after ∧
    ethCall unpack k ⟨.reverted d, 0⟩ after = ethCall unpack k ⟨.reverted d', 0⟩ after ∧
    estimateGas unpack k ⟨.reverted d, 0⟩ after gas = estimateGas unpack k ⟨.reverted d', 0⟩ after gas ∧
    evmStatic ⟨.reverted d, left⟩ = evmStatic ⟨.reverted d', left⟩ := ⟨rfl, rfl, rfl, rfl, rfl, rfl⟩

/-- **C145 (exact).** A reverted execution tells its data apart from other data exactly if it has gas left over. -/
theorem C145_told_iff (unpack : Bytes → Option Str) (k : Kind) (left : Nat) (after : Except Str Unit) :
    (∀ d d', evmRun unpack k ⟨.reverted d, left⟩ after = evmRun unpack k ⟨.reverted d', left⟩ after → d = d') ↔ left ≠ 0 := by
  constructor
  · rintro h rfl
    have := h [] [0] rfl
    cases this
  · intro hl d d' h
    obtain ⟨t, h1, h2⟩ := (C145_data_partial unpack k d left hl after).1
    obtain ⟨t', h1', h2'⟩ := (C145_data_partial unpack k d' left hl after).1
    rw [h1, h1'] at h
    injection h with h
    subst h
    have a := h2 []
    have b := h2' []
    rw [a] at b
    injection b

end Verif.Props.RevertText

namespace Verif.Props.BankQuery
open Verif Verif.Text Verif.Denom Verif.Tokens Verif.Identity Verif.Bank Verif.BankQuery Verif.Props.Registry Verif.Props.Tokens Verif.Props.Ledger Verif.Props.Bank

/-- **C143 (exactly when `Balance` panics).** Asked with an address that can be read, for a denom that is not empty, it panics exactly if
that address has no EVM address, the denom names no address (`evm/` and something else), there is no token where it names one, or it is
not a valid denom. -/
theorem C143_balance_panics_iff (g : Cfg) (s : State) (addr d : Str) (b : Bytes) (ha : addr ≠ []) (hd : d ≠ [])
    (hp : g.parseAddr addr = some b) :
    qBalance g s addr d = .panic ↔ convert s.accts b false = none ∨ lookup s.w.maps d = .bad ∨
      (∃ k, lookup s.w.maps d = .at k ∧ s.w.tokens k = none) ∨ g.validDenom d = false := by
  unfold qBalance getBalance ekGetBalance newCoin askBalance
  rw [if_neg ha, if_neg hd, hp]
  simp only
  cases hc : convert s.accts b false with
  | none => simp
  | some q =>
    cases hl : lookup s.w.maps d with
    | missing => cases g.validDenom d <;> simp
    | bad => simp
    | «at» k =>
      cases ht : s.w.tokens k with
      | none => simp [ht]
      | some p => cases g.validDenom d <;> simp [ht]

/-- **C143 (exactly when `SupplyOf` panics).** Asked for a denom that is not empty it panics exactly if the denom is not that of a token there
is, or is not valid. -/
theorem C143_supply_panics_iff (g : Cfg) (s : State) (d : Str) (hd : d ≠ []) :
    qSupply g s d = .panic ↔ (∀ k, lookup s.w.maps d = .at k → s.w.tokens k = none) ∨ g.validDenom d = false := by
  unfold qSupply getSupply ekGetSupply newCoin askSupply
  rw [if_neg hd]
  cases hl : lookup s.w.maps d with
  | missing => simp
  | bad => simp
  | «at» k =>
    cases ht : s.w.tokens k with
    | none => simp [ht]
    | some p => cases g.validDenom d <;> simp [ht]

example : lookup (at_ World.init).w.maps none1 = .missing ∧ qSupply toyCfg (at_ World.init) none1 = .panic ∧
    qBalance toyCfg (at_ World.init) bobT Verif.Paging.denA = .panic ∧
    shown (qBalance toyCfg (at_ World.init) bobT none1) = some (none1, 0) := by
  refine ⟨rfl, rfl, rfl, by decide +kernel⟩

end Verif.Props.BankQuery
