import Verif.Model.Params
import Verif.Props.TxUtils
/-
C31 (block hashes), C32 (parameter updates), C33 (who may deploy).
-/
namespace Verif.Props.Params
open Verif Verif.Text Verif.TxUtils Verif.Params

/-! ### C31 -/

/-- The chain's blocks `1 .. h`: in block `i` the retention parameter is `num i` (it may change from block to block)
and the header hash handed to the application is `hdr i`. -/
def runBlocks (num : Nat → Nat) (hdr : Nat → Hash) : Nat → Hashes
  | 0 => fun _ => none
  | h + 1 => preBlock (num (h + 1)) (runBlocks num hdr h) (h + 1) (hdr (h + 1))

/-- Nothing is recorded for blocks not yet seen. -/
theorem none_above (num : Nat → Nat) (hdr : Nat → Hash) (h n : Nat) (hn : h ≤ n ∨ n = 0) :
    runBlocks num hdr h n = none := by
  induction h with
  | zero => rfl
  | succ h ih =>
    simp only [runBlocks, preBlock]
    split
    · exact ih (by omega)
    · simp only [track, Nat.add_sub_cancel]
      have : n ≠ h := by omega
      rw [if_neg this]
      split
      · simp only
        split
        · rfl
        · exact ih (by omega)
      · exact ih (by omega)

/-- **C31 (partial: what is recorded for a block is the header hash of the following block).** With retention `N`
throughout, after block `h` the recorded hashes are exactly those of the last `N` blocks before `h` (all of them if
`N = 0`), one each. -/
theorem C31_window_partial (N : Nat) (hdr : Nat → Hash) (h n : Nat) :
    runBlocks (fun _ => N) hdr h n =
      if 1 ≤ n ∧ n < h ∧ (N = 0 ∨ h ≤ n + N) then some (hdr (n + 1)) else none := by
  induction h with
  | zero => simp [runBlocks]
  | succ h ih =>
    simp only [runBlocks, preBlock]
    by_cases h0 : h + 1 ≤ 1
    · rw [if_pos h0, ih, if_neg (by omega), if_neg (by omega)]
    · rw [if_neg h0]
      simp only [track, Nat.add_sub_cancel]
      by_cases hn : n = h
      · subst hn
        rw [if_pos rfl, if_pos (by omega)]
      · rw [if_neg hn]
        by_cases hN : N ≠ 0 ∧ h > N
        · rw [if_pos hN]
          by_cases he : n = h - N
          · rw [if_pos he, if_neg (by omega)]
          · rw [if_neg he, ih]
            by_cases hc : 1 ≤ n ∧ n < h ∧ (N = 0 ∨ h ≤ n + N)
            · rw [if_pos hc, if_pos (by omega)]
            · rw [if_neg hc, if_neg (by omega)]
        · rw [if_neg hN, ih]
          by_cases hc : 1 ≤ n ∧ n < h ∧ (N = 0 ∨ h ≤ n + N)
          · rw [if_pos hc, if_pos (by omega)]
          · rw [if_neg hc, if_neg (by omega)]

/-- Recent hashes survive every valid change of the retention parameter. -/
theorem recent (num : Nat → Nat) (hdr : Nat → Hash) (hv : ∀ i, num i = 0 ∨ 256 ≤ num i) (h n : Nat)
    (h1 : 1 ≤ n) (h2 : n < h) (h3 : h ≤ n + 256) : runBlocks num hdr h n = some (hdr (n + 1)) := by
  induction h with
  | zero => omega
  | succ h ih =>
    simp only [runBlocks, preBlock]
    rw [if_neg (by omega)]
    simp only [track, Nat.add_sub_cancel]
    by_cases hn : n = h
    · subst hn; simp
    · rw [if_neg hn]
      have hr := ih (by omega) (by omega)
      have := hv (h + 1)
      split
      · simp only; rw [if_neg (by omega)]; exact hr
      · exact hr

/-- **C31 (what contracts see; partial as above).** However the retention parameter is changed among valid values,
in block `h` the BLOCKHASH instruction serves each of the previous 256 blocks (from block 1 on) the value recorded for
it, and zero for every other number. -/
theorem C31_opcode_partial (num : Nat → Nat) (hdr : Nat → Hash) (hv : ∀ i, num i = 0 ∨ 256 ≤ num i) (h n : Nat) :
    blockhashOp (runBlocks num hdr h) h n =
      if 1 ≤ n ∧ n < h ∧ h ≤ n + 256 then hdr (n + 1) else Hash.zero := by
  simp only [blockhashOp]
  by_cases hc : 1 ≤ n ∧ n < h ∧ h ≤ n + 256
  · rw [if_pos hc]
    rw [if_pos ⟨by split <;> omega, hc.2.1⟩]
    simp [getHash, recent num hdr hv h n hc.1 hc.2.1 hc.2.2]
  · rw [if_neg hc]
    by_cases hz : n = 0
    · rw [getHash, none_above num hdr h n (Or.inr hz)]
      simp only [Option.getD_none, ite_self]
    · rw [if_neg]
      rintro ⟨g1, g2⟩
      by_cases g : h < 257
      · omega
      · rw [if_neg g] at g1; omega

/-- A chain of distinct header hashes. -/
example : blockhashOp (runBlocks (fun i => if i < 300 then 256 else 1000) (fun i => Hash.ofNat (i % 251)) 5) 5 3 =
    Hash.ofNat 4 := by decide +kernel

/-- **C31 fails as stated**: what is served for a block is not that block's header hash but its successor's (the
header hash the application sees while processing block `h` is filed under `h - 1`). -/
theorem C31_violated : ¬ ∀ (num : Nat → Nat) (hdr : Nat → Hash), (∀ i, num i = 0 ∨ 256 ≤ num i) → ∀ h n, 1 ≤ n →
    n < h → h ≤ n + 256 → blockhashOp (runBlocks num hdr h) h n = hdr n := by
  intro H
  have := H (fun _ => 256) (fun i => Hash.ofNat i) (fun _ => by omega) 3 2 (by omega) (by omega) (by omega)
  rw [C31_opcode_partial (fun _ => 256) _ (fun _ => by omega)] at this
  revert this
  decide +kernel

/-- A chain started from a genesis with the hashes `g` (its export's, x/evm/keeper/genesis.go:156-160): its first block has height
`a`, and `k` blocks have been run. -/
def runFrom (num : Nat → Nat) (hdr : Nat → Hash) (g : Hashes) (a : Nat) : Nat → Hashes
  | 0 => g
  | k + 1 => preBlock (num (a + k)) (runFrom num hdr g a k) (a + k) (hdr (a + k))

theorem from_recorded (num : Nat → Nat) (hdr : Nat → Hash) (g : Hashes) (a : Nat) (hv : ∀ i, num i = 0 ∨ 256 ≤ num i) (k n : Nat)
    (h1 : 1 ≤ n) (ha : a ≤ n + 1) (h2 : n + 1 < a + k) (h3 : a + k ≤ n + 257) :
    runFrom num hdr g a k n = some (hdr (n + 1)) := by
  induction k with
  | zero => omega
  | succ k ih =>
    simp only [runFrom, preBlock]
    rw [if_neg (by omega)]
    simp only [track]
    by_cases hn : n = a + k - 1
    · rw [if_pos hn]
      have : n + 1 = a + k := by omega
      rw [this]
    · rw [if_neg hn]
      have hr := ih (by omega) (by omega)
      have := hv (a + k)
      split
      · simp only; rw [if_neg (by omega)]; exact hr
      · exact hr

theorem from_genesis (num : Nat → Nat) (hdr : Nat → Hash) (g : Hashes) (a : Nat) (hv : ∀ i, num i = 0 ∨ 256 ≤ num i) (k n : Nat)
    (hn : n + 1 < a ∨ n = 0) (h3 : a + k ≤ n + 257 ∨ n = 0) : runFrom num hdr g a k n = g n := by
  induction k with
  | zero => rfl
  | succ k ih =>
    simp only [runFrom, preBlock]
    split
    · exact ih (by omega)
    · simp only [track]
      rw [if_neg (by omega)]
      have := hv (a + k)
      split
      · simp only; rw [if_neg (by omega)]; exact ih (by omega)
      · exact ih (by omega)

theorem from_above (num : Nat → Nat) (hdr : Nat → Hash) (g : Hashes) (a k n : Nat) (h : a + k ≤ n + 1) :
    runFrom num hdr g a k n = g n := by
  induction k with
  | zero => rfl
  | succ k ih =>
    simp only [runFrom, preBlock]
    split
    · exact ih (by omega)
    · simp only [track]
      rw [if_neg (by omega)]
      split
      · simp only; rw [if_neg (by omega)]; exact ih (by omega)
      · exact ih (by omega)

/-- **C31 (restarts; partial as above).** On a chain started from an exported genesis with a first block of any height `a`, BLOCKHASH
serves in block `a + k` what this chain recorded, for the blocks from `a - 1` on; what the genesis names, for the blocks before; both
within the last 256 blocks, and zero for every other number: however the retention parameter is changed. -/
theorem C31_restart_partial (num : Nat → Nat) (hdr : Nat → Hash) (g : Hashes) (a : Nat) (ha : 1 ≤ a)
    (hv : ∀ i, num i = 0 ∨ 256 ≤ num i) (k n : Nat) :
    blockhashOp (runFrom num hdr g a (k + 1)) (a + k) n =
      if n < a + k ∧ a + k ≤ n + 256 then
        (if 1 ≤ n ∧ a ≤ n + 1 then hdr (n + 1) else (g n).getD Hash.zero)
      else Hash.zero := by
  simp only [blockhashOp]
  by_cases hc : n < a + k ∧ a + k ≤ n + 256
  · rw [if_pos hc, if_pos ⟨by split <;> omega, hc.1⟩]
    by_cases hr : 1 ≤ n ∧ a ≤ n + 1
    · rw [if_pos hr, getHash, from_recorded num hdr g a hv (k + 1) n hr.1 hr.2 (by omega) (by omega)]
      rfl
    · rw [if_neg hr, getHash, from_genesis num hdr g a hv (k + 1) n (by omega) (by omega)]
  · rw [if_neg hc]
    rw [if_neg]
    rintro ⟨h1, h2⟩
    by_cases c : a + k < 257
    · omega
    · rw [if_neg c] at h1; omega

/-- A chain exported after block 1000 and continued: block 1100 sees block 900 of before and block 1050 of after. -/
example : blockhashOp (runFrom (fun _ => 0) (fun i => Hash.ofNat (i % 251)) (fun i => some (Hash.ofNat (i % 7))) 1001 100) 1100 900 =
    Hash.ofNat (900 % 7) := by
  rw [C31_restart_partial _ _ _ 1001 (by omega) (fun _ => Or.inl rfl) 99]
  rfl

/-- **C31 (zero height, violated).** An export for height zero (`--for-zero-height`) keeps the old chain's hashes: the chain started from
it has hashes on record, and in its own export, for blocks it does not have, until it gets there. No contract sees them. -/
theorem C31_zero_height_violated (num : Nat → Nat) (hdr : Nat → Hash) (g : Hashes) (hg : g 0 = none)
    (hv : ∀ i, num i = 0 ∨ 256 ≤ num i) (k n : Nat) :
    (k ≤ n → runFrom num hdr g 1 k n = g n) ∧
    blockhashOp (runFrom num hdr g 1 (k + 1)) (1 + k) n =
      if 1 ≤ n ∧ n < 1 + k ∧ 1 + k ≤ n + 256 then hdr (n + 1) else Hash.zero := by
  refine ⟨fun h => from_above num hdr g 1 k n (by omega), ?_⟩
  rw [C31_restart_partial num hdr g 1 (by omega) hv]
  by_cases c : n < 1 + k ∧ 1 + k ≤ n + 256
  · rw [if_pos c]
    by_cases hn : 1 ≤ n
    · rw [if_pos ⟨hn, by omega⟩, if_pos ⟨hn, c⟩]
    · have : n = 0 := by omega
      subst this
      rw [if_neg (by omega), if_neg (by omega), hg]; rfl
  · rw [if_neg c, if_neg (fun h => c h.2)]

/-- **C31 (shrinking the retention leaves older hashes behind, unreachable for contracts).** After a reduction from
1000 to 256, more than 256 hashes stay recorded. -/
theorem C31_shrink_violated : ¬ ∀ (num : Nat → Nat) (hdr : Nat → Hash), (∀ i, num i = 0 ∨ 256 ≤ num i) → ∀ h n,
    num h ≠ 0 → n + num h < h → runBlocks num hdr h n = none := by
  intro H
  -- retention 0 (keep all) during blocks 1..1000, then 256
  let num : Nat → Nat := fun i => if i ≤ 1000 then 0 else 256
  have hv : ∀ i, num i = 0 ∨ 256 ≤ num i := by intro i; simp only [num]; split <;> omega
  have h1 := H num (fun i => Hash.ofNat i) hv 1001 5 (by decide) (by decide)
  have keep : ∀ h, h ≤ 1000 → runBlocks num (fun i => Hash.ofNat i) h 5 =
      if 5 < h then some (Hash.ofNat 6) else none := by
    intro h
    induction h with
    | zero => intro _; rfl
    | succ h ih =>
      intro hh
      have e : num (h + 1) = 0 := by simp only [num]; rw [if_pos hh]
      simp only [runBlocks, preBlock, track, e, Nat.add_sub_cancel]
      by_cases hc : h + 1 ≤ 1
      · rw [if_pos hc, ih (by omega), if_neg (by omega), if_neg (by omega)]
      · rw [if_neg hc]
        simp only [ne_eq, not_true, false_and, if_false]
        by_cases h5 : 5 = h
        · subst h5; simp
        · rw [if_neg h5, ih (by omega)]
          by_cases g : 5 < h
          · rw [if_pos g, if_pos (by omega)]
          · rw [if_neg g, if_neg (by omega)]
  have k := keep 1000 (Nat.le_refl _)
  rw [runBlocks, preBlock, if_neg (by omega)] at h1
  have e : num (1000 + 1) = 256 := by decide
  rw [e] at h1
  simp only [track, Nat.add_sub_cancel] at h1
  rw [if_neg (by omega), if_pos (by omega), if_neg (by omega), k, if_pos (by omega)] at h1
  cases h1

/-! ### C32 -/

/-- The module's parameters are valid: publishers decode, custom tokens decode, ratio in [0, 1], retention 0 or at least
256. -/
def Valid {K : Type} (e : Env K) (p : Params) : Prop :=
  (∀ s ∈ p.allowedPublishers, ∃ b, e.unbech s = some b) ∧
  (∀ s ∈ p.allowedCustomERC20s, ∃ a, contractAddressFromString e s = some a) ∧
  0 ≤ p.gasRefundRatio ∧ p.gasRefundRatio ≤ 10 ^ 18 ∧ (p.numRetain = 0 ∨ 256 ≤ p.numRetain)

theorem validate_iff {K : Type} (e : Env K) (p : Params) : validate e p = true ↔ Valid e p := by
  simp only [validate, Valid, Bool.and_eq_true, List.all_eq_true, Option.isSome_iff_exists,
    Bool.not_eq_true', Bool.or_eq_false_iff, decide_eq_false_iff_not, Bool.and_eq_false_iff]
  constructor
  · rintro ⟨⟨⟨h1, h2⟩, h3, h4⟩, h5⟩
    refine ⟨h1, h2, by omega, by omega, by omega⟩
  · rintro ⟨h1, h2, h3, h4, h5⟩
    refine ⟨⟨⟨h1, h2⟩, by omega, by omega⟩, by omega⟩

/-- **C32 (exactly when).** An update is accepted iff it comes from the authority, the fee token passes its test and
the new parameters are valid; then the parameters are the new ones. -/
theorem C32_update {K : Type} (e : Env K) (authority : Str) (feeTest : Params → Bool) (sender : Str)
    (new : Params) (r : Option Params) (hr : r = updateParams e authority feeTest sender new) :
    (r.isSome ↔ sender = authority ∧ feeTest new = true ∧ Valid e new) ∧ (∀ q, r = some q → q = new) := by
  subst hr
  unfold updateParams
  constructor
  · rw [← validate_iff]
    split
    · rename_i h; constructor
      · intro g; cases g
      · intro g; exact absurd g.1.symm h
    · rename_i h
      simp only [ne_eq, Decidable.not_not] at h
      split
      · rename_i g; simp at g; simp [g]
      · rename_i g
        split
        · rename_i g2; simp at g2; simp [g2]
        · rename_i g2; simp at g g2; simp [h, g, g2]
  · intro q h
    split at h
    · cases h
    · split at h
      · cases h
      · split at h
        · cases h
        · cases h; rfl

/-- The parameters through a history of update attempts by anyone; a rejected one changes nothing. The fee test
depends on the state at that time. -/
def runUpdates {K : Type} (e : Env K) (authority : Str) : List (Str × Params × (Params → Bool)) → Params → Params
  | [], p => p
  | (sender, new, test) :: rest, p =>
    runUpdates e authority rest ((updateParams e authority test sender new).getD p)

/-- **C32 (histories).** Valid parameters stay valid through every history of update attempts; the final parameters are
the initial ones or were proposed by the authority; a history without the authority changes nothing. -/
theorem C32_history {K : Type} (e : Env K) (authority : Str) (l : List (Str × Params × (Params → Bool)))
    (p : Params) (hp : Valid e p) :
    Valid e (runUpdates e authority l p) ∧
    (runUpdates e authority l p = p ∨ ∃ x ∈ l, x.1 = authority ∧ runUpdates e authority l p = x.2.1) ∧
    ((∀ x ∈ l, x.1 ≠ authority) → runUpdates e authority l p = p) := by
  induction l generalizing p with
  | nil => exact ⟨hp, Or.inl rfl, fun _ => rfl⟩
  | cons x xs ih =>
    obtain ⟨sender, new, test⟩ := x
    obtain ⟨c1, c2⟩ := C32_update e authority test sender new _ rfl
    simp only [runUpdates]
    cases hu : updateParams e authority test sender new with
    | none =>
      simp only [Option.getD_none]
      obtain ⟨i1, i2, i3⟩ := ih p hp
      refine ⟨i1, ?_, fun h => i3 (fun y hy => h y (List.mem_cons_of_mem _ hy))⟩
      rcases i2 with h | ⟨y, hy, hy'⟩
      · exact Or.inl h
      · exact Or.inr ⟨y, List.mem_cons_of_mem _ hy, hy'⟩
    | some q =>
      have := c2 q hu
      subst this
      rw [hu] at c1
      obtain ⟨hs, _, hv⟩ := c1.mp rfl
      simp only [Option.getD_some]
      obtain ⟨i1, i2, i3⟩ := ih q hv
      refine ⟨i1, ?_, fun h => absurd hs (h _ (List.mem_cons_self ..))⟩
      rcases i2 with h | ⟨y, hy, hy'⟩
      · exact Or.inr ⟨_, List.mem_cons_self .., hs, h⟩
      · exact Or.inr ⟨y, List.mem_cons_of_mem _ hy, hy'⟩

/-- **C32 (the newest accepted update holds).** After every history the parameters are those of the last update that came from the
authority with valid parameters and a fee token that passes its test, and the initial ones if there was none. -/
theorem C32_newest {K : Type} (e : Env K) (authority : Str) (p : Params) :
    (∀ l : List (Str × Params × (Params → Bool)),
      (∀ y ∈ l, ¬ (y.1 = authority ∧ y.2.2 y.2.1 = true ∧ Valid e y.2.1)) → runUpdates e authority l p = p) ∧
    ∀ (l after : List (Str × Params × (Params → Bool))) (x : Str × Params × (Params → Bool)),
      x.1 = authority → x.2.2 x.2.1 = true → Valid e x.2.1 →
      (∀ y ∈ after, ¬ (y.1 = authority ∧ y.2.2 y.2.1 = true ∧ Valid e y.2.1)) →
      runUpdates e authority (l ++ x :: after) p = x.2.1 := by
  have none_ : ∀ (l : List (Str × Params × (Params → Bool))) (p : Params),
      (∀ y ∈ l, ¬ (y.1 = authority ∧ y.2.2 y.2.1 = true ∧ Valid e y.2.1)) → runUpdates e authority l p = p := by
    intro l
    induction l with
    | nil => intro p _; rfl
    | cons y ys ih =>
      obtain ⟨sender, new, test⟩ := y
      intro p h
      simp only [runUpdates]
      have hn := h _ (List.mem_cons_self ..)
      cases hu : updateParams e authority test sender new with
      | some q => exact absurd ((C32_update e authority test sender new _ hu.symm).1.1 rfl) hn
      | none => exact ih p fun y hy => h y (List.mem_cons_of_mem _ hy)
  refine ⟨fun l => none_ l p, ?_⟩
  intro l after x h1 h2 h3 h4
  induction l generalizing p with
  | nil =>
    obtain ⟨sender, new, test⟩ := x
    simp only [List.nil_append, runUpdates]
    obtain ⟨c1, c2⟩ := C32_update e authority test sender new _ rfl
    cases hu : updateParams e authority test sender new with
    | none => rw [hu] at c1; exact absurd (c1.2 ⟨h1, h2, h3⟩) (by simp)
    | some q =>
      rw [c2 q hu]
      exact none_ after new h4
  | cons y ys ih =>
    obtain ⟨sender, new, test⟩ := y
    simp only [List.cons_append, runUpdates]
    exact ih _

def toyP : Params := ⟨[], true, [], ['f'], 5 * 10 ^ 17, 256, []⟩

example : Valid (Verif.Props.TxUtils.toyEnv 18) toyP := by
  refine ⟨by simp [toyP], by simp [toyP], by decide, by decide, by decide⟩

example : updateParams (Verif.Props.TxUtils.toyEnv 18) ['g'] (fun _ => true) ['g'] { toyP with numRetain := 255 } = none ∧
    updateParams (Verif.Props.TxUtils.toyEnv 18) ['g'] (fun _ => true) ['g'] { toyP with numRetain := 1000 } =
      some { toyP with numRetain := 1000 } := by decide +kernel

/-! ### C33 -/

/-- **C33 (outsiders).** When the list is not empty, a create message whose sender is not on it has no effect. -/
theorem C33_refused {K S R : Type} (e : Env K) (convert : S → Bytes → Option (Addr × S))
    (evm : S → Addr → Bytes → Nat → Option (R × S)) (p : Params) (sender code : Str) (value : Int) (s : S)
    (hne : p.allowedPublishers ≠ []) (hs : sender ∉ p.allowedPublishers) :
    createMsg e convert evm p sender code value s = none := by
  have hf : publisherAllowed p sender = false := by
    simp only [publisherAllowed, Bool.or_eq_false_iff, beq_eq_false_iff_ne, ne_eq, List.length_eq_zero_iff,
      List.any_eq_false, beq_iff_eq]
    refine ⟨hne, ?_⟩
    intro x hx hxe
    subst hxe; exact hs hx
  unfold createMsg
  split
  · rfl
  · split
    · rfl
    · split
      · rfl
      · split
        · rfl
        · split
          · rfl
          · simp [hf]

/-- **C33 (everyone else).** When the list is empty or the sender is on it, the list does not stand in the way: the
message does exactly what it would do without a list. -/
theorem C33_allowed {K S R : Type} (e : Env K) (convert : S → Bytes → Option (Addr × S))
    (evm : S → Addr → Bytes → Nat → Option (R × S)) (p : Params) (sender code : Str) (value : Int) (s s1 : S)
    (raw bz : Bytes) (caller : Addr) (hs : p.allowedPublishers = [] ∨ sender ∈ p.allowedPublishers)
    (h1 : e.unbech sender = some raw) (h2 : convert s raw = some (caller, s1)) (h3 : decode0x code = some bz)
    (h4 : 0 ≤ value) (h5 : value < 2 ^ 256) :
    createMsg e convert evm p sender code value s = evm s1 caller bz value.toNat := by
  have hf : publisherAllowed p sender = true := by
    simp only [publisherAllowed, Bool.or_eq_true, beq_iff_eq, List.length_eq_zero_iff, List.any_eq_true]
    rcases hs with h | h
    · exact Or.inl h
    · exact Or.inr ⟨sender, h, rfl⟩
  have hc : code.length ≠ 0 := by
    intro h
    have := List.length_eq_zero_iff.mp h
    subst this; simp [decode0x, has0x] at h3
  have hv : ¬ (value.natAbs ≥ 2 ^ 256) := by omega
  simp only [createMsg, h1, h2, h3, if_neg hc, if_neg hv, hf, Int.emod_eq_of_lt h4 h5]
  simp

example : createMsg (S := Nat) (R := Nat) (Verif.Props.TxUtils.toyEnv 18) (fun s b => some (bytesToAddress b, s))
    (fun s _ bz _ => some (bz.length, s + 1)) { toyP with allowedPublishers := ["i07".toList] } "i07".toList
    "0x6001".toList 0 0 = some (2, 1) ∧
  createMsg (S := Nat) (R := Nat) (Verif.Props.TxUtils.toyEnv 18) (fun s b => some (bytesToAddress b, s))
    (fun s _ bz _ => some (bz.length, s + 1)) { toyP with allowedPublishers := ["i07".toList] } "i08".toList
    "0x6001".toList 0 0 = none := by decide +kernel

end Verif.Props.Params
