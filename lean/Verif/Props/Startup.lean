import Verif.Model.Startup
/-
C160: every block a node finalizes is in its Ethereum index, and the node runs with JSON-RPC, whatever else is enabled.
-/
namespace Verif.Props.Startup
open Verif.NodeConfig Verif.Startup

/-- The heights 1 … n. -/
def upTo : Nat → List Nat
  | 0 => []
  | n + 1 => upTo n ++ [n + 1]

theorem finalizeN_height (a : App) : ∀ k n, (finalizeN a k n).height = n.height + k
  | 0, _ => rfl
  | k + 1, n => by rw [finalizeN, finalizeN_height a k]; simp only [finalize]; omega

theorem finalizeN_indexed (a : App) (h : a.listeners.contains .evm = true) : ∀ k n, n.indexed = upTo n.height →
    (finalizeN a k n).indexed = upTo (finalizeN a k n).height
  | 0, _, hn => hn
  | k + 1, n, hn => by
    rw [finalizeN]
    exact finalizeN_indexed a h k _ (by simp only [finalize, h, if_true, hn, upTo])

theorem started (r : Run) (h : r.kvEnabled = true) (hq : 0 < r.cfg.queuedCap) : postSetup (newApp r.kvEnabled) r.cfg = true := by
  have hq' : ¬ r.cfg.queuedCap ≤ 0 := by omega
  rw [h]
  have e : (newApp true).evmIndexer = true := rfl
  unfold postSetup startJSONRPC
  cases r.cfg.enable <;> cases r.cfg.enableWS <;> simp [e, hq']

/-- **C160 (with the other indexer).** If the other indexer is enabled and the size of the transaction queue is positive, the node
starts in every run, and its index has exactly the blocks it has finalized. -/
theorem C160_indexed_partial (rs : List Run) (h : ∀ r ∈ rs, r.kvEnabled = true ∧ 0 < r.cfg.queuedCap) :
    (live rs ⟨0, []⟩).indexed = upTo (live rs ⟨0, []⟩).height ∧
    (live rs ⟨0, []⟩).height = (rs.map (·.blocks)).foldr (· + ·) 0 := by
  have gen : ∀ (rs : List Run) (n : Node), (∀ r ∈ rs, r.kvEnabled = true ∧ 0 < r.cfg.queuedCap) → n.indexed = upTo n.height →
      (live rs n).indexed = upTo (live rs n).height ∧ (live rs n).height = n.height + (rs.map (·.blocks)).foldr (· + ·) 0 := by
    intro rs
    induction rs with
    | nil => intro n _ hn; exact ⟨hn, rfl⟩
    | cons r rs ih =>
      intro n h hn
      obtain ⟨h1, h2⟩ := h r (List.mem_cons_self ..)
      have hs := started r h1 h2
      have hr : runNode r n = finalizeN (newApp r.kvEnabled) r.blocks n := by unfold runNode; simp only; rw [if_pos hs]
      have hl : (newApp r.kvEnabled).listeners.contains .evm = true := by rw [h1]; rfl
      obtain ⟨i1, i2⟩ := ih (runNode r n) (fun x hx => h x (List.mem_cons_of_mem _ hx))
        (by rw [hr]; exact finalizeN_indexed _ hl _ _ hn)
      refine ⟨i1, ?_⟩
      show (live rs (runNode r n)).height = _
      rw [i2, hr, finalizeN_height]
      simp only [List.map_cons, List.foldr_cons]
      omega
  obtain ⟨a, b⟩ := gen rs ⟨0, []⟩ h rfl
  exact ⟨a, by simpa using b⟩

/-- **C160 (start, violated).** With the other indexer disabled a node with a JSON-RPC server does not start, whatever namespaces are
configured. -/
theorem C160_start_violated (r : Run) (n : Node) (h : r.kvEnabled = false) (he : r.cfg.enable = true ∨ r.cfg.enableWS = true) :
    runNode r n = n := by
  have : postSetup (newApp r.kvEnabled) r.cfg = false := by
    rw [h]
    have e : (newApp false).evmIndexer = false := rfl
    unfold postSetup startJSONRPC
    rw [e]
    by_cases hq : r.cfg.queuedCap ≤ 0
    · rw [if_pos hq]
      rcases he with he | he <;> cases h1 : r.cfg.enable <;> cases h2 : r.cfg.enableWS <;> simp_all
    · rw [if_neg hq]
      rcases he with he | he <;> cases h1 : r.cfg.enable <;> cases h2 : r.cfg.enableWS <;> simp_all
  unfold runNode
  simp only
  rw [this, if_neg (by decide)]

theorem finalizeN_kept (a : App) : ∀ k (n : Node), n.indexed ⊆ (finalizeN a k n).indexed ∧
    ∀ x ∈ (finalizeN a k n).indexed, x ∈ n.indexed ∨ n.height < x
  | 0, n => ⟨fun _ h => h, fun x hx => .inl hx⟩
  | k + 1, n => by
    rw [finalizeN]
    obtain ⟨h1, h2⟩ := finalizeN_kept a k (finalize a n)
    constructor
    · intro x hx
      apply h1
      simp only [finalize]
      split
      · exact List.mem_append_left _ hx
      · exact hx
    · intro x hx
      rcases h2 x hx with h | h
      · simp only [finalize] at h
        split at h
        · rcases List.mem_append.mp h with h | h
          · exact .inl h
          · simp at h; exact .inr (by omega)
        · exact .inl h
      · simp only [finalize] at h; exact .inr (by omega)

theorem live_later (rs : List Run) : ∀ (n : Node), ∀ x ∈ (live rs n).indexed, x ∈ n.indexed ∨ n.height < x := by
  induction rs with
  | nil => intro n x hx; exact .inl hx
  | cons r rs ih =>
    intro n x hx
    have key : (∀ y ∈ (runNode r n).indexed, y ∈ n.indexed ∨ n.height < y) ∧ n.height ≤ (runNode r n).height := by
      unfold runNode
      simp only
      split
      · exact ⟨(finalizeN_kept _ _ n).2, by rw [finalizeN_height]; omega⟩
      · exact ⟨fun y hy => .inl hy, Nat.le_refl _⟩
    rcases ih (runNode r n) x hx with h | h
    · exact key.1 x h
    · exact .inr (by have := key.2; omega)

/-- **C160 (gap, violated).** The blocks that a node finalizes while the other indexer is disabled and JSON-RPC is off are never in its
index, whatever it is configured to afterwards. -/
theorem C160_gap_violated (r : Run) (later : List Run) (n : Node) (h : r.kvEnabled = false) (h1 : r.cfg.enable = false)
    (h2 : r.cfg.enableWS = false) (hn : ∀ x ∈ n.indexed, x ≤ n.height) :
    (runNode r n).height = n.height + r.blocks ∧
    ∀ x, n.height < x → x ≤ n.height + r.blocks → x ∉ (live later (runNode r n)).indexed := by
  have hs : postSetup (newApp r.kvEnabled) r.cfg = true := by unfold postSetup startJSONRPC; simp [h1, h2]
  have hr : runNode r n = finalizeN (newApp r.kvEnabled) r.blocks n := by unfold runNode; simp only; rw [if_pos hs]
  have hnone : ∀ k m, (finalizeN (newApp r.kvEnabled) k m).indexed = m.indexed := by
    intro k
    induction k with
    | zero => intro m; rfl
    | succ k ih =>
      intro m
      rw [finalizeN, ih]
      rw [h]
      rfl
  refine ⟨by rw [hr, finalizeN_height], fun x hx1 hx2 hm => ?_⟩
  rcases live_later later _ x hm with hm | hm
  · rw [hr, hnone] at hm
    have := hn x hm
    omega
  · rw [hr, finalizeN_height] at hm
    omega

/-- Two runs with both indexers: five blocks, all in the index. -/
example : live [⟨true, defaults, 2⟩, ⟨true, { defaults with enable := false }, 3⟩] ⟨0, []⟩ = ⟨5, [1, 2, 3, 4, 5]⟩ := by decide
/-- The other indexer off: the node does not start; without JSON-RPC it does, and has a gap. -/
example : live [⟨true, defaults, 2⟩, ⟨false, defaults, 4⟩] ⟨0, []⟩ = ⟨2, [1, 2]⟩ := by decide
example : live [⟨true, defaults, 2⟩, ⟨false, { defaults with enable := false, enableWS := false }, 2⟩, ⟨true, defaults, 1⟩] ⟨0, []⟩ =
    ⟨5, [1, 2, 5]⟩ := by decide

end Verif.Props.Startup
