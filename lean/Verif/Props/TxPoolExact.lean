import Verif.Props.TxPool
/-!
C65: what the pool views answer for every pool.
-/
namespace Verif.TxPool
open Verif Verif.TxUtils Verif.Props.TxUtils

/-- The last transaction of sender `a` with nonce `n` in a list. -/
def lastOf (l : List (EthTx × Addr)) (a : Addr) (n : Nat) : Option EthTx :=
  (l.reverse.find? (fun y => decide (y.2 = a ∧ y.1.nonce = n))).map Prod.fst

theorem dump_exact {K : Type} (e : Env K) : ∀ (l : List (CosmosTx K)) (d : Dump), (∀ t ∈ l, cosmosToEth e t ≠ none) →
    ∃ d', dump e d l = some d' ∧ ∀ a n, d' a n = (lastOf (ethTxs e l) a n).or (d a n)
  | [], d, _ => ⟨d, rfl, fun a n => by simp [lastOf, ethTxs]⟩
  | t :: ts, d, h => by
    have hts : ∀ x ∈ ts, cosmosToEth e x ≠ none := fun x hx => h x (List.mem_cons_of_mem _ hx)
    cases hc : cosmosToEth e t with
    | none => exact absurd hc (h t (by simp))
    | some o =>
      cases o with
      | none =>
        obtain ⟨d', h1, h2⟩ := dump_exact e ts d hts
        refine ⟨d', by rw [dump, hc]; exact h1, fun a n => ?_⟩
        rw [h2 a n]
        simp [ethTxs, hc]
      | some y =>
        obtain ⟨x, b⟩ := y
        obtain ⟨d', h1, h2⟩ := dump_exact e ts (d.put b x.nonce x) hts
        refine ⟨d', by rw [dump, hc]; exact h1, fun a n => ?_⟩
        rw [h2 a n]
        have e1 : ethTxs e (t :: ts) = (x, b) :: ethTxs e ts := by simp [ethTxs, hc]
        rw [e1]
        simp only [lastOf, List.reverse_cons, List.find?_append]
        cases hf : (ethTxs e ts).reverse.find? (fun y => decide (y.2 = a ∧ y.1.nonce = n)) with
        | some z => simp
        | none =>
          by_cases hq : b = a ∧ x.nonce = n
          · obtain ⟨rfl, rfl⟩ := hq
            simp [Dump.put, List.find?]
          · have h0 : ¬ (a = b ∧ n = x.nonce) := fun g => hq ⟨g.1.symm, g.2.symm⟩
            have h1 : List.find? (fun y : EthTx × Addr => decide (y.2 = a ∧ y.1.nonce = n)) [(x, b)] = none := by
              rw [List.find?_cons_of_neg (by simpa using hq)]; rfl
            rw [h1, Dump.put, if_neg h0]
            rfl

theorem dump_none {K : Type} (e : Env K) : ∀ (l : List (CosmosTx K)) (d : Dump), (∃ t ∈ l, cosmosToEth e t = none) →
    dump e d l = none
  | [], _, h => by obtain ⟨t, ht, _⟩ := h; cases ht
  | t :: ts, d, h => by
    rw [dump]
    cases hc : cosmosToEth e t with
    | none => rfl
    | some o =>
      have h' : ∃ x ∈ ts, cosmosToEth e x = none := by
        obtain ⟨x, hx, hn⟩ := h
        rcases List.mem_cons.1 hx with rfl | hx
        · rw [hc] at hn; cases hn
        · exact ⟨x, hx, hn⟩
      cases o with
      | none => exact dump_none e ts d h'
      | some y => exact dump_none e ts _ h'

/-- **C65 (exact).** For every pool: `txpool_content` fails exactly if one of the first 100 pending or one of the queued
transactions cannot be converted; otherwise it lists, under each sender and nonce, the last such transaction among
the first 100 pending ones, and the last such among the queued ones — and nothing else. -/
theorem C65_exact {K : Type} (e : Env K) (pool queued : List (CosmosTx K)) :
    (content e pool queued = none ↔ ∃ t ∈ pool.take 100 ++ queued, cosmosToEth e t = none) ∧
    (∀ p q, content e pool queued = some (p, q) →
      ∀ a n, p a n = lastOf (ethTxs e (pool.take 100)) a n ∧ q a n = lastOf (ethTxs e queued) a n) := by
  by_cases hp : ∃ t ∈ pool.take 100, cosmosToEth e t = none
  · have e1 := dump_none e _ (fun _ _ => none) hp
    have e2 : content e pool queued = none := by simp only [content, e1]
    rw [e2]
    refine ⟨⟨fun _ => ?_, fun _ => rfl⟩, fun p q h => by cases h⟩
    obtain ⟨t, ht, hn⟩ := hp
    exact ⟨t, List.mem_append_left _ ht, hn⟩
  · have hp' : ∀ t ∈ pool.take 100, cosmosToEth e t ≠ none := fun t ht hn => hp ⟨t, ht, hn⟩
    obtain ⟨d, d1, d2⟩ := dump_exact e _ (fun _ _ => none) hp'
    by_cases hq : ∃ t ∈ queued, cosmosToEth e t = none
    · have e1 := dump_none e _ (fun _ _ => none) hq
      have e2 : content e pool queued = none := by simp only [content, d1, e1, Option.map_none]
      rw [e2]
      refine ⟨⟨fun _ => ?_, fun _ => rfl⟩, fun p q h => by cases h⟩
      obtain ⟨t, ht, hn⟩ := hq
      exact ⟨t, List.mem_append_right _ ht, hn⟩
    · have hq' : ∀ t ∈ queued, cosmosToEth e t ≠ none := fun t ht hn => hq ⟨t, ht, hn⟩
      obtain ⟨f, f1, f2⟩ := dump_exact e _ (fun _ _ => none) hq'
      have e2 : content e pool queued = some (d, f) := by simp only [content, d1, f1, Option.map_some]
      rw [e2]
      refine ⟨⟨fun h => (by cases h), fun ⟨t, ht, hn⟩ => ?_⟩, fun p q h a n => ?_⟩
      · rcases List.mem_append.1 ht with ht | ht
        · exact absurd hn (hp' t ht)
        · exact absurd hn (hq' t ht)
      · cases h
        rw [d2 a n, f2 a n]
        simp

/-- **C65 (exact, pending transactions).** For every pool: `eth_pendingTransactions` fails exactly if one of the first
30 transactions cannot be converted; otherwise it lists the Ethereum transactions among the first 30, in order. -/
theorem C65_pending_exact {K : Type} (e : Env K) (pool : List (CosmosTx K)) :
    (pendingTransactions e pool = none ↔ ∃ t ∈ pool.take 30, cosmosToEth e t = none) ∧
    (∀ l, pendingTransactions e pool = some l → l = (ethTxs e (pool.take 30)).map Prod.fst) := by
  by_cases h : ∃ t ∈ pool.take 30, cosmosToEth e t = none
  · have : pendingTransactions e pool = none := by
      unfold pendingTransactions
      generalize pool.take 30 = l at h
      induction l with
      | nil => obtain ⟨t, ht, _⟩ := h; cases ht
      | cons t ts ih =>
        rw [pendingLoop]
        cases hc : cosmosToEth e t with
        | none => rfl
        | some o =>
          have h' : ∃ x ∈ ts, cosmosToEth e x = none := by
            obtain ⟨x, hx, hn⟩ := h
            rcases List.mem_cons.1 hx with rfl | hx
            · rw [hc] at hn; cases hn
            · exact ⟨x, hx, hn⟩
          cases o with
          | none => exact ih h'
          | some y => simp only [ih h', Option.map_none]
    rw [this]
    exact ⟨⟨fun _ => h, fun _ => rfl⟩, fun l hl => by cases hl⟩
  · have h' : ∀ t ∈ pool.take 30, cosmosToEth e t ≠ none := fun t ht hn => h ⟨t, ht, hn⟩
    have k := C65_pending_partial e (pool.take 30) (by simp; omega) h'
    have e0 : pendingTransactions e (pool.take 30) = pendingTransactions e pool := by
      simp [pendingTransactions, List.take_take]
    rw [e0] at k
    rw [k]
    exact ⟨⟨fun g => (by cases g), fun g => absurd g h⟩, fun l hl => (Option.some.inj hl).symm⟩

/-- Two transactions with the same nonce: the later one is listed. -/
example : lastOf (ethTxs (toyEnv 18) [txN 0, { txN 0 with gas := 10 }]) me 0 = some (.legacy 0 10 0 none 0 [] 45 5 6) := by
  decide +kernel

end Verif.TxPool
