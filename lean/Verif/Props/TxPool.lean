import Verif.Model.TxPool
import Verif.Props.TxUtils
/-
C64: watching the mempool; C65: pool views.
-/
namespace Verif.TxPool
open Verif Verif.TxUtils Verif.Props.TxUtils

/-! ### C64 -/

/-- The transaction passed the signature check: an Ethereum-mode signature was verified (app/ante/verify.go:56-80). -/
def Checked {K : Type} (e : Env K) (tx : CosmosTx K) : Prop :=
  ∀ sig bz, sig ∈ tx.sigs → sig.data = .single ethMode bz → verifyEth e tx = true

/-- A conversion fails only for Ethereum-mode signatures, and then the signature check fails too. -/
theorem checked_converts {K : Type} (e : Env K) (tx : CosmosTx K) (h : Checked e tx) : cosmosToEth e tx ≠ none := by
  intro hn
  by_cases hex : ∃ sig bz, sig ∈ tx.sigs ∧ sig.data = .single ethMode bz
  · obtain ⟨sig, bz, h1, h2⟩ := hex
    have := h sig bz h1 h2
    simp [verifyEth, hn] at this
  · unfold cosmosToEth at hn
    split at hn
    · split at hn
      · cases hn
      · split at hn
        · cases hn
        · split at hn
          · rename_i sig hsig
            split at hn
            · cases hn
            · split at hn
              · cases hn
              · split at hn
                · cases hn
                · rename_i mode bz hd
                  split at hn
                  · cases hn
                  · rename_i hm
                    have hm' : mode = ethMode := by
                      by_cases g : mode = ethMode
                      · exact g
                      · exact absurd g hm
                    subst hm'
                    exact hex ⟨sig, bz, by rw [hsig]; simp, hd⟩
          · cases hn
    · cases hn

/-- C64: for every transaction that passed the signature check, the mempool does the same with and without watchers. -/
theorem C64_transparent {K M : Type} (e : Env K) (inner : M → CosmosTx K → M × Bool) (w : Nat) (m : M) (tx : CosmosTx K) (h : Checked e tx) :
    (insert e inner w m tx).1 = (inner m tx).1 ∧ (insert e inner w m tx).2.1 = (inner m tx).2 := by
  have hc := checked_converts e tx h
  unfold insert
  split
  · split
    · next hn => exact absurd hn hc
    · exact ⟨rfl, rfl⟩
    · exact ⟨rfl, rfl⟩
  · exact ⟨rfl, rfl⟩

/-- Without the signature check it would not: a transaction of an unknown Ethereum type is refused only when someone watches. -/
theorem C64_unchecked_violated : ∃ tx : CosmosTx Unit, (insert (toyEnv 18) (fun m t => (m ++ [t], true)) 1 [] tx).2.1 = false ∧
    (insert (toyEnv 18) (fun m t => (m ++ [t], true)) 0 [] tx).2.1 = true :=
  ⟨{ msgs := [.create [] ['0', 'x'] 0 []], memo := (toyEnv 18).memoEnc ⟨3, ['0'], ['0']⟩, fee := [], gas := 9,
     sigs := [⟨(), .single ethMode (toBE 32 5 ++ toBE 32 6 ++ [0]), 0⟩] }, by decide +kernel, by decide +kernel⟩

/-- C64: each watcher is told once about a transaction that enters the mempool and is an Ethereum transaction, and not about another. -/
theorem C64_notified_partial {K M : Type} (e : Env K) (inner : M → CosmosTx K → M × Bool) (w : Nat) (m : M) (tx : CosmosTx K)
    (hok : (insert e inner w m tx).2.1 = true) :
    (insert e inner w m tx).2.2 = List.replicate w (match cosmosToEth e tx with | some (some (x, _)) => [x] | _ => []) := by
  unfold insert at hok ⊢
  by_cases hw : w > 0
  · rw [if_pos hw] at hok ⊢
    split at hok
    · cases hok
    · next h => simp [h]
    · next h => simp [h]
  · have : w = 0 := by omega
    subst this; rfl

/-- A checked transaction. -/
def tx0 : CosmosTx Unit where
  msgs := [.create [] ['0', 'x'] 0 []]
  memo := (toyEnv 18).memoEnc ⟨0, ['0'], ['0']⟩
  fee := []
  gas := 9
  sigs := [⟨(), .single ethMode (toBE 32 5 ++ toBE 32 6 ++ [0]), 0⟩]

example : Checked (toyEnv 18) tx0 ∧ ∃ x, (insert (toyEnv 18) (fun m t => (m ++ [t], true)) 2 [] tx0).2.2 = [[x], [x]] := by
  refine ⟨fun _ _ _ _ => by decide +kernel, .legacy 0 9 0 none 0 [] 45 5 6, by decide +kernel⟩

/-- C64 does not hold for transactions the mempool refuses: watchers are told about them although they are not pending. -/
theorem C64_notified_violated : (insert (toyEnv 18) (fun (m : List (CosmosTx Unit)) _ => (m, false)) 1 [] tx0).2 = (false, [[.legacy 0 9 0 none 0 [] 45 5 6]]) ∧
    (insert (toyEnv 18) (fun (m : List (CosmosTx Unit)) _ => (m, false)) 1 [] tx0).1.length = 0 := by decide +kernel

/-! ### C65 -/

/-- The Ethereum transactions of a pool with their senders. -/
def ethTxs {K : Type} (e : Env K) (l : List (CosmosTx K)) : List (EthTx × Addr) := l.filterMap (fun t => (cosmosToEth e t).join)

def stepD (d : Dump) : Option (EthTx × Addr) → Dump
  | none => d
  | some (x, a) => d.put a x.nonce x

theorem dump_spec {K : Type} (e : Env K) : ∀ (l : List (CosmosTx K)) (d : Dump),
    (∃ t ∈ l, cosmosToEth e t = none) ∧ dump e d l = none ∨
    (∀ t ∈ l, cosmosToEth e t ≠ none) ∧ ∃ d', dump e d l = some d' ∧
      ∀ a n, (d' a n = d a n ∧ ∀ x, (x, a) ∈ ethTxs e l → x.nonce ≠ n) ∨ (∃ x, (x, a) ∈ ethTxs e l ∧ x.nonce = n ∧ d' a n = some x)
  | [], d => Or.inr ⟨by simp, d, rfl, fun a n => Or.inl ⟨rfl, by simp [ethTxs]⟩⟩
  | t :: ts, d => by
    cases hc : cosmosToEth e t with
    | none => exact Or.inl ⟨⟨t, by simp, hc⟩, by simp [dump, hc]⟩
    | some o =>
      have hd : dump e d (t :: ts) = dump e (stepD d o) ts := by
        cases o <;> simp [dump, hc, stepD]
      rw [hd]
      rcases dump_spec e ts (stepD d o) with ⟨⟨t', h1, h2⟩, h3⟩ | ⟨h1, d', h2, h3⟩
      · exact Or.inl ⟨⟨t', List.mem_cons_of_mem _ h1, h2⟩, h3⟩
      · refine Or.inr ⟨?_, d', h2, fun a n => ?_⟩
        · intro x hx
          rcases List.mem_cons.1 hx with h | h
          · rw [h, hc]; simp
          · exact h1 x h
        · cases o with
          | none =>
            have : ethTxs e (t :: ts) = ethTxs e ts := by simp [ethTxs, hc]
            rw [this]; exact h3 a n
          | some y =>
            obtain ⟨x, b⟩ := y
            have he : ethTxs e (t :: ts) = (x, b) :: ethTxs e ts := by simp [ethTxs, hc]
            rw [he]
            rcases h3 a n with ⟨g1, g2⟩ | ⟨z, g1, g2, g3⟩
            · by_cases hab : a = b ∧ n = x.nonce
              · refine Or.inr ⟨x, by rw [hab.1]; simp, hab.2.symm, ?_⟩
                rw [g1]; simp [stepD, Dump.put, hab]
              · refine Or.inl ⟨?_, fun z hz => ?_⟩
                · rw [g1]; simp only [stepD, Dump.put, if_neg hab]
                · rcases List.mem_cons.1 hz with h | h
                  · simp only [Prod.mk.injEq] at h
                    intro hn; exact hab ⟨h.2, by rw [← hn, h.1]⟩
                  · exact g2 z h
            · exact Or.inr ⟨z, List.mem_cons_of_mem _ g1, g2, g3⟩

/-- C65: when all transactions can be converted, at most 100 are pending and no two of one sender have the same nonce,
txpool_content lists exactly the pending and the queued Ethereum transactions, each under its sender and nonce. -/
theorem C65_content_partial {K : Type} (e : Env K) (pool queued : List (CosmosTx K)) (hp : pool.length ≤ 100)
    (hc : ∀ t ∈ pool ++ queued, cosmosToEth e t ≠ none)
    (hn : ∀ l, l = pool ∨ l = queued → ∀ x y a, (x, a) ∈ ethTxs e l → (y, a) ∈ ethTxs e l → x.nonce = y.nonce → x = y) :
    ∃ p q, content e pool queued = some (p, q) ∧ (∀ a n x, p a n = some x ↔ (x, a) ∈ ethTxs e pool ∧ x.nonce = n) ∧
      ∀ a n x, q a n = some x ↔ (x, a) ∈ ethTxs e queued ∧ x.nonce = n := by
  have key : ∀ l, (l = pool ∨ l = queued) → ∃ d, dump e (fun _ _ => none) l = some d ∧ ∀ a n x, d a n = some x ↔ (x, a) ∈ ethTxs e l ∧ x.nonce = n := by
    intro l hl
    rcases dump_spec e l (fun _ _ => none) with ⟨⟨t, h1, h2⟩, _⟩ | ⟨_, d, h2, h3⟩
    · refine absurd h2 (hc t ?_)
      rcases hl with rfl | rfl
      · exact List.mem_append_left _ h1
      · exact List.mem_append_right _ h1
    · refine ⟨d, h2, fun a n x => ⟨fun hx => ?_, fun ⟨hx, hxn⟩ => ?_⟩⟩
      · rcases h3 a n with ⟨g, _⟩ | ⟨z, g1, g2, g3⟩
        · rw [g] at hx; cases hx
        · rw [g3] at hx; cases hx; exact ⟨g1, g2⟩
      · rcases h3 a n with ⟨_, g⟩ | ⟨z, g1, g2, g3⟩
        · exact absurd hxn (g x hx)
        · rw [g3, hn l hl z x a g1 hx (by rw [g2, hxn])]
  obtain ⟨p, hp1, hp2⟩ := key pool (Or.inl rfl)
  obtain ⟨q, hq1, hq2⟩ := key queued (Or.inr rfl)
  exact ⟨p, q, by simp [content, List.take_of_length_le hp, hp1, hq1], hp2, hq2⟩

/-- C65: the same for the pool of one account (txpool_contentFrom): exactly its pending and its queued Ethereum transactions, by nonce. -/
theorem C65_content_from_partial {K : Type} (e : Env K) (pool queued : List (CosmosTx K)) (hp : pool.length ≤ 100)
    (hc : ∀ t ∈ pool ++ queued, cosmosToEth e t ≠ none)
    (hn : ∀ l, l = pool ∨ l = queued → ∀ x y a, (x, a) ∈ ethTxs e l → (y, a) ∈ ethTxs e l → x.nonce = y.nonce → x = y) (a : Addr) :
    ∃ p q, contentFrom e pool queued a = some (p, q) ∧ (∀ n x, p n = some x ↔ (x, a) ∈ ethTxs e pool ∧ x.nonce = n) ∧
      ∀ n x, q n = some x ↔ (x, a) ∈ ethTxs e queued ∧ x.nonce = n := by
  obtain ⟨p, q, h1, h2, h3⟩ := C65_content_partial e pool queued hp hc hn
  exact ⟨p a, q a, by simp [contentFrom, h1], h2 a, h3 a⟩

/-- C65: the same for eth_pendingTransactions with at most 30 pending transactions; here equal nonces do no harm. -/
theorem C65_pending_partial {K : Type} (e : Env K) (pool : List (CosmosTx K)) (hp : pool.length ≤ 30) (hc : ∀ t ∈ pool, cosmosToEth e t ≠ none) :
    pendingTransactions e pool = some ((ethTxs e pool).map Prod.fst) := by
  rw [pendingTransactions, List.take_of_length_le hp]
  clear hp
  induction pool with
  | nil => rfl
  | cons t ts ih =>
    have := hc t (by simp)
    have ih := ih (fun x hx => hc x (List.mem_cons_of_mem _ hx))
    cases h : cosmosToEth e t with
    | none => exact absurd h this
    | some o =>
      cases o with
      | none => simp [pendingLoop, h, ih, ethTxs]
      | some y => simp [pendingLoop, h, ih, ethTxs]

/-- transactions of one sender with nonces 0, 1, 2, …; the last two are the same nonce with other gas, and no Ethereum transaction -/
def txN (n : Nat) : CosmosTx Unit := { tx0 with sigs := [⟨(), .single ethMode (toBE 32 5 ++ toBE 32 6 ++ [0]), n⟩] }
def me : Addr := bytesToAddress (List.replicate 20 7)
def txOther : CosmosTx Unit := { tx0 with memo := [] }
def txBad : CosmosTx Unit := { tx0 with memo := (toyEnv 18).memoEnc ⟨3, ['0'], ['0']⟩ }

example : ethTxs (toyEnv 18) [txN 0, txOther, txN 1] = [(.legacy 0 9 0 none 0 [] 45 5 6, me), (.legacy 1 9 0 none 0 [] 45 5 6, me)] := by decide +kernel

example : (contentFrom (toyEnv 18) [txN 0, txOther] [txN 1] me).map (fun c => (c.1 0, c.1 1, c.2 1)) =
    some (some (.legacy 0 9 0 none 0 [] 45 5 6), none, some (.legacy 1 9 0 none 0 [] 45 5 6)) := by decide +kernel

example : (content (toyEnv 18) [txN 0, txOther] [txN 1]).map (fun c => (c.1 me 0, c.1 me 1, c.2 me 1)) =
    some (some (.legacy 0 9 0 none 0 [] 45 5 6), none, some (.legacy 1 9 0 none 0 [] 45 5 6)) := by decide +kernel

/-- C65 does not hold for more than 100 pending transactions: the others are left out. -/
theorem C65_limit_violated : (content (toyEnv 18) ((List.range 101).map txN) []).map (fun c => ((c.1 me 99).isSome, (c.1 me 100).isSome)) = some (true, false) ∧
    (pendingTransactions (toyEnv 18) ((List.range 31).map txN)).map List.length = some 30 := by decide +kernel

/-- C65: for every pool, what comes after the first 100 (30) has no effect. -/
theorem C65_limit_general_violated {K : Type} (e : Env K) (pool more queued : List (CosmosTx K)) :
    (pool.length = 100 → content e (pool ++ more) queued = content e pool queued) ∧
    (pool.length = 30 → pendingTransactions e (pool ++ more) = pendingTransactions e pool) := by
  constructor
  · intro h
    have e1 : (pool ++ more).take 100 = pool := by rw [← h]; simp
    have e2 : pool.take 100 = pool := by rw [← h]; simp
    simp only [content, e1, e2]
  · intro h
    have e1 : (pool ++ more).take 30 = pool := by rw [← h]; simp
    have e2 : pool.take 30 = pool := by rw [← h]; simp
    simp only [pendingTransactions, e1, e2]

/-- C65 does not hold for equal nonces: the later transaction (with other gas) hides the earlier one. -/
theorem C65_same_nonce_violated : (content (toyEnv 18) [txN 0, { txN 0 with gas := 10 }] []).map (fun c => c.1 me 0) = some (some (.legacy 0 10 0 none 0 [] 45 5 6)) ∧
    (ethTxs (toyEnv 18) [txN 0, { txN 0 with gas := 10 }]).length = 2 := by decide +kernel

/-- C65 does not hold for the counts: they include transactions that are not Ethereum transactions. -/
theorem C65_status_violated : status [txN 0, txOther] ([] : List (CosmosTx Unit)) = (2, 0) ∧ (ethTxs (toyEnv 18) [txN 0, txOther]).length = 1 := by decide +kernel

/-- C65: a transaction that can not be converted makes the whole call fail (such a transaction does not pass the signature check,
see `checked_converts`, but the conversion uses the fee denom and decimals of now). -/
theorem C65_unconvertible_violated {K : Type} (e : Env K) (pool queued : List (CosmosTx K)) (t : CosmosTx K) (h : t ∈ pool.take 100) (hc : cosmosToEth e t = none) :
    content e pool queued = none := by
  rcases dump_spec e (pool.take 100) (fun _ _ => none) with ⟨_, h2⟩ | ⟨h1, _⟩
  · simp [content, h2]
  · exact absurd hc (h1 t h)

example : cosmosToEth (toyEnv 18) txBad = none ∧ (content (toyEnv 18) [txN 0, txBad] []).isNone = true := by decide +kernel

/-- C65: when all pending transactions are Ethereum transactions the counts are right. -/
theorem C65_status_partial {K : Type} (e : Env K) (pool queued : List (CosmosTx K)) (h : ∀ t ∈ pool ++ queued, ∃ x a, cosmosToEth e t = some (some (x, a))) :
    status pool queued = ((ethTxs e pool).length, (ethTxs e queued).length) := by
  have key : ∀ l : List (CosmosTx K), (∀ t ∈ l, ∃ x a, cosmosToEth e t = some (some (x, a))) → (ethTxs e l).length = l.length := by
    intro l
    induction l with
    | nil => intro _; rfl
    | cons t ts ih =>
      intro hl
      obtain ⟨x, a, hx⟩ := hl t (by simp)
      have := ih (fun t ht => hl t (List.mem_cons_of_mem _ ht))
      simp only [ethTxs] at this
      simp [ethTxs, hx, this]
  rw [key pool (fun t ht => h t (List.mem_append_left _ ht)), key queued (fun t ht => h t (List.mem_append_right _ ht))]; rfl

example : ∃ x a, cosmosToEth (toyEnv 18) (txN 4) = some (some (x, a)) := ⟨.legacy 4 9 0 none 0 [] 45 5 6, me, by decide +kernel⟩

end Verif.TxPool
