import Verif.Props.BankGenesis
import Verif.Props.Export
import Verif.Props.Query
import Verif.Props.Routes
/-
C67, C69, C90, C154: exactly what happens.
-/
namespace Verif.Props.BankGenesis
open Verif Verif.Text Verif.Denom Verif.Tokens Verif.Identity Verif.Bank Verif.Spec.Bank Verif.Spec.Ledger
open Verif.Props.Ledger Verif.Props.Tokens Verif.Props.Bank

/-- **C67 (iteration, exact).** The iteration over all balances shows, account by account, the coins up to and including the first
on which the callback asks to stop: such a wish skips the rest of one account, and of no other. -/
theorem C67_iterate_exact (coinsOf : Bytes → List (Str × Nat)) (accounts : List Bytes)
    (stop : Bytes → (Str × Nat) → Bool) :
    iterateAll coinsOf accounts (recorder stop) [] =
      accounts.flatMap fun a => untilStop stop ((coinsOf a).map fun c => (a, c)) := by
  have hfeed : ∀ (a : Bytes) (l : List (Str × Nat)) (seen : List (Bytes × (Str × Nat))),
      (feed (recorder stop a) l seen).1 = seen ++ untilStop stop (l.map fun c => (a, c)) := by
    intro a l
    induction l with
    | nil => intro seen; simp [feed, untilStop]
    | cons c rest ih =>
      intro seen
      have e : recorder stop a c seen = (seen ++ [(a, c)], stop a c) := rfl
      simp only [feed, e, List.map_cons, untilStop]
      cases hs : stop a c with
      | true => simp
      | false => simp [ih (seen ++ [(a, c)])]
  have key : ∀ (accs : List Bytes) (seen : List (Bytes × (Str × Nat))),
      iterateAll coinsOf accs (recorder stop) seen =
        seen ++ accs.flatMap fun a => untilStop stop ((coinsOf a).map fun c => (a, c)) := by
    intro accs
    induction accs with
    | nil => intro seen; simp [iterateAll]
    | cons a rest ih =>
      intro seen
      have := ih (feed (recorder stop a) (coinsOf a) seen).1
      unfold iterateAll at this ⊢
      rw [List.foldl_cons, this, hfeed, List.flatMap_cons, List.append_assoc]
  simpa using key accounts []

/-- **C67 (metadata, exact).** The two metadata queries answer differently exactly for a valid denom without stored metadata whose
contract has some: the query by string does not find it. -/
theorem C67_metadata_iff (g : Cfg) (contract : Str → Option Metadata) (d : Str) (s : State) :
    queryMetadata g contract d s ≠ queryMetadataByString g contract d s ↔
      g.validDenom d = true ∧ s.mdata d = none ∧ (contract d).isSome = true := by
  unfold queryMetadata queryMetadataByString
  cases g.validDenom d <;> cases s.mdata d <;> cases contract d <;> simp

/-- **C67 (balance listing, exact).** An entry is in the paginated balances and not in the account iteration exactly if it is of a
registered token of the account and its amount is zero. -/
theorem C67_balances_iff (mask : Str → List Bool) (s : State) (a : Addr) (x : Str × Nat) :
    x ∈ allBalances mask s a ∧ x ∉ accountCoins mask s a ↔
      x.2 = 0 ∧ ∃ k ∈ s.w.stores a, balanceOf s.w k a = 0 ∧ x.1 = contractToDenom mask s.w.maps k := by
  rw [← C67_balances_partial mask s a]
  simp only [List.mem_filter, decide_not, Bool.not_eq_true', decide_eq_false_iff_not]
  constructor
  · rintro ⟨h1, h2⟩
    have h0 : x.2 = 0 := Classical.byContradiction fun hn => h2 ⟨h1, hn⟩
    refine ⟨h0, ?_⟩
    unfold allBalances at h1
    obtain ⟨k, hk, e⟩ := List.mem_map.mp h1
    subst e
    exact ⟨k, hk, h0, rfl⟩
  · rintro ⟨h0, k, hk, hb, hd⟩
    refine ⟨?_, fun h => h.2 h0⟩
    unfold allBalances
    refine List.mem_map.mpr ⟨k, hk, ?_⟩
    rw [hb, ← h0, ← hd]

end Verif.Props.BankGenesis

namespace Verif.Props.Export
open Verif Verif.Text Verif.Denom Verif.Tokens Verif.Identity Verif.Bank Verif.ModuleAcct Verif.Export

theorem convert_none_iff (m : Accts) (b : Bytes) :
    convert m b false = none ↔ b.length ≠ 20 ∧ ∃ acc, m (bytesToAddress b) = some acc ∧ isEmpty acc = false ∧
      ∀ n, acc ≠ .shorthand b n := by
  unfold convert
  by_cases hl : b.length = 20
  · simp [hl]
  · rw [if_neg hl]
    simp only [Bool.false_eq_true, if_false]
    cases hm : m (bytesToAddress b) with
    | none => simp
    | some acc =>
      simp only [Option.some.injEq, exists_eq_left']
      by_cases he : isEmpty acc = true
      · simp [he]
      · have he' : isEmpty acc = false := by simpa using he
        simp only [he', Bool.false_eq_true, if_false, true_and]
        cases acc with
        | shorthand o n =>
          simp only
          by_cases ho : o = b
          · simp only [ho, if_true, reduceCtorEq, false_iff]
            intro h
            exact h.2 n rfl
          · simp [ho, hl]
        | _ => simp [hl]

/-- **C90 (exactly when it is impossible).** The export panics exactly if some account has an address of another length than 20 and the
account at its last 20 bytes is in use (not an empty one) and was not created for that address. -/
theorem C90_panics_iff (mask : Str → List Bool) (s : State) (accounts : List Bytes) (regs : List Addr) :
    exportBalances mask s accounts regs = none ↔
      ∃ b ∈ accounts, b.length ≠ 20 ∧ ∃ acc, s.accts (bytesToAddress b) = some acc ∧ isEmpty acc = false ∧
        ∀ n, acc ≠ .shorthand b n := by
  have key : ∀ (l : List Bytes) acc0, accountsBalances mask s l acc0 = none ↔ ∃ b ∈ l, convert s.accts b false = none := by
    intro l
    induction l with
    | nil => intro acc0; simp [accountsBalances]
    | cons b rest ih =>
      intro acc0
      unfold accountsBalances
      cases hc : coinsOf mask s b with
      | none =>
        have : convert s.accts b false = none := by
          unfold coinsOf at hc
          cases h : convert s.accts b false with
          | none => rfl
          | some q => rw [h] at hc; cases hc
        simp [this]
      | some cs =>
        have : convert s.accts b false ≠ none := by
          intro h
          unfold coinsOf at hc
          rw [h] at hc; cases hc
        simp only [ih, List.mem_cons]
        constructor
        · rintro ⟨x, hx, h⟩; exact ⟨x, .inr hx, h⟩
        · rintro ⟨x, rfl | hx, h⟩
          · exact absurd h this
          · exact ⟨x, hx, h⟩
  unfold exportBalances
  have := key accounts []
  simp only [convert_none_iff] at this
  rw [← this]
  cases accountsBalances mask s accounts [] <;> simp

/-- A longer address that ends in an account with a transaction: the export panics; without the transaction it does not. -/
example : exportBalances noMask { Props.Bank.toyState with accts := fun a => if a = Addr.ofNat 5 then some (.plain true 1) else none }
      [1 :: (Addr.ofNat 5).bytes] [] = none ∧
    (exportBalances noMask { Props.Bank.toyState with accts := fun a => if a = Addr.ofNat 5 then some (.plain false 0) else none }
      [1 :: (Addr.ofNat 5).bytes] []).isSome = true := by
  constructor
  · rw [C90_panics_iff]
    exact ⟨_, List.mem_singleton.mpr rfl, by decide +kernel, .plain true 1, by decide +kernel, rfl, fun n h => by cases h⟩
  · decide +kernel

end Verif.Props.Export

namespace Verif.Props.Query
open Verif Verif.Query

/-- The last value the texts give to a field, in order. -/
def lastIn (ts : List (List (List Nat × List Nat))) (f : List Nat) : Option (List Nat) :=
  ((ts.flatten.filter fun p => p.1 == f).getLast?).map (·.2)

theorem convertAll_append (known : List Nat → Bool) : ∀ (a b : List (List (List Nat × List Nat))) (m : Fields),
    convertAll known m (a ++ b) = convertAll known (convertAll known m a) b
  | [], _, _ => rfl
  | t :: a, b, m => convertAll_append known a b _

theorem residue (known : List Nat → Bool) : ∀ (b : List (List (List Nat × List Nat))) (m : Fields),
    (∀ t ∈ b, means known t = none) → ∀ f, convertAll known m b f =
      if known f = true then (lastIn b f).or (m f) else m f
  | [], m, _, f => by simp [convertAll, lastIn]
  | t :: b, m, h, f => by
    have ht := h t (by simp)
    have hbad : (unmarshalInto known m t).2 = false := by
      unfold means at ht
      split at ht
      · cases ht
      · next hn => simpa [unmarshalInto] using hn
    have hstep : (convertReq known m t).1 = (unmarshalInto known m t).1 := by simp [convertReq, hbad]
    show convertAll known (convertReq known m t).1 b f = _
    rw [residue known b _ (fun x hx => h x (by simp [hx])) f, hstep]
    by_cases hk : known f = true
    · rw [if_pos hk, if_pos hk, unmarshal_fields known t m f hk]
      unfold lastIn
      rw [List.flatten_cons, List.filter_append, List.getLast?_append]
      cases ((b.flatten.filter fun p => p.1 == f).getLast?) <;> simp
    · rw [if_neg hk, if_neg hk, unmarshal_other known t m f (by simpa using hk)]

/-- **C69 (exact).** Requests one at a time, `bad` being the requests that could not be read since the last one that could (or since
the node started): the next request asks the oracle what its text says, with every field that it does not set filled with the
last value the texts of `bad` gave to that field. -/
theorem C69_exact (known : List Nat → Bool) (before bad : List (List (List Nat × List Nat)))
    (hl : before = [] ∨ ∃ l t, before = l ++ [t] ∧ (means known t).isSome = true)
    (hb : ∀ t ∈ bad, means known t = none) (txt : List (List Nat × List Nat)) :
    (convertReq known (convertAll known noFields (before ++ bad)) txt).2 =
      (means known txt).map fun m => fun f => (m f).or (if known f = true then lastIn bad f else none) := by
  have h0 : convertAll known noFields before = noFields := by
    rcases hl with rfl | ⟨l, t, rfl, ht⟩
    · rfl
    · rw [convertAll_append]
      show (convertReq known _ t).1 = noFields
      unfold convertReq
      have : ∀ m, (unmarshalInto known m t).2 = true := by
        intro m
        unfold means at ht
        by_cases hok : t.all (fun p => known p.1) = true
        · exact hok
        · simp [hok] at ht
      simp [this]
  rw [convertAll_append, h0, C69_request]
  · congr 1
    funext m f
    rw [residue known bad noFields hb f]
    by_cases hk : known f = true <;> simp [hk, noFields]
  · intro f hf
    rw [residue known bad noFields hb f]
    simp [hf, noFields]

/-- Two bad requests in a row: the field asked for is the last value either gave. -/
example : means onlyPair [([1], [65]), ([9], [0])] = none ∧ means onlyPair [([1], [66]), ([9], [0])] = none ∧
    lastIn [[([1], [65]), ([9], [0])], [([1], [66]), ([9], [0])]] [1] = some [66] := by
  refine ⟨by simp [means, onlyPair], by simp [means, onlyPair], by decide⟩

end Verif.Props.Query

namespace Verif.Props.Routes
open Verif Verif.Routes

variable {P R : Type}

/-- **C154 (clients, exactly).** The localhost client stays allowed on a new chain exactly if the default list is the wildcard, or becomes
the wildcard when it is taken out, or names it twice. -/
theorem C154_localhost_iff (ts : P) (ms : List P) (admin denom : String) (g : Gen P R) :
    clientAllowed (defaultGenesis ts ms admin denom g).allowedClients "09-localhost" = true ↔
      g.allowedClients = ["*"] ∨ g.allowedClients = ["*", "09-localhost"] ∨ g.allowedClients = ["09-localhost", "*"] ∨
      2 ≤ g.allowedClients.count "09-localhost" := by
  show clientAllowed (g.allowedClients.erase localhost) "09-localhost" = true ↔ _
  generalize g.allowedClients = l
  unfold clientAllowed
  simp only [Bool.or_eq_true, decide_eq_true_eq, List.contains_iff_mem]
  have hc : "09-localhost" ∈ l.erase localhost ↔ 2 ≤ l.count "09-localhost" := by
    rw [← List.count_pos_iff]
    show 0 < (l.erase "09-localhost").count "09-localhost" ↔ _
    rw [List.count_erase_self]; omega
  rw [hc]
  have he : l.erase localhost = ["*"] ↔ l = ["*"] ∨ l = ["*", "09-localhost"] ∨ l = ["09-localhost", "*"] := by
    have hl : localhost = "09-localhost" := rfl
    constructor
    · intro h
      match l, h with
      | [], h => simp at h
      | [a], h =>
        by_cases ha : a = "09-localhost"
        · subst ha; simp [hl] at h
        · simp [List.erase_cons, hl, ha] at h; simp [h]
      | [a, b], h =>
        by_cases ha : a = "09-localhost"
        · subst ha; simp [hl] at h; simp [h]
        · by_cases hb : b = "09-localhost"
          · subst hb; simp [List.erase_cons, hl, ha] at h; simp [h]
          · simp [List.erase_cons, hl, ha, hb] at h
      | a :: b :: c :: r, h =>
        have := congrArg List.length h
        have h2 := List.length_erase (a := localhost) (l := a :: b :: c :: r)
        rw [h] at h2
        simp only [List.length_cons, List.length_nil] at h2
        split at h2 <;> omega
    · rintro (rfl | rfl | rfl) <;> decide
  rw [he]
  constructor
  · rintro (h | h)
    · rcases h with h | h | h
      · exact .inl h
      · exact .inr (.inl h)
      · exact .inr (.inr (.inl h))
    · exact .inr (.inr (.inr h))
  · rintro (h | h | h | h)
    · exact .inl (.inl h)
    · exact .inl (.inr (.inl h))
    · exact .inl (.inr (.inr h))
    · exact .inr h

/-- Taking the localhost client out of `["*", "09-localhost"]` leaves the wildcard, which allows it. -/
example : clientAllowed (defaultGenesis "TS" [] "" "GAS" { toyGen with allowedClients := ["*", "09-localhost"] }).allowedClients
    "09-localhost" = true ∧ clientAllowed (defaultGenesis "TS" [] "" "GAS" toyGen).allowedClients "09-localhost" = false := by
  decide +kernel

end Verif.Props.Routes
