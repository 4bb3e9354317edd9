import Verif.Props.Ledger
import Verif.Spec.Bank
/-
C44: bank sends, restrictions, permissions and administration. C66: bank genesis. C67: bank queries.
-/
namespace Verif.Props.Bank
open Verif Verif.Text Verif.Denom Verif.Tokens Verif.Identity Verif.Bank Verif.Spec.Bank Verif.Spec.Ledger
open Verif.Props.Ledger Verif.Props.Tokens

/-! ### Restrictions -/

/-- Run the configuration calls on the keeper. -/
def configure : List Op → Option Restr → Option Restr
  | [], fn => fn
  | .append r :: rest, fn => configure rest (Bank.append fn r)
  | .prepend r :: rest, fn => configure rest (Bank.prepend fn r)
  | .clear :: rest, fn => configure rest (Bank.clear fn)

/-- `fn` decides as the list does. -/
def Agrees (fn : Option Restr) (l : List Restr) : Prop :=
  ∀ s f r c, Decides s f c l r (Bank.apply fn s f r c)

theorem decides_append {s : State} {f : Bytes} {c : Bank.Coins} {l : List Restr} {g : Restr} {r : Bytes} {o : Option Bytes}
    (h : Decides s f c l r o) :
    Decides s f c (l ++ [g]) r (o.bind fun r' => g s f r' c) := by
  induction h with
  | done r =>
    simp only [List.nil_append, Option.bind_some]
    cases hg : g s f r c with
    | none => exact .refuse g [] r hg
    | some r' => exact .go g [] r r' _ hg (.done r')
  | refuse g' rest r h => exact .refuse g' _ r h
  | go g' rest r r' o h hr ih => exact .go g' _ r r' _ h ih

theorem agrees_append {fn : Option Restr} {l : List Restr} (h : Agrees fn l) (g : Restr) :
    Agrees (Bank.append fn g) (l ++ [g]) := by
  intro s f r c
  have h1 := decides_append (g := g) (h s f r c)
  cases fn with
  | none => simpa [Bank.append, then_, Bank.apply] using h1
  | some k =>
    simp only [Bank.append, then_, Bank.apply] at h1 ⊢
    cases hk : k s f r c with
    | none => simpa [hk] using h1
    | some v => simpa [hk] using h1

theorem agrees_prepend {fn : Option Restr} {l : List Restr} (h : Agrees fn l) (g : Restr) :
    Agrees (Bank.prepend fn g) (g :: l) := by
  intro s f r c
  cases hg : g s f r c with
  | none =>
    have : Bank.apply (Bank.prepend fn g) s f r c = none := by
      cases fn <;> simp [Bank.prepend, then_, Bank.apply, hg]
    rw [this]; exact .refuse g l r hg
  | some r' =>
    have : Bank.apply (Bank.prepend fn g) s f r c = Bank.apply fn s f r' c := by
      cases fn <;> simp [Bank.prepend, then_, Bank.apply, hg]
    rw [this]; exact .go g l r r' _ hg (h s f r' c)

/-- **C44 (restrictions compose).** After any sequence of append, prepend and clear calls, a send is decided by exactly
the restrictions in force, run in order, each on the recipient chosen so far. -/
theorem C44_restrictions (ops : List Op) (s : State) (f r : Bytes) (c : Bank.Coins) :
    Decides s f c (inForce ops []) r (Bank.apply (configure ops none) s f r c) := by
  have key : ∀ (ops : List Op) (fn : Option Restr) (l : List Restr), Agrees fn l →
      Agrees (configure ops fn) (inForce ops l) := by
    intro ops
    induction ops with
    | nil => intro fn l h; exact h
    | cons o rest ih =>
      intro fn l h
      cases o with
      | append g => exact ih _ _ (agrees_append h g)
      | prepend g => exact ih _ _ (agrees_prepend h g)
      | clear => exact ih _ _ (fun s f r c => .done r)
  exact key ops none [] (fun s f r c => .done r) s f r c

/-- The decision is unique. -/
theorem decides_unique {s : State} {f : Bytes} {c : Bank.Coins} {l : List Restr} {r : Bytes} {o o' : Option Bytes}
    (h : Decides s f c l r o) (h' : Decides s f c l r o') : o = o' := by
  induction h generalizing o' with
  | done r => cases h'; rfl
  | refuse g rest r h =>
    cases h' with
    | refuse => rfl
    | go _ _ _ r1 _ h1 _ => rw [h] at h1; cases h1
  | go g rest r r' o h hr ih =>
    cases h' with
    | refuse _ _ _ h1 => rw [h] at h1; cases h1
    | go _ _ _ r1 _ h1 h2 => rw [h] at h1; cases h1; exact ih h2

/-! ### Sends -/

theorem enabled_iff (s : State) (d : Str) : sendEnabledOrDefault s d s.dflt = true ↔ Enabled s d := by
  unfold sendEnabledOrDefault Enabled
  cases h : s.enabled d <;> simp

theorem sorted_nodup : ∀ (l : List (Str × Int)), sortedDenoms l = true → (l.map Prod.fst).Nodup ∧
    ∀ x ∈ l, ∀ y ∈ l.head?, x = y ∨ y.1 < x.1
  | [], _ => ⟨by simp, by simp⟩
  | [x], _ => ⟨by simp, by intro a ha b hb; simp at ha hb; left; rw [ha, hb]⟩
  | x :: y :: rest, h => by
    simp only [sortedDenoms, Bool.and_eq_true, decide_eq_true_eq] at h
    obtain ⟨hlt, h2⟩ := h
    obtain ⟨ih1, ih2⟩ := sorted_nodup (y :: rest) h2
    have hall : ∀ z ∈ y :: rest, x.1 < z.1 := by
      intro z hz
      rcases ih2 z hz y (by simp) with rfl | hyz
      · exact hlt
      · exact List.lt_trans hlt hyz
    refine ⟨?_, ?_⟩
    · rw [List.map_cons, List.nodup_cons]
      refine ⟨?_, ih1⟩
      intro hm
      obtain ⟨z, hz, hze⟩ := List.mem_map.mp hm
      have := hall z hz
      rw [hze] at this
      exact List.lt_irrefl _ this
    · intro a ha b hb
      simp only [List.head?_cons, Option.mem_some] at hb
      subst hb
      rcases List.mem_cons.mp ha with rfl | ha
      · exact Or.inl rfl
      · exact Or.inr (hall a ha)

theorem proper_of_valid {g : Cfg} {coins : List (Str × Int)} (h : coinsValid g coins = true)
    (hp : allPositive coins = true) : ProperAmount g.validDenom coins := by
  simp only [coinsValid, Bool.and_eq_true, List.all_eq_true, decide_eq_true_eq] at h
  refine ⟨?_, h.1, (sorted_nodup coins h.2).1⟩
  rintro rfl
  simp [allPositive] at hp

/-- What a successful ledger transfer did. -/
theorem ekSend_spec {g : Cfg} {f r : Bytes} {coins : Bank.Coins} {s s' : State} (h : ekSend g f r coins s = some s') :
    ∃ ef er m1, convert s.accts f true = some (ef, m1) ∧ convert m1 r false = some (er, s'.accts) ∧
      sendCoins g.chain ef er coins s.w = some s'.w ∧ s'.long = s.long ∧ s'.dflt = s.dflt ∧ s'.enabled = s.enabled ∧
      s'.mdata = s.mdata := by
  unfold ekSend at h
  split at h
  · cases h
  · rename_i ef m1 h1
    split at h
    · cases h
    · rename_i er m2 h2
      split at h
      · cases h
      · rename_i w' h3
        cases h
        exact ⟨ef, er, m1, h1, h2, h3, rfl, rfl, rfl, rfl⟩

theorem sendCoinsB_spec {g : Cfg} {f r : Bytes} {coins : Bank.Coins} {s s' : State}
    (h : sendCoinsB g f r coins s = .ok s') :
    ∃ r', Bank.apply g.restr s f r coins = some r' ∧ ∃ s1, ekSend g f r' coins s = some s1 ∧
      s'.w = s1.w ∧ s'.dflt = s1.dflt ∧ s'.enabled = s1.enabled ∧ s'.mdata = s1.mdata ∧ hasAccount s' r' = true := by
  unfold sendCoinsB at h
  split at h
  · cases h
  · rename_i r' hr
    split at h
    · cases h
    · rename_i s1 h1
      refine ⟨r', hr, s1, h1, ?_⟩
      by_cases ha : hasAccount s1 r' = true
      · rw [if_pos ha] at h
        cases h
        exact ⟨rfl, rfl, rfl, rfl, ha⟩
      · rw [if_neg ha] at h
        cases h
        unfold createAccount
        by_cases hl : r'.length = 20
        · simp [hl, hasAccount, put]
        · simp [hl, hasAccount]

/-- **C44 (user sends).** A `MsgSend` that succeeds named a proper amount, only enabled denoms and a recipient that is
not blocked; the restrictions allowed it and chose a recipient `r'`; exactly the listed amounts moved from the
sender's EVM address to that of `r'`; `r'` has an account; and the bank's own settings are unchanged. -/
theorem C44_send_partial (g : Cfg) (m : MsgSend) (s s' : State) (hd : Deployed s.w (natCoins m.amount))
    (h : msgSend g m s = .ok s') :
    ∃ f r r' ef er m1, g.parseAddr m.from_ = some f ∧ g.parseAddr m.to = some r ∧
      ProperAmount g.validDenom m.amount ∧ (∀ x ∈ m.amount, Enabled s x.1) ∧ g.blockedAddrs r = false ∧
      Bank.apply g.restr s f r (natCoins m.amount) = some r' ∧
      convert s.accts f true = some (ef, m1) ∧ (∃ m2, convert m1 r' false = some (er, m2)) ∧
      Moved s.w s'.w (natCoins m.amount) ef er ∧ (∀ k, supplyOf s'.w k = supplyOf s.w k) ∧
      hasAccount s' r' = true ∧ s'.dflt = s.dflt ∧ s'.enabled = s.enabled ∧ s'.mdata = s.mdata := by
  unfold msgSend at h
  split at h
  · cases h
  · rename_i f hf
    split at h
    · cases h
    · rename_i r hr
      by_cases c1 : coinsValid g m.amount = true
      · by_cases c2 : allPositive m.amount = true
        · by_cases c3 : isSendEnabledCoins s m.amount = true
          · cases c4 : g.blockedAddrs r with
            | true => simp [c1, c2, c3, c4] at h
            | false =>
              simp only [c1, c2, c3, c4, Bool.not_true, Bool.false_eq_true, if_false] at h
              obtain ⟨r', hr', s1, h1, e1, e2, e3, e4, e5⟩ := sendCoinsB_spec h
              obtain ⟨ef, er, m1, k1, k2, k3, k4, k5, k6, k7⟩ := ekSend_spec h1
              obtain ⟨p1, p2, p3, p4, p5⟩ := C25_partial g.chain ef er _ _ _ hd k3
              refine ⟨f, r, r', ef, er, m1, hf, hr, proper_of_valid c1 c2, ?_, c4, hr', k1, ⟨_, k2⟩, ?_, ?_, e5,
                ?_, ?_, ?_⟩
              · intro x hx
                simp only [isSendEnabledCoins, List.all_eq_true] at c3
                exact (enabled_iff s x.1).mp (c3 x hx)
              · rw [e1]; exact p1
              · intro k
                have := p2 k
                rw [e1]
                unfold others at this
                unfold supplyOf
                cases q1 : s1.w.tokens k with
                | none =>
                  cases q2 : s.w.tokens k with
                  | none => rfl
                  | some v => simp [q1, q2] at this
                | some v =>
                  cases q2 : s.w.tokens k with
                  | none => simp [q1, q2] at this
                  | some v2 => simp only [q1, q2, Option.map_some, Option.some.injEq, Prod.mk.injEq] at this
                               exact this.2.1
              · rw [e2, k5]
              · rw [e3, k6]
              · rw [e4, k7]
          · simp [c1, c2, c3] at h
        · simp [c1, c2] at h
      · simp [c1] at h

theorem convert_accts {m m' : Accts} {b : Bytes} {sg : Bool} {a : Addr} (h : convert m b sg = some (a, m')) :
    ∀ x, (b.length = 20 ∨ sg = false ∨ x ≠ bytesToAddress b) → m' x = m x := by
  intro x hx
  unfold convert at h
  by_cases hl : b.length = 20
  · rw [if_pos hl] at h; cases h; rfl
  · rw [if_neg hl] at h
    have hx' : sg = false ∨ x ≠ bytesToAddress b := by
      rcases hx with e | e
      · exact absurd e hl
      · exact e
    have hc : ∀ a m', (if sg then some (bytesToAddress b, put m (bytesToAddress b) (.shorthand b 0)) else some (bytesToAddress b, m))
        = some (a, m') → m' x = m x := by
      intro a m' h
      cases sg with
      | false => simp only [Bool.false_eq_true, if_false] at h; cases h; rfl
      | true =>
        simp only [if_true] at h
        cases h
        rcases hx' with e | e
        · cases e
        · simp [put, e]
    simp only at h
    split at h
    · exact hc _ _ h
    · split at h
      · exact hc _ _ h
      · split at h
        · split at h
          · cases h; rfl
          · cases h
        · cases h

/-- **C44 (accounts).** A `MsgSend` that succeeds touches no account but these: the recipient gets one if it had none - an
ordinary one without public key, with sequence 0 - and a sender with a long address may get its EVM identity. -/
theorem C44_accounts (g : Cfg) (m : MsgSend) (s s' : State) (h : msgSend g m s = .ok s') :
    ∃ f r r', g.parseAddr m.from_ = some f ∧ g.parseAddr m.to = some r ∧
      Bank.apply g.restr s f r (natCoins m.amount) = some r' ∧
      (∀ x, f.length = 20 ∨ x ≠ bytesToAddress f →
        s'.accts x = if s.accts x = none ∧ r'.length = 20 ∧ x = bytesToAddress r' then some (.plain false 0) else s.accts x) ∧
      (∀ y, s'.long y = true ↔ s.long y = true ∨ (y = r' ∧ r'.length ≠ 20)) := by
  unfold msgSend at h
  split at h
  · cases h
  · rename_i f hf
    split at h
    · cases h
    · rename_i r hr
      have hb : sendCoinsB g f r (natCoins m.amount) s = .ok s' := by
        split at h
        · cases h
        · split at h
          · cases h
          · split at h
            · cases h
            · split at h
              · cases h
              · exact h
      unfold sendCoinsB at hb
      split at hb
      · cases hb
      · rename_i r' hr'
        split at hb
        · cases hb
        · rename_i s1 h1
          obtain ⟨ef, er, m1, k1, k2, k3, k4, k5, k6, k7⟩ := ekSend_spec h1
          refine ⟨f, r, r', hf, hr, hr', ?_, ?_⟩
          · intro x hx
            have e1 : s1.accts x = s.accts x := by
              rw [convert_accts k2 x (.inr (.inl rfl))]
              exact convert_accts k1 x (hx.imp_right .inr)
            by_cases ha : hasAccount s1 r' = true
            · rw [if_pos ha] at hb
              cases hb
              rw [e1]
              split
              · rename_i c
                obtain ⟨c1, c2, c3⟩ := c
                simp only [hasAccount, c2, if_true, ← c3, e1, c1] at ha
                cases ha
              · rfl
            · rw [if_neg ha] at hb
              cases hb
              by_cases hl : r'.length = 20
              · simp only [createAccount, if_pos hl, put]
                by_cases hxr : x = bytesToAddress r'
                · have hn : s.accts x = none := by
                    simp only [hasAccount, hl, if_true, ← hxr, e1] at ha
                    simpa using ha
                  rw [if_pos hxr, if_pos ⟨hn, hl, hxr⟩]
                · rw [if_neg hxr, if_neg (fun c => hxr c.2.2)]
                  exact e1
              · simp only [createAccount, if_neg hl]
                rw [if_neg (fun c => hl c.2.1)]
                exact e1
          · intro y
            by_cases ha : hasAccount s1 r' = true
            · rw [if_pos ha] at hb
              cases hb
              rw [k4]
              constructor
              · exact .inl
              · rintro (h | ⟨rfl, hl⟩)
                · exact h
                · simp only [hasAccount, if_neg hl, k4] at ha
                  exact ha
            · rw [if_neg ha] at hb
              cases hb
              by_cases hl : r'.length = 20
              · simp only [createAccount, if_pos hl, k4]
                exact ⟨.inl, fun c => c.elim id fun c => absurd hl c.2⟩
              · simp only [createAccount, if_neg hl, k4]
                by_cases hy : y = r'
                · simp [hy, hl]
                · simp [hy]

/-! A concrete bank: alice (20-byte address) and a module `fee` whose address is blocked. -/

def aliceB : Bytes := alice.bytes
def bobB : Bytes := bob.bytes
def feeB : Bytes := (Addr.ofNat 200).bytes
/-- a 32-byte address ending in the bytes of the blocked module -/
def longFee : Bytes := List.replicate 12 7 ++ feeB

def toyCfg : Cfg where
  chain := toyChain
  tp := toyParams
  blockedAddrs := fun a => a = feeB
  authority := "gov".toList
  parseAddr := fun n => if n = "alice".toList then some aliceB else if n = "bob".toList then some bobB
    else if n = "fee".toList then some feeB else if n = "long".toList then some longFee else none
  validDenom := fun d => decide (2 < d.length)
  restr := none
  mintOk := fun _ => true
  modules := fun n => if n = "fee".toList then some ⟨feeB, false, false, true⟩
    else if n = "minter".toList then some ⟨bobB, true, true, false⟩ else none

def toyState : State where
  w := toyWorld
  accts := fun a => if a = alice then some (.plain true 3) else none
  long := fun _ => false
  dflt := true
  enabled := fun d => if d = evm60 then some false else none
  mdata := fun _ => none

def Res.toOption {α : Type} : Res α → Option α
  | .ok a => some a
  | _ => none

def show4 (s : State) : List Nat :=
  [balanceOf s.w (Addr.ofNat 50) alice, balanceOf s.w (Addr.ofNat 50) bob,
   balanceOf s.w (Addr.ofNat 50) (Addr.ofNat 200), supplyOf s.w (Addr.ofNat 50)]

/-- The hypotheses of `C44_send_partial` are met. -/
example : ((Res.toOption (msgSend toyCfg ⟨"alice".toList, "bob".toList, [(uinit, 30)]⟩ toyState)).map show4) =
    some [70, 30, 0, 100] := by decide +kernel

/-- `C44_accounts` at work: bob had no account. -/
example : (Res.toOption (msgSend toyCfg ⟨"alice".toList, "bob".toList, [(uinit, 30)]⟩ toyState)).map (fun s => s.accts bob) =
    some (some (.plain false 0)) ∧ toyState.accts bob = none := by decide +kernel

/-- Disabled denom and blocked recipient are refused. -/
example : (Res.toOption (msgSend toyCfg ⟨"alice".toList, "bob".toList, [(evm60, 3)]⟩ toyState)).isSome = false ∧
    (Res.toOption (msgSend toyCfg ⟨"alice".toList, "fee".toList, [(uinit, 3)]⟩ toyState)).isSome = false := by
  decide +kernel

/-- **C44 fails: a blocked module is paid through a longer address.** The block list is keyed by the full address, but
the ledger by its last 20 bytes: a `MsgSend` to a 32-byte address with the blocked module's 20 bytes at its end is
accepted and credits the blocked module's balance (as long as that module's account has not been created). -/
theorem C44_blocked_violated : ¬ ∀ (g : Cfg) (m : MsgSend) (s s' : State), Deployed s.w (natCoins m.amount) →
    msgSend g m s = .ok s' → ∀ k (a : Addr), g.blockedAddrs a.bytes = true →
      balanceOf s'.w k a ≤ balanceOf s.w k a := by
  intro h
  have hd : Deployed toyState.w (natCoins [(uinit, 30)]) := by
    intro x hx a ha
    simp only [natCoins, List.map_cons, List.map_nil, List.mem_singleton] at hx
    subst hx
    have e : denomToContract toyState.w.maps uinit = some (Addr.ofNat 50) := by decide +kernel
    rw [e] at ha; cases ha; decide +kernel
  have e : ((Res.toOption (msgSend toyCfg ⟨"alice".toList, "long".toList, [(uinit, 30)]⟩ toyState)).map show4) =
    some [70, 0, 30, 100] := by decide +kernel
  cases hs : msgSend toyCfg ⟨"alice".toList, "long".toList, [(uinit, 30)]⟩ toyState with
  | ok s' =>
    have := h toyCfg ⟨"alice".toList, "long".toList, [(uinit, 30)]⟩ toyState s' hd hs (Addr.ofNat 50) (Addr.ofNat 200)
      (by decide +kernel)
    rw [hs] at e
    simp only [Res.toOption, Option.map_some, Option.some.injEq, show4, List.cons.injEq] at e
    have e0 : balanceOf toyState.w (Addr.ofNat 50) (Addr.ofNat 200) = 0 := by decide +kernel
    omega
  | err => rw [hs] at e; cases e
  | panic => rw [hs] at e; cases e

/-- **C44 (blocked accounts, partial: 20-byte recipients, restrictions that keep the recipient).** Then no `MsgSend`
and no module payout credits a blocked account. -/
theorem C44_blocked_partial (g : Cfg) (m : MsgSend) (s s' : State) (hd : Deployed s.w (natCoins m.amount))
    (hlen : ∀ x r, g.parseAddr x = some r → r.length = 20)
    (hk : ∀ f r c r', Bank.apply g.restr s f r c = some r' → r' = r)
    (h : msgSend g m s = .ok s') (k : Addr) (a : Addr) (hb : g.blockedAddrs a.bytes = true) :
    balanceOf s'.w k a ≤ balanceOf s.w k a := by
  obtain ⟨f, r, r', ef, er, m1, q1, q2, q3, q4, q5, q6, q7, ⟨m2, q8⟩, q9, _⟩ := C44_send_partial g m s s' hd h
  have := hk _ _ _ _ q6
  subst this
  have h20 := hlen _ _ q2
  simp only [convert, h20, if_true, Option.some.injEq, Prod.mk.injEq] at q8
  have hne : a ≠ er := by
    rintro rfl
    rw [← q8.1] at hb
    have : (bytesToAddress r').bytes = r' := fitBytes_eq 20 r' h20
    rw [this, q5] at hb
    cases hb
  have := q9 k a
  rw [if_neg hne] at this
  omega

/-- A bank whose restriction redirects everything to the blocked module (a fee-sweeping restriction, say). -/
def redirectCfg : Cfg := { toyCfg with restr := some fun _ _ _ _ => some feeB }

/-- **C44 fails: a restriction may name a blocked recipient.** Only the recipient of the message is compared with the
block list, not the one the restriction chose, who is credited. -/
theorem C44_redirect_violated : ¬ ∀ (g : Cfg) (m : MsgSend) (s s' : State) (f r r' : Bytes),
    g.parseAddr m.from_ = some f → g.parseAddr m.to = some r → msgSend g m s = .ok s' →
    Bank.apply g.restr s f r (natCoins m.amount) = some r' → g.blockedAddrs r' = false := by
  intro h
  have e : ((Res.toOption (msgSend redirectCfg ⟨"alice".toList, "bob".toList, [(uinit, 30)]⟩ toyState)).map show4) =
    some [70, 0, 30, 100] := by decide +kernel
  cases hs : msgSend redirectCfg ⟨"alice".toList, "bob".toList, [(uinit, 30)]⟩ toyState with
  | ok s' =>
    have := h redirectCfg ⟨"alice".toList, "bob".toList, [(uinit, 30)]⟩ toyState s' aliceB bobB feeB
      (by decide +kernel) (by decide +kernel) hs rfl
    revert this
    decide +kernel
  | err => rw [hs] at e; cases e
  | panic => rw [hs] at e; cases e

/-- A bank that forbids all sends. -/
def closedCfg : Cfg := { toyCfg with restr := some fun _ _ _ _ => none }

def withFee : State := { toyState with
  accts := fun a => if a = alice then some (.plain true 3) else if a = Addr.ofNat 200 then some .module else none }

/-- **C44 fails: delegations bypass the restrictions.** `DelegateCoins` (and `UndelegateCoins`) transfer in the ledger
directly: they succeed although the restriction in force refuses every transfer. -/
theorem C44_delegate_violated : ¬ ∀ (g : Cfg) (f : Bytes) (mn : Str) (mo : Module) (coins : Bank.Coins) (s s' : State),
    g.modules mn = some mo → delegateToModule g f mn coins s = .ok s' →
    (Bank.apply g.restr s f mo.addr coins).isSome := by
  intro h
  have e : ((Res.toOption (delegateToModule closedCfg aliceB "fee".toList [(uinit, 30)] withFee)).map show4) =
    some [70, 0, 30, 100] := by decide +kernel
  cases hs : delegateToModule closedCfg aliceB "fee".toList [(uinit, 30)] withFee with
  | ok s' =>
    have := h closedCfg aliceB "fee".toList ⟨feeB, false, false, true⟩ [(uinit, 30)] withFee s' rfl hs
    cases this
  | err => rw [hs] at e; cases e
  | panic => rw [hs] at e; cases e

/-- `f` paid `coins` to `r`: exactly these amounts moved between their EVM addresses, `r` has an account now, and the
bank's settings are unchanged. -/
def Paid (s s' : State) (f r : Bytes) (coins : Bank.Coins) : Prop :=
  ∃ ef er m1 m2, convert s.accts f true = some (ef, m1) ∧ convert m1 r false = some (er, m2) ∧
    (Deployed s.w coins → Moved s.w s'.w coins ef er) ∧ hasAccount s' r = true ∧ s'.enabled = s.enabled ∧
    s'.dflt = s.dflt ∧ s'.mdata = s.mdata

theorem sendCoinsB_paid {g : Cfg} {f r : Bytes} {coins : Bank.Coins} {s s' : State}
    (h : sendCoinsB g f r coins s = .ok s') :
    ∃ r', Bank.apply g.restr s f r coins = some r' ∧ Paid s s' f r' coins := by
  obtain ⟨r', hr', s1, h1, e1, e2, e3, e4, e5⟩ := sendCoinsB_spec h
  obtain ⟨ef, er, m1, k1, k2, k3, _, k5, k6, k7⟩ := ekSend_spec h1
  refine ⟨r', hr', ef, er, m1, _, k1, k2, ?_, e5, by rw [e3, k6], by rw [e2, k5], by rw [e4, k7]⟩
  intro hd
  rw [e1]
  exact (C25_partial g.chain ef er _ _ _ hd k3).1

/-- **C44 (module transfers obey the restrictions).** Every transfer between modules and accounts other than a
delegation is allowed by the restrictions and pays the recipient they chose; payouts to a blocked account are
refused; unknown modules panic. -/
theorem C44_modules (g : Cfg) (mn mn' : Str) (f r : Bytes) (coins : Bank.Coins) (s s' : State) :
    (moduleToAccount g mn r coins s = .ok s' → ∃ mo r', g.modules mn = some mo ∧ g.blockedAddrs r = false ∧
      Bank.apply g.restr s mo.addr r coins = some r' ∧ Paid s s' mo.addr r' coins) ∧
    (moduleToModule g mn mn' coins s = .ok s' → ∃ mo mo' r', g.modules mn = some mo ∧ g.modules mn' = some mo' ∧
      Bank.apply g.restr s mo.addr mo'.addr coins = some r' ∧ Paid s s' mo.addr r' coins) ∧
    (accountToModule g f mn' coins s = .ok s' → ∃ mo' r', g.modules mn' = some mo' ∧
      Bank.apply g.restr s f mo'.addr coins = some r' ∧ Paid s s' f r' coins) ∧
    (g.modules mn' = none → accountToModule g f mn' coins s = .panic ∧ moduleToAccount g mn' r coins s = .panic ∧
      moduleToModule g mn mn' coins s = .panic) := by
  refine ⟨?_, ?_, ?_, ?_⟩
  · intro h
    unfold moduleToAccount at h
    split at h
    · cases h
    · rename_i mo hmo
      cases hb : g.blockedAddrs r with
      | true => simp [hb] at h
      | false =>
        simp only [hb, Bool.false_eq_true, if_false] at h
        obtain ⟨r', q1, q2⟩ := sendCoinsB_paid h
        exact ⟨mo, r', hmo, rfl, q1, q2⟩
  · intro h
    unfold moduleToModule at h
    split at h
    · cases h
    · rename_i mo hmo
      split at h
      · cases h
      · rename_i mo' hmo'
        obtain ⟨r', q1, q2⟩ := sendCoinsB_paid h
        exact ⟨mo, mo', r', hmo, hmo', q1, q2⟩
  · intro h
    unfold accountToModule at h
    split at h
    · cases h
    · rename_i mo hmo
      obtain ⟨r', q1, q2⟩ := sendCoinsB_paid h
      exact ⟨mo, r', hmo, q1, q2⟩
  · intro h
    refine ⟨by simp [accountToModule, h], by simp [moduleToAccount, h], ?_⟩
    unfold moduleToModule
    cases g.modules mn <;> simp [h]

/-- **C44 (delegations).** A delegation succeeds only into an existing module with the staking permission and an account, with a
valid amount, and moves exactly the amount to the module's own address (no restriction applies, see
`C44_delegate_violated`); an undelegation is the reverse. Without permission the call panics. -/
theorem C44_delegate (g : Cfg) (mn : Str) (f r : Bytes) (coins : Bank.Coins) (s s' : State) :
    (delegateToModule g f mn coins s = .ok s' → ∃ mo, g.modules mn = some mo ∧ mo.staking = true ∧
      hasAccount s mo.addr = true ∧ (∀ x ∈ coins, 0 < x.2) ∧ ekSend g f mo.addr coins s = some s') ∧
    (undelegateFromModule g mn r coins s = .ok s' → ∃ mo, g.modules mn = some mo ∧ mo.staking = true ∧
      hasAccount s mo.addr = true ∧ (∀ x ∈ coins, 0 < x.2) ∧ ekSend g mo.addr r coins s = some s') ∧
    ((g.modules mn = none ∨ ∃ mo, g.modules mn = some mo ∧ mo.staking = false) →
      delegateToModule g f mn coins s = .panic ∧ undelegateFromModule g mn r coins s = .panic) := by
  have pos : coinsValid g (coins.map fun x => (x.1, (x.2 : Int))) = true → ∀ x ∈ coins, 0 < x.2 := by
    intro hv x hx
    simp only [coinsValid, Bool.and_eq_true, List.all_eq_true, List.mem_map, decide_eq_true_eq] at hv
    have := (hv.1 (x.1, (x.2 : Int)) ⟨x, hx, rfl⟩).2
    exact Int.natCast_pos.mp this
  refine ⟨?_, ?_, ?_⟩
  · intro h
    unfold delegateToModule at h
    split at h
    · cases h
    · rename_i mo hmo
      by_cases c2 : mo.staking = true
      · simp only [c2, Bool.not_true, Bool.false_eq_true, if_false] at h
        unfold delegateCoins at h
        cases ha : hasAccount s mo.addr with
        | false => simp [ha] at h
        | true =>
          simp only [ha, Bool.not_true, Bool.false_eq_true, if_false] at h
          by_cases hv : coinsValid g (coins.map fun x => (x.1, (x.2 : Int))) = true
          · simp only [hv, Bool.not_true, Bool.false_eq_true, if_false] at h
            split at h
            · cases h
            · rename_i s1 h1
              cases h
              exact ⟨mo, hmo, c2, ha, pos hv, h1⟩
          · simp [hv] at h
      · simp [c2] at h
  · intro h
    unfold undelegateFromModule at h
    split at h
    · cases h
    · rename_i mo hmo
      by_cases c2 : mo.staking = true
      · simp only [c2, Bool.not_true, Bool.false_eq_true, if_false] at h
        unfold undelegateCoins at h
        cases ha : hasAccount s mo.addr with
        | false => simp [ha] at h
        | true =>
          simp only [ha, Bool.not_true, Bool.false_eq_true, if_false] at h
          by_cases hv : coinsValid g (coins.map fun x => (x.1, (x.2 : Int))) = true
          · simp only [hv, Bool.not_true, Bool.false_eq_true, if_false] at h
            split at h
            · cases h
            · rename_i s1 h1
              cases h
              exact ⟨mo, hmo, c2, ha, pos hv, h1⟩
          · simp [hv] at h
      · simp [c2] at h
  · rintro (h | ⟨mo, h, hm⟩)
    · simp [delegateToModule, undelegateFromModule, h]
    · simp [delegateToModule, undelegateFromModule, h, hm]

example : ((Res.toOption (delegateToModule toyCfg aliceB "fee".toList [(uinit, 30)] withFee)).bind fun s =>
      Res.toOption (undelegateFromModule toyCfg "fee".toList aliceB [(uinit, 10)] s)).map show4 = some [80, 0, 20, 100] ∧
    (Res.toOption (delegateToModule toyCfg aliceB "minter".toList [(uinit, 30)] withFee)).isSome = false := by
  decide +kernel

example : ((Res.toOption (accountToModule toyCfg aliceB "fee".toList [(uinit, 30)] toyState)).map show4) =
    some [70, 0, 30, 100] ∧ (Res.toOption (moduleToAccount toyCfg "minter".toList feeB [] toyState)).isSome = false := by
  decide +kernel

/-! ### Mint and burn -/

/-- **C44 (only minters mint).** A mint succeeds only for an existing module with the minter permission, if the mint
restriction allows the coins; it then creates exactly these coins for the module's address. Without the permission
the call panics whenever the restriction allows it, so the transaction is rolled back. -/
theorem C44_mint (g : Cfg) (hinj : NoCollision g.tp) (mn : Str) (coins : Bank.Coins) (s : State)
    (hw : Consistent g.tp s.w) (hlim : s.w.factoryNonce + coins.length < 2 ^ 64) :
    (∀ s', bankMint g mn coins s = .ok s' → ∃ mo, g.modules mn = some mo ∧ mo.minter = true ∧ g.mintOk coins = true ∧
      ∃ er m1, convert s.accts mo.addr false = some (er, m1) ∧ Created s.w s'.w coins er ∧ s'.accts = m1 ∧
        s'.enabled = s.enabled ∧ s'.dflt = s.dflt) ∧
    (g.mintOk coins = true → (g.modules mn = none ∨ ∃ mo, g.modules mn = some mo ∧ mo.minter = false) →
      bankMint g mn coins s = .panic) := by
  refine ⟨?_, ?_⟩
  · intro s' h
    unfold bankMint at h
    by_cases c1 : g.mintOk coins = true
    · simp only [c1, Bool.not_true, Bool.false_eq_true, if_false] at h
      split at h
      · cases h
      · rename_i mo hmo
        by_cases c2 : mo.minter = true
        · simp only [c2, Bool.not_true, Bool.false_eq_true, if_false] at h
          split at h
          · cases h
          · split at h
            · cases h
            · rename_i s1 h1
              cases h
              unfold ekMint at h1
              split at h1
              · cases h1
              · rename_i er m1 hc
                split at h1
                · cases h1
                · rename_i w' hw'
                  cases h1
                  obtain ⟨_, _, _, _, hcr, _⟩ := C27_mint g.chain g.tp hinj er coins s.w w' hw hlim hw'
                  exact ⟨mo, hmo, c2, c1, er, m1, hc, hcr, rfl, rfl, rfl⟩
        · simp [c2] at h
    · simp [c1] at h
  · intro c1 h
    unfold bankMint
    simp only [c1, Bool.not_true, Bool.false_eq_true, if_false]
    rcases h with h | ⟨mo, h, hm⟩
    · simp [h]
    · simp [h, hm]

/-- **C44 (only burners burn).** As for minting; coins made by the chain are destroyed exactly. -/
theorem C44_burn (g : Cfg) (mn : Str) (coins : Bank.Coins) (s : State) :
    (∀ s', bankBurn g mn coins s = .ok s' → ∃ mo, g.modules mn = some mo ∧ mo.burner = true ∧
      ∃ ef m1, convert s.accts mo.addr false = some (ef, m1) ∧ s'.enabled = s.enabled ∧ s'.dflt = s.dflt ∧
        ((∀ x ∈ coins, isERC20Denom x.1 = false) → Deployed s.w coins → Destroyed s.w s'.w coins ef)) ∧
    ((g.modules mn = none ∨ ∃ mo, g.modules mn = some mo ∧ mo.burner = false) → bankBurn g mn coins s = .panic) := by
  refine ⟨?_, ?_⟩
  · intro s' h
    unfold bankBurn at h
    split at h
    · cases h
    · rename_i mo hmo
      by_cases c2 : mo.burner = true
      · simp only [c2, Bool.not_true, Bool.false_eq_true, if_false] at h
        split at h
        · cases h
        · rename_i s1 h1
          cases h
          unfold ekBurn at h1
          split at h1
          · cases h1
          · rename_i ef m1 hc
            split at h1
            · cases h1
            · rename_i w' hw'
              cases h1
              exact ⟨mo, hmo, c2, ef, m1, hc, rfl, rfl, fun hne hd =>
                (C26_partial g.chain g.tp ef coins coins s.w w' hne hd hw').1⟩
      · simp [c2] at h
  · intro h
    unfold bankBurn
    rcases h with h | ⟨mo, h, hm⟩
    · simp [h]
    · simp [h, hm]

/-- Minting by the minter module works, burning what was minted too, and module `fee` may do neither. -/
example : ((Res.toOption (bankMint toyCfg "minter".toList [(uinit, 5)] toyState)).map show4) = some [100, 5, 0, 105] ∧
    (((Res.toOption (bankMint toyCfg "minter".toList [(uinit, 5)] toyState)).bind fun s =>
      Res.toOption (bankBurn toyCfg "minter".toList [(uinit, 2)] s)).map show4) = some [100, 3, 0, 103] ∧
    (Res.toOption (bankMint toyCfg "fee".toList [(uinit, 5)] toyState)).isSome = false := by decide +kernel

/-! ### Administration -/

theorem setAll_spec (l : List (Str × Bool)) (hn : (l.map Prod.fst).Nodup) (s : State) :
    (∀ d v, (d, v) ∈ l → (setAllEnabled l s).enabled d = some v) ∧
    (∀ d, d ∉ l.map Prod.fst → (setAllEnabled l s).enabled d = s.enabled d) ∧
    (setAllEnabled l s).dflt = s.dflt ∧ (setAllEnabled l s).w = s.w ∧ (setAllEnabled l s).accts = s.accts ∧
    (setAllEnabled l s).long = s.long ∧ (setAllEnabled l s).mdata = s.mdata := by
  induction l generalizing s with
  | nil => exact ⟨by simp, fun _ _ => rfl, rfl, rfl, rfl, rfl, rfl⟩
  | cons x rest ih =>
    obtain ⟨e, b⟩ := x
    rw [List.map_cons, List.nodup_cons] at hn
    obtain ⟨i1, i2, i3⟩ := ih hn.2 { s with enabled := fun x => if x = e then some b else s.enabled x }
    refine ⟨?_, ?_, i3⟩
    · intro d v hd
      rcases List.mem_cons.mp hd with h | h
      · rw [(Prod.mk.inj h).1, (Prod.mk.inj h).2]
        show (setAllEnabled rest _).enabled e = _
        rw [i2 e hn.1]; simp
      · exact i1 d v h
    · intro d hd
      simp only [List.map_cons, List.mem_cons, not_or] at hd
      show (setAllEnabled rest _).enabled d = _
      rw [i2 d hd.2]; simp [hd.1]

theorem delete_spec (l : List Str) (s : State) :
    (∀ d, (deleteEnabled l s).enabled d = if d ∈ l then none else s.enabled d) ∧
    (deleteEnabled l s).dflt = s.dflt ∧ (deleteEnabled l s).w = s.w ∧ (deleteEnabled l s).accts = s.accts ∧
    (deleteEnabled l s).long = s.long ∧ (deleteEnabled l s).mdata = s.mdata := by
  induction l generalizing s with
  | nil => exact ⟨by simp [deleteEnabled], rfl, rfl, rfl, rfl, rfl⟩
  | cons e rest ih =>
    obtain ⟨i1, i3⟩ := ih { s with enabled := fun x => if x = e then none else s.enabled x }
    refine ⟨?_, i3⟩
    intro d
    show (deleteEnabled rest _).enabled d = _
    rw [i1 d]
    by_cases h1 : d = e <;> by_cases h2 : d ∈ rest <;> simp [h1, h2]

theorem noDup_iff (l : List Str) : noDup l = true ↔ l.Nodup := by
  induction l with
  | nil => simp [noDup]
  | cons d rest ih => simp [noDup, ih, List.nodup_cons]

/-- **C44 (send switches).** Only the authority changes send switches; a successful message gives every listed denom
the stated value, except that denoms also listed under `useDefault` end without entry; no other denom, no balance and
nothing else changes. -/
theorem C44_switches (g : Cfg) (auth : Str) (entries : List (Str × Bool)) (dl : List Str) (s s' : State)
    (h : msgSetSendEnabled g auth entries dl s = .ok s') :
    auth = g.authority ∧ (∀ x ∈ entries, g.validDenom x.1 = true) ∧
    (∀ d ∈ dl, s'.enabled d = none) ∧ (∀ d v, (d, v) ∈ entries → d ∉ dl → s'.enabled d = some v) ∧
    (∀ d, d ∉ dl → d ∉ entries.map Prod.fst → s'.enabled d = s.enabled d) ∧
    s'.dflt = s.dflt ∧ s'.w = s.w ∧ s'.accts = s.accts ∧ s'.long = s.long ∧ s'.mdata = s.mdata := by
  unfold msgSetSendEnabled at h
  by_cases c1 : g.authority = auth
  · by_cases c2 : noDup (entries.map Prod.fst) = true
    · by_cases c3 : entries.all (fun x => g.validDenom x.1) = true
      · by_cases c4 : dl.all g.validDenom = true
        · simp only [c1, ne_eq, not_true_eq_false, if_false, c2, c3, c4, Bool.not_true, Bool.false_eq_true] at h
          cases h
          obtain ⟨a1, a2, a3, a4, a5, a6, a7⟩ := setAll_spec entries ((noDup_iff _).mp c2) s
          obtain ⟨b1, b3, b4, b5, b6, b7⟩ := delete_spec dl (setAllEnabled entries s)
          refine ⟨c1.symm, ?_, ?_, ?_, ?_, b3.trans a3, b4.trans a4, b5.trans a5, b6.trans a6, b7.trans a7⟩
          · simpa [List.all_eq_true] using c3
          · intro d hd; rw [b1 d, if_pos hd]
          · intro d v hv hd; rw [b1 d, if_neg hd]; exact a1 d v hv
          · intro d hd hv; rw [b1 d, if_neg hd]; exact a2 d hv
        · simp [c1, c2, c3, c4] at h
      · simp [c1, c2, c3] at h
    · simp [c1, c2] at h
  · simp [c1] at h

example : ((Res.toOption (msgSetSendEnabled toyCfg "gov".toList [(uinit, false), (evm70, true)] [evm70, evm60] toyState)).map
    fun s => [s.enabled uinit, s.enabled evm70, s.enabled evm60]) = some [some false, none, none] ∧
    (Res.toOption (msgSetSendEnabled toyCfg "eve".toList [(uinit, false)] [] toyState)).isSome = false := by
  decide +kernel

/-- **C44 (parameters and metadata).** Only the authority changes the default switch or a denom's metadata, and
nothing else changes with them. -/
theorem C44_admin (g : Cfg) (valid : Metadata → Bool) (auth : Str) (p : BankParams) (md : Metadata) (s s' : State) :
    (msgUpdateParams g auth p s = .ok s' → auth = g.authority ∧ s' = { s with dflt := p.dflt }) ∧
    (msgSetMetadata g valid auth md s = .ok s' → auth = g.authority ∧ valid md = true ∧ s'.mdata md.base = some md ∧
      (∀ d, d ≠ md.base → s'.mdata d = s.mdata d) ∧ s'.w = s.w ∧ s'.enabled = s.enabled ∧ s'.dflt = s.dflt ∧
      s'.accts = s.accts) := by
  refine ⟨?_, ?_⟩
  · intro h
    unfold msgUpdateParams at h
    by_cases c1 : g.authority = auth
    · cases hp : p.sendEnabled with
      | nil =>
        simp only [c1, hp, ne_eq, not_true_eq_false, if_false, List.isEmpty_nil, Bool.not_true, Bool.false_eq_true,
          setParams, setAllEnabled] at h
        cases h
        exact ⟨c1.symm, rfl⟩
      | cons x l => simp [c1, hp] at h
    · simp [c1] at h
  · intro h
    unfold msgSetMetadata at h
    by_cases c1 : g.authority = auth
    · by_cases c2 : valid md = true
      · simp only [c1, c2, ne_eq, not_true_eq_false, if_false, Bool.not_true, Bool.false_eq_true] at h
        cases h
        refine ⟨c1.symm, c2, by simp, ?_, rfl, rfl, rfl, rfl⟩
        intro d hd; simp [hd]
      · simp [c1, c2] at h
    · simp [c1] at h

example : ((Res.toOption (msgUpdateParams toyCfg "gov".toList ⟨[], false⟩ toyState)).map fun s => s.dflt) = some false ∧
    (Res.toOption (msgUpdateParams toyCfg "eve".toList ⟨[], false⟩ toyState)).isSome = false ∧
    ((Res.toOption (msgSetMetadata toyCfg (fun _ => true) "gov".toList ⟨uinit, []⟩ toyState)).map
      fun s => s.mdata uinit) = some (some ⟨uinit, []⟩) := by decide +kernel

/-- **C44 (acceptance).** A `MsgSend` of a valid, positive amount of enabled, existing denoms to a recipient that is
not blocked, allowed by the restrictions, between addresses that have EVM addresses, is accepted if the sender
holds the amounts. -/
theorem C44_send_accepts (g : Cfg) (m : MsgSend) (s : State) (f r r' : Bytes) (ef er : Addr) (m1 m2 : Accts)
    (hf : g.parseAddr m.from_ = some f) (hr : g.parseAddr m.to = some r)
    (hv : coinsValid g m.amount = true) (hne : m.amount ≠ []) (hen : ∀ x ∈ m.amount, Enabled s x.1)
    (hb : g.blockedAddrs r = false) (hre : Bank.apply g.restr s f r (natCoins m.amount) = some r')
    (hcf : convert s.accts f true = some (ef, m1)) (hcr : convert m1 r' false = some (er, m2))
    (hs : ∀ k b t, s.w.tokens k = some (b, t) → Sound t)
    (hd : ∀ x ∈ natCoins m.amount, ∃ a, denomToContract s.w.maps x.1 = some a ∧ (s.w.tokens a).isSome)
    (hbal : ∀ k, listed s.w.maps (natCoins m.amount) k ≤ balanceOf s.w k ef) :
    ∃ s', msgSend g m s = .ok s' := by
  obtain ⟨w', hw'⟩ := C25_accepts g.chain ef er (natCoins m.amount) s.w hs hd hbal
  have hp : allPositive m.amount = true := by
    simp only [coinsValid, Bool.and_eq_true, List.all_eq_true] at hv
    simp only [allPositive, Bool.and_eq_true, List.all_eq_true]
    exact ⟨by cases hm : m.amount with
      | nil => exact absurd hm hne
      | cons _ _ => rfl, fun x hx => (hv.1 x hx).2⟩
  have he : isSendEnabledCoins s m.amount = true := by
    simp only [isSendEnabledCoins, List.all_eq_true]
    exact fun x hx => (enabled_iff s x.1).mpr (hen x hx)
  have hek : ekSend g f r' (natCoins m.amount) s = some { s with w := w', accts := m2 } := by
    simp [ekSend, hcf, hcr, hw']
  simp only [msgSend, hf, hr, hv, hp, he, hb, Bool.not_true, Bool.false_eq_true, if_false, sendCoinsB, hre, hek]
  split <;> exact ⟨_, rfl⟩

end Verif.Props.Bank
