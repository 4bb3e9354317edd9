import Verif.Props.Bank
import Verif.Props.Identity
/-
C66: bank genesis import and export. C67: bank views.
-/
namespace Verif.Props.BankGenesis
open Verif Verif.Text Verif.Denom Verif.Tokens Verif.Identity Verif.Bank Verif.Spec.Bank Verif.Spec.Ledger
open Verif.Props.Ledger Verif.Props.Tokens Verif.Props.Bank

/-! ### C66 -/

/-- How much of token `k` a genesis balance list gives to EVM address `x`. -/
def granted (m : Maps) (l : List (Bytes × Bank.Coins)) (k x : Addr) : Nat :=
  (l.map fun p => if bytesToAddress p.1 = x then listed m p.2 k else 0).sum

/-- How much of token `k` a genesis balance list names in total. -/
def total (m : Maps) (l : List (Bytes × Bank.Coins)) (k : Addr) : Nat := (l.map fun p => listed m p.2 k).sum

theorem convert_addr {m m' : Accts} {addr : Bytes} {a : Addr} (h : convert m addr false = some (a, m')) :
    a = bytesToAddress addr := by
  unfold convert at h
  split at h
  · cases h; rfl
  · simp only [Bool.false_eq_true, if_false] at h
    split at h
    · cases h; rfl
    · split at h
      · cases h; rfl
      · split at h
        · split at h
          · cases h; rfl
          · cases h
        · cases h

theorem listed_extends {m m' : Maps} (h : Extends m m') (coins : Bank.Coins)
    (hne : ∀ x ∈ coins, isERC20Denom x.1 = false) (hm : ∀ x ∈ coins, ∃ a, m.toAddr x.1 = some a) (k : Addr) :
    listed m' coins k = listed m coins k := by
  induction coins with
  | nil => rfl
  | cons x rest ih =>
    obtain ⟨d, n⟩ := x
    rw [listed_cons, listed_cons, ih (fun y hy => hne y (List.mem_cons_of_mem _ hy))
      (fun y hy => hm y (List.mem_cons_of_mem _ hy))]
    obtain ⟨a, ha⟩ := hm (d, n) (List.mem_cons_self ..)
    have h0 := hne (d, n) (List.mem_cons_self ..)
    simp only at ha h0
    have e1 : denomToContract m d = some a := by simp [denomToContract, h0, ha]
    have e2 : denomToContract m' d = some a := by simp [denomToContract, h0, h d a ha]
    rw [e1, e2]

theorem Extends.trans {m m1 m2 : Maps} (h : Extends m m1) (h' : Extends m1 m2) : Extends m m2 :=
  fun d a ha => h' d a (h d a ha)

/-- Number of coins in a balance list. -/
def coinCount (l : List (Bytes × Bank.Coins)) : Nat := (l.map fun p => p.2.length).sum

theorem mint_nonce {c : Chain} {p : Tokens.Params} {r : Addr} {coins : Bank.Coins} {w w' : World}
    (h : mintCoins c p r coins w = some w') : w'.factoryNonce ≤ w.factoryNonce + coins.length := by
  induction coins generalizing w with
  | nil => simp only [mintCoins, Option.some.injEq] at h; subst h; simp
  | cons x rest ih =>
    obtain ⟨d, amt⟩ := x
    rw [mintCoins_cons] at h
    split at h
    · cases h
    · split at h
      · cases h
      · split at h
        · cases h
        · rename_i w1 h1
          obtain ⟨_, _, e3, _, _⟩ := callToken_spec h1
          have := ih h
          rw [e3] at this
          have : (ensure c p w d).factoryNonce ≤ w.factoryNonce + 1 := by
            unfold ensure
            split
            · omega
            · simp [factoryCreate]
          simp only [List.length_cons]
          omega

theorem initBalances_spec (g : Cfg) (hinj : NoCollision g.tp) (l : List (Bytes × Bank.Coins)) (s s' : State)
    (hw : Consistent g.tp s.w) (hlim : s.w.factoryNonce + coinCount l < 2 ^ 64)
    (h : initBalances g l s = some s') :
    (∀ p ∈ l, ∀ x ∈ p.2, isERC20Denom x.1 = false ∧ ∃ a, s'.w.maps.toAddr x.1 = some a) ∧
    Extends s.w.maps s'.w.maps ∧
    (∀ k x, balanceOf s'.w k x = balanceOf s.w k x + granted s'.w.maps l k x) ∧
    (∀ k, supplyOf s'.w k = supplyOf s.w k + total s'.w.maps l k) ∧
    s'.accts = s.accts ∧ s'.long = s.long ∧ s'.dflt = s.dflt ∧ s'.enabled = s.enabled ∧ s'.mdata = s.mdata := by
  induction l generalizing s with
  | nil =>
    simp only [initBalances, Option.some.injEq] at h; subst h
    exact ⟨by simp, fun _ _ h => h, by simp [granted], by simp [total], rfl, rfl, rfl, rfl, rfl⟩
  | cons p rest ih =>
    obtain ⟨a, cs⟩ := p
    simp only [initBalances] at h
    split at h
    · cases h
    · rename_i s1 h1
      unfold ekMint at h1
      split at h1
      · cases h1
      · rename_i er m1 hc
        split at h1
        · cases h1
        · rename_i w' hw'
          cases h1
          simp only [coinCount, List.map_cons, List.sum_cons] at hlim
          obtain ⟨q1, q2, q3, q4, ⟨q5, q6⟩, q7⟩ := C27_mint g.chain g.tp hinj er cs s.w w' hw (by omega) hw'
          have hn := mint_nonce hw'
          obtain ⟨i1, i2, i3, i4, i5, i6, i7, i8, i9⟩ := ih _ q7 (by simp only [coinCount]; omega) h
          simp only at i1 i2 i3 i4 i5 i6 i7 i8 i9
          have hl : ∀ k, listed s'.w.maps cs k = listed w'.maps cs k := fun k => listed_extends i2 cs q1 q2 k
          have her := convert_addr hc
          refine ⟨?_, Extends.trans q3 i2, ?_, ?_, ?_, i6, i7, i8, i9⟩
          · intro p hp x hx
            rcases List.mem_cons.mp hp with rfl | hp
            · obtain ⟨b, hb⟩ := q2 x hx
              exact ⟨q1 x hx, b, i2 _ _ hb⟩
            · exact i1 p hp x hx
          · intro k x
            rw [i3 k x, q5 k x]
            simp only [granted, List.map_cons, List.sum_cons, hl, her]
            by_cases hx : x = bytesToAddress a
            · subst hx; simp; omega
            · have : bytesToAddress a ≠ x := fun e => hx e.symm
              simp [hx, this]
          · intro k
            rw [i4 k, q6 k]
            simp only [total, List.map_cons, List.sum_cons, hl]
            omega
          · rw [i5]; exact Identity.convert_reader hc

theorem setAllMeta_spec (l : List Metadata) (s : State) :
    (setAllMeta l s).w = s.w ∧ (setAllMeta l s).enabled = s.enabled ∧ (setAllMeta l s).dflt = s.dflt ∧
    (setAllMeta l s).accts = s.accts ∧
    (∀ d, d ∉ l.map Metadata.base → (setAllMeta l s).mdata d = s.mdata d) ∧
    ((l.map Metadata.base).Nodup → ∀ md ∈ l, (setAllMeta l s).mdata md.base = some md) := by
  induction l generalizing s with
  | nil => exact ⟨rfl, rfl, rfl, rfl, fun _ _ => rfl, by simp⟩
  | cons md rest ih =>
    obtain ⟨i1, i2, i3, i4, i5, i6⟩ := ih { s with mdata := fun d => if d = md.base then some md else s.mdata d }
    refine ⟨i1, i2, i3, i4, ?_, ?_⟩
    · intro d hd
      simp only [List.map_cons, List.mem_cons, not_or] at hd
      show (setAllMeta rest _).mdata d = _
      rw [i5 d hd.2]; simp [hd.1]
    · intro hn x hx
      rw [List.map_cons, List.nodup_cons] at hn
      rcases List.mem_cons.mp hx with rfl | hx
      · show (setAllMeta rest _).mdata x.base = _
        rw [i5 _ hn.1]; simp
      · exact i6 hn.2 x hx

theorem setAll_frame (l : List (Str × Bool)) (s : State) :
    (setAllEnabled l s).w = s.w ∧ (setAllEnabled l s).mdata = s.mdata ∧ (setAllEnabled l s).dflt = s.dflt ∧
    (setAllEnabled l s).accts = s.accts := by
  induction l generalizing s with
  | nil => exact ⟨rfl, rfl, rfl, rfl⟩
  | cons x rest ih => exact ih _

/-- **C66 (import).** A bank genesis that is accepted names only coins the chain makes itself, credits every account
with exactly the listed coins on top of what the ledger already holds, raises every supply by exactly the listed
total, states the right total supply (if it states one), and sets exactly the listed switches and metadata. -/
theorem C66_import (g : Cfg) (hinj : NoCollision g.tp) (ge : Genesis) (s s' : State)
    (hw : Consistent g.tp s.w) (hlim : s.w.factoryNonce + coinCount ge.balances < 2 ^ 64)
    (h : initGenesis g ge s = some s') :
    (∀ p ∈ ge.balances, ∀ x ∈ p.2, isERC20Denom x.1 = false) ∧
    (∀ k x, balanceOf s'.w k x = balanceOf s.w k x + granted s'.w.maps ge.balances k x) ∧
    (∀ k, supplyOf s'.w k = supplyOf s.w k + total s'.w.maps ge.balances k) ∧
    (ge.supply ≠ [] → ∀ d, amountOf ge.supply d = amountOf (ge.balances.map Prod.snd).flatten d) ∧
    s'.dflt = ge.params.dflt ∧
    ((ge.enabled.map Prod.fst).Nodup → ge.params.sendEnabled = [] →
      (∀ d v, (d, v) ∈ ge.enabled → s'.enabled d = some v) ∧
      (∀ d, d ∉ ge.enabled.map Prod.fst → s'.enabled d = s.enabled d)) ∧
    ((ge.mdata.map Metadata.base).Nodup → ∀ md ∈ ge.mdata, s'.mdata md.base = some md) := by
  unfold initGenesis at h
  split at h
  · cases h
  · rename_i s1 h1
    split at h
    · rename_i hsup
      cases h
      have f1 := setAll_frame ge.enabled (setParams ge.params s)
      have f2 := setAll_frame ge.params.sendEnabled s
      have ew : (setAllEnabled ge.enabled (setParams ge.params s)).w = s.w := by
        rw [f1.1]; exact f2.1
      obtain ⟨i1, i2, i3, i4, i5, i6, i7, i8, i9⟩ := initBalances_spec g hinj ge.balances _ s1 (by rw [ew]; exact hw)
        (by rw [ew]; exact hlim) h1
      obtain ⟨m1, m2, m3, m4, m5, m6⟩ := setAllMeta_spec ge.mdata s1
      refine ⟨fun p hp x hx => (i1 p hp x hx).1, ?_, ?_, ?_, ?_, ?_, m6⟩
      · intro k x; rw [m1, i3 k x, ew]
      · intro k; rw [m1, i4 k, ew]
      · intro hne d
        simp only [supplyOk, Bool.or_eq_true, Bool.and_eq_true, List.all_eq_true, decide_eq_true_eq] at hsup
        rcases hsup with he | ⟨hs1, hs2⟩
        · exact absurd (List.isEmpty_iff.mp he) hne
        · by_cases hd : ∃ x ∈ (ge.balances.map Prod.snd).flatten, x.1 = d
          · obtain ⟨x, hx, rfl⟩ := hd
            exact hs2 x hx
          · have hz : ∀ (l : Bank.Coins), (∀ x ∈ l, x.1 ≠ d) → amountOf l d = 0 := by
              intro l hl
              induction l with
              | nil => rfl
              | cons y r ih =>
                simp only [amountOf, List.map_cons, List.sum_cons]
                rw [if_neg (hl y (List.mem_cons_self ..))]
                simpa [amountOf] using ih (fun z hz => hl z (List.mem_cons_of_mem _ hz))
            have h0 : amountOf (ge.balances.map Prod.snd).flatten d = 0 :=
              hz _ (fun x hx e => hd ⟨x, hx, e⟩)
            rw [h0]
            apply hz
            intro x hx e
            have := hs1 x hx
            rw [e, h0] at this
            exact this.2 this.1.symm
      · rw [m3, i7, f1.2.2.1]; rfl
      · intro hn hp
        obtain ⟨a1, a2, _⟩ := setAll_spec ge.enabled hn (setParams ge.params s)
        refine ⟨?_, ?_⟩
        · intro d v hv; rw [m2, i8]; exact a1 d v hv
        · intro d hd
          rw [m2, i8, a2 d hd]
          simp [setParams, hp, setAllEnabled]
    · cases h

theorem initBalances_frame {g : Cfg} : ∀ (l : List (Bytes × Bank.Coins)) (s s' : State), initBalances g l s = some s' →
    s'.dflt = s.dflt ∧ s'.enabled = s.enabled ∧ s'.mdata = s.mdata := by
  intro l
  induction l with
  | nil => intro s s' h; cases h; exact ⟨rfl, rfl, rfl⟩
  | cons p rest ih =>
    intro s s' h
    obtain ⟨a, cs⟩ := p
    simp only [initBalances] at h
    split at h
    · cases h
    · rename_i s1 h1
      have e : s1.dflt = s.dflt ∧ s1.enabled = s.enabled ∧ s1.mdata = s.mdata := by
        unfold ekMint at h1
        split at h1
        · cases h1
        · split at h1 <;> cases h1
          exact ⟨rfl, rfl, rfl⟩
      obtain ⟨i1, i2, i3⟩ := ih s1 s' h
      exact ⟨i1.trans e.1, i2.trans e.2.1, i3.trans e.2.2⟩

theorem nodup_filterMap {α β : Type} (f : α → Option β) (key : β → α) (hk : ∀ a b, f a = some b → key b = a) :
    ∀ l : List α, l.Nodup → ((l.filterMap f).map key).Nodup ∧ ∀ x, x ∈ (l.filterMap f).map key → x ∈ l
  | [], _ => by simp
  | a :: l, h => by
    obtain ⟨ih1, ih2⟩ := nodup_filterMap f key hk l (List.nodup_cons.1 h).2
    cases e : f a with
    | none => simp only [List.filterMap_cons, e]; exact ⟨ih1, fun x hx => List.mem_cons_of_mem _ (ih2 x hx)⟩
    | some b =>
      simp only [List.filterMap_cons, e, List.map_cons, hk a b e]
      refine ⟨List.nodup_cons.2 ⟨fun hx => (List.nodup_cons.1 h).1 (ih2 a hx), ih1⟩, fun x hx => ?_⟩
      rcases List.mem_cons.1 hx with rfl | hx
      · simp
      · exact List.mem_cons_of_mem _ (ih2 x hx)

/-- **C66** (settings): a chain restarted from an export has the exported default, exactly the exported send switches and exactly the
exported metadata: with complete lists, those of the original. (Not so for the balances, see `C66_restart_violated`.) -/
theorem C66_settings (g : Cfg) (mask : Str → List Bool) (accounts regs : List Addr) (denoms mds : List Str) (s s' : State)
    (h : restart g (exportGenesis mask accounts regs denoms mds s) s = some s') (hd : denoms.Nodup) (hm : mds.Nodup)
    (hb : ∀ d md, s.mdata d = some md → md.base = d) :
    s'.dflt = s.dflt ∧ (∀ d, s'.enabled d = if d ∈ denoms then s.enabled d else none) ∧
    (∀ d, s'.mdata d = if d ∈ mds then s.mdata d else none) := by
  unfold restart initGenesis at h
  split at h
  · cases h
  · rename_i s1 h1
    split at h
    · cases h
      obtain ⟨f1, f2, f3⟩ := initBalances_frame _ _ _ h1
      obtain ⟨m1, m2, m3, m4, m5, m6⟩ := setAllMeta_spec (exportGenesis mask accounts regs denoms mds s).mdata s1
      have fr := setAll_frame (exportGenesis mask accounts regs denoms mds s).enabled
        (setParams (exportGenesis mask accounts regs denoms mds s).params
          { s with dflt := false, enabled := fun _ => none, mdata := fun _ => none })
      obtain ⟨n1, n2⟩ := nodup_filterMap (fun d => (s.enabled d).map fun v => (d, v)) Prod.fst
        (by intro a b e; obtain ⟨v, _, e⟩ := Option.map_eq_some_iff.1 e; rw [← e]) denoms hd
      obtain ⟨n3, n4⟩ := nodup_filterMap s.mdata Metadata.base hb mds hm
      obtain ⟨a1, a2, _⟩ := setAll_spec (exportGenesis mask accounts regs denoms mds s).enabled n1
        (setParams (exportGenesis mask accounts regs denoms mds s).params
          { s with dflt := false, enabled := fun _ => none, mdata := fun _ => none })
      refine ⟨?_, ?_, ?_⟩
      · rw [m3, f1, fr.2.2.1]; rfl
      · intro d
        rw [m2, f2]
        by_cases hin : d ∈ denoms
        · rw [if_pos hin]
          cases hv : s.enabled d with
          | some v => exact a1 d v (List.mem_filterMap.2 ⟨d, hin, by simp [hv]⟩)
          | none =>
            rw [a2 d (fun hx => ?_)]
            · rfl
            · obtain ⟨y, hy, e⟩ := List.mem_map.1 hx
              obtain ⟨z, _, hz⟩ := List.mem_filterMap.1 hy
              obtain ⟨v, hv', e'⟩ := Option.map_eq_some_iff.1 hz
              rw [← e'] at e
              simp only at e
              rw [e, hv] at hv'
              cases hv'
        · rw [if_neg hin, a2 d (fun hx => hin (n2 d hx))]; rfl
      · intro d
        by_cases hin : d ∈ mds
        · rw [if_pos hin]
          cases hv : s.mdata d with
          | some md =>
            have := m6 n3 md (List.mem_filterMap.2 ⟨d, hin, hv⟩)
            rw [hb d md hv] at this
            exact this
          | none =>
            rw [m5 d (fun hx => ?_), f3, fr.2.1]
            · rfl
            · obtain ⟨y, hy, e⟩ := List.mem_map.1 hx
              obtain ⟨z, _, hz⟩ := List.mem_filterMap.1 hy
              have := hb z y hz
              rw [this] at e
              rw [e, hv] at hz
              cases hz
        · rw [if_neg hin, m5 d (fun hx => hin (n4 d hx)), f3, fr.2.1]; rfl
    · cases h

/-- An empty chain, as a new rollup starts. -/
def emptyState : State := ⟨⟨Maps.empty, fun _ => none, fun _ => false, fun _ => [], 0⟩, fun _ => none, fun _ => false,
  false, fun _ => none, fun _ => none⟩

def toyGenesis : Genesis where
  params := ⟨[], true⟩
  enabled := [(uatom, false)]
  balances := [(aliceB, [(uatom, 5), (uinit, 7)]), (bobB, [(uinit, 1)])]
  supply := [(uatom, 5), (uinit, 8)]
  mdata := [⟨uinit, []⟩]

/-- The hypotheses of `C66_import` are met; a wrong supply is refused. -/
example : ((initGenesis toyCfg toyGenesis emptyState).map fun s => [
    balanceOf s.w (toyParams.deployed 0) alice, balanceOf s.w (toyParams.deployed 1) alice,
    balanceOf s.w (toyParams.deployed 1) bob, supplyOf s.w (toyParams.deployed 1)]) = some [5, 7, 1, 8] ∧
    (initGenesis toyCfg { toyGenesis with supply := [(uatom, 5), (uinit, 9)] } emptyState).isSome = false := by
  decide +kernel

example : Consistent toyParams emptyState.w := by
  constructor
  · intro d a h; simp [emptyState, Maps.empty] at h
  · intro n _ _; rfl

example : NoCollision toyParams := by
  intro n m hn hm h
  simp only [toyParams, Addr.mk.injEq] at h
  have := congrArg fromBE h
  rw [fromBE_toBE _ _ (by omega), fromBE_toBE _ _ (by omega)] at this
  omega

/-- No letter is capitalised (for the examples). -/
def noMask : Str → List Bool := fun d => d.map fun _ => false

/-- A ledger with one chain-made token, all of it held by alice. -/
def oneToken : State := { toyState with
  w := { toyWorld with
    tokens := fun k => if k = Addr.ofNat 50 then some (true, toyTok) else none
    erc20s := fun k => k = Addr.ofNat 50
    stores := fun a => if a = alice then [Addr.ofNat 50] else [] } }

/-- **C66 fails: a restart doubles every balance.** The EVM module's import already restores the contracts with all
their balances; the bank's import then mints the exported balances again on top. -/
theorem C66_restart_violated : ¬ ∀ (g : Cfg) (mask : Str → List Bool) (accounts regs : List Addr)
    (denoms mds : List Str) (s s' : State), restart g (exportGenesis mask accounts regs denoms mds s) s = some s' →
    ∀ k a, balanceOf s'.w k a = balanceOf s.w k a := by
  intro h
  have e : ((restart toyCfg (exportGenesis noMask [alice] [Addr.ofNat 50] [] [] oneToken) oneToken).map fun s =>
      [balanceOf s.w (Addr.ofNat 50) alice, supplyOf s.w (Addr.ofNat 50)]) = some [200, 200] := by decide +kernel
  cases hs : restart toyCfg (exportGenesis noMask [alice] [Addr.ofNat 50] [] [] oneToken) oneToken with
  | none => rw [hs] at e; cases e
  | some s' =>
    have := h toyCfg noMask [alice] [Addr.ofNat 50] [] [] oneToken s' hs (Addr.ofNat 50) alice
    rw [hs] at e
    simp only [Option.map_some, Option.some.injEq, List.cons.injEq] at e
    have e0 : balanceOf oneToken.w (Addr.ofNat 50) alice = 100 := by decide +kernel
    omega

/-- The same ledger with a second, third-party token (`evm/...`) held by alice. -/
def custom60 : State := { oneToken with
  w := { toyWorld with
    stores := fun a => if a = alice then [Addr.ofNat 50, Addr.ofNat 60] else [] } }

/-- The ledger with a second registered token nobody ever minted. -/
def unminted : State := { oneToken with
  w := { oneToken.w with
    tokens := fun k => if k = Addr.ofNat 50 then some (true, toyTok)
      else if k = Addr.ofNat 60 then some (true, Token.fresh alice) else none
    erc20s := fun k => k = Addr.ofNat 50 ∨ k = Addr.ofNat 60 } }

theorem contractToDenom_plain {mask : Str → List Bool} {m : Maps} {k : Addr}
    (h : isERC20Denom (contractToDenom mask m k) = false) : m.toDenom k = some (contractToDenom mask m k) := by
  unfold contractToDenom at *
  cases hd : m.toDenom k with
  | some d => rfl
  | none =>
    rw [hd] at h
    simp only [isERC20Denom] at h
    have : evmPrefix.isPrefixOf (evmPrefix ++ trimHex mask k) = true := by
      rw [List.isPrefixOf_iff_prefix]; exact List.prefix_append _ _
    rw [this] at h; cases h

/-- What the listed coins of an account are worth under later maps. -/
theorem listed_account (mask : Str → List Bool) (w : World) (m' : Maps) (hx : Extends w.maps m')
    (hb : ∀ d a, w.maps.toAddr d = some a ↔ w.maps.toDenom a = some d) (a k : Addr) :
    ∀ L : List Addr, L.Nodup →
      (∀ x ∈ (L.filterMap fun k => if balanceOf w k a = 0 then none else some (k, balanceOf w k a)).map
        (fun x => (contractToDenom mask w.maps x.1, x.2)), isERC20Denom x.1 = false) →
      listed m' ((L.filterMap fun k => if balanceOf w k a = 0 then none else some (k, balanceOf w k a)).map
        (fun x => (contractToDenom mask w.maps x.1, x.2))) k = if k ∈ L then balanceOf w k a else 0
  | [], _, _ => by simp [listed]
  | j :: L, hn, hp => by
    obtain ⟨hn1, hn2⟩ := List.nodup_cons.mp hn
    by_cases hz : balanceOf w j a = 0
    · simp only [List.filterMap_cons, hz, if_true] at hp ⊢
      rw [listed_account mask w m' hx hb a k L hn2 hp]
      by_cases e : k = j
      · subst e; rw [if_neg hn1, if_pos (List.mem_cons_self ..), hz]
      · simp [e]
    · simp only [List.filterMap_cons, hz, if_false, List.map_cons] at hp ⊢
      have h0 := hp _ (List.mem_cons_self ..)
      simp only at h0
      have hm := hx _ _ ((hb _ _).mpr (contractToDenom_plain h0))
      have hd : denomToContract m' (contractToDenom mask w.maps j) = some j := by
        unfold denomToContract; rw [h0]; simpa using hm
      rw [listed_cons, hd, listed_account mask w m' hx hb a k L hn2 fun x hx => hp x (List.mem_cons_of_mem _ hx)]
      by_cases e : k = j
      · subst e; simp [hn1]
      · have e' : ¬ j = k := fun h => e h.symm
        simp [e, e']

theorem granted_export (mask : Str → List Bool) (s : State) (m' : Maps) (hx : Extends s.w.maps m')
    (hb : ∀ d a, s.w.maps.toAddr d = some a ↔ s.w.maps.toDenom a = some d) (k x : Addr) :
    ∀ L : List Addr, L.Nodup → (∀ a ∈ L, (s.w.stores a).Nodup) →
      (∀ p ∈ (L.filterMap fun a => if accountCoins mask s a = [] then none else some (a.bytes, accountCoins mask s a)),
        ∀ c ∈ p.2, isERC20Denom c.1 = false) →
      granted m' (L.filterMap fun a => if accountCoins mask s a = [] then none else some (a.bytes, accountCoins mask s a)) k x =
        if x ∈ L ∧ k ∈ s.w.stores x then balanceOf s.w k x else 0
  | [], _, _, _ => by simp [granted]
  | a :: L, hn, hs, hp => by
    obtain ⟨hn1, hn2⟩ := List.nodup_cons.mp hn
    have hst := hs a (List.mem_cons_self ..)
    by_cases hz : accountCoins mask s a = []
    · simp only [List.filterMap_cons, hz, if_true] at hp ⊢
      rw [granted_export mask s m' hx hb k x L hn2 (fun b hb => hs b (List.mem_cons_of_mem _ hb)) hp]
      by_cases e : x = a
      · subst e
        have := listed_account mask s.w m' hx hb x k (s.w.stores x) hst (by
          intro c hc
          have : c ∈ accountCoins mask s x := hc
          rw [hz] at this; cases this)
        have e2 : listed m' (accountCoins mask s x) k = if k ∈ s.w.stores x then balanceOf s.w k x else 0 := this
        rw [hz] at e2
        simp only [hn1, false_and, if_false, List.mem_cons, true_or, true_and]
        exact e2
      · simp [e]
    · simp only [List.filterMap_cons, hz, if_false] at hp ⊢
      have e2 : listed m' (accountCoins mask s a) k = if k ∈ s.w.stores a then balanceOf s.w k a else 0 :=
        listed_account mask s.w m' hx hb a k (s.w.stores a) hst fun c hc => hp _ (List.mem_cons_self ..) c hc
      have ih := granted_export mask s m' hx hb k x L hn2 (fun b hb => hs b (List.mem_cons_of_mem _ hb))
        fun p hp' => hp p (List.mem_cons_of_mem _ hp')
      unfold granted at ih ⊢
      rw [List.map_cons, List.sum_cons, ih]
      simp only [bytesToAddress_bytes, e2]
      by_cases e : x = a
      · subst e; simp [hn1]
      · have e' : ¬ a = x := fun h => e h.symm
        simp [e, e']

/-- **C66 (violated, always): a restart doubles every balance.** Whatever the chain: if its export, that lists everybody's tokens, can be
imported at all, then on the restarted chain every account has twice what it had of every token. -/
theorem C66_doubles_violated (g : Cfg) (hinj : NoCollision g.tp) (mask : Str → List Bool) (accounts regs : List Addr)
    (denoms mds : List Str) (s s' : State) (hw : Consistent g.tp s.w)
    (hlim : s.w.factoryNonce + coinCount (exportGenesis mask accounts regs denoms mds s).balances < 2 ^ 64)
    (hb : ∀ d a, s.w.maps.toAddr d = some a ↔ s.w.maps.toDenom a = some d)
    (hn : accounts.Nodup) (hs : ∀ a ∈ accounts, (s.w.stores a).Nodup)
    (hall : ∀ k x, balanceOf s.w k x ≠ 0 → x ∈ accounts ∧ k ∈ s.w.stores x)
    (h : restart g (exportGenesis mask accounts regs denoms mds s) s = some s') :
    ∀ k x, balanceOf s'.w k x = 2 * balanceOf s.w k x := by
  intro k x
  unfold restart initGenesis at h
  split at h
  · cases h
  · rename_i s1 h1
    split at h
    · cases h
      have ew : (setAllEnabled (exportGenesis mask accounts regs denoms mds s).enabled
          (setParams (exportGenesis mask accounts regs denoms mds s).params
            { s with dflt := false, enabled := fun _ => none, mdata := fun _ => none })).w = s.w := by
        rw [(setAll_frame _ _).1]
        exact (setAll_frame _ _).1
      obtain ⟨i1, i2, i3, _⟩ := initBalances_spec g hinj _ _ s1 (by rw [ew]; exact hw) (by rw [ew]; exact hlim) h1
      rw [(setAllMeta_spec _ s1).1, i3 k x, ew]
      rw [ew] at i2
      have := granted_export mask s s1.w.maps i2 hb k x accounts hn hs fun p hp c hc => (i1 p hp c hc).1
      rw [show granted s1.w.maps (exportGenesis mask accounts regs denoms mds s).balances k x = _ from this]
      by_cases hz : balanceOf s.w k x = 0
      · simp [hz]
      · rw [if_pos (hall k x hz)]; omega
    · cases h

/-- **C66 (balances, exactly when).** Under the same conditions a restarted chain shows the balances of the original exactly if nobody had
anything. -/
theorem C66_balances_iff (g : Cfg) (hinj : NoCollision g.tp) (mask : Str → List Bool) (accounts regs : List Addr)
    (denoms mds : List Str) (s s' : State) (hw : Consistent g.tp s.w)
    (hlim : s.w.factoryNonce + coinCount (exportGenesis mask accounts regs denoms mds s).balances < 2 ^ 64)
    (hb : ∀ d a, s.w.maps.toAddr d = some a ↔ s.w.maps.toDenom a = some d)
    (hn : accounts.Nodup) (hs : ∀ a ∈ accounts, (s.w.stores a).Nodup)
    (hall : ∀ k x, balanceOf s.w k x ≠ 0 → x ∈ accounts ∧ k ∈ s.w.stores x)
    (h : restart g (exportGenesis mask accounts regs denoms mds s) s = some s') :
    (∀ k x, balanceOf s'.w k x = balanceOf s.w k x) ↔ ∀ k x, balanceOf s.w k x = 0 := by
  have hd := C66_doubles_violated g hinj mask accounts regs denoms mds s s' hw hlim hb hn hs hall h
  constructor
  · intro e k x; have := hd k x; have := e k x; omega
  · intro e k x; rw [hd k x, e k x]

/-- The hypotheses of `C66_doubles_violated` are met by a chain where alice has a hundred of one token. -/
example : Consistent toyParams oneToken.w ∧
    (∀ d a, oneToken.w.maps.toAddr d = some a ↔ oneToken.w.maps.toDenom a = some d) ∧
    (∀ k x, balanceOf oneToken.w k x ≠ 0 → x ∈ [alice] ∧ k ∈ oneToken.w.stores x) ∧
    (restart toyCfg (exportGenesis noMask [alice] [Addr.ofNat 50] [] [] oneToken) oneToken).isSome = true ∧
    balanceOf oneToken.w (Addr.ofNat 50) alice = 100 := by
  refine ⟨⟨?_, ?_⟩, ?_, ?_, by decide +kernel, by decide +kernel⟩
  · intro d a h
    simp only [oneToken, toyWorld, createERC20, Maps.empty] at h ⊢
    split at h
    · cases h; simp
    · cases h
  · intro n h1 h2
    have : toyParams.deployed n ≠ Addr.ofNat 50 := by
      intro e
      simp only [toyParams, Addr.ofNat, Addr.mk.injEq] at e
      have := congrArg fromBE e
      rw [fromBE_toBE _ _ (by omega)] at this
      have h50 : fromBE (List.replicate 19 0 ++ [UInt8.ofNat 50]) = 50 := by decide +kernel
      rw [h50] at this
      omega
    simp only [oneToken, toyWorld, if_neg this]
  · intro d a
    simp only [oneToken, toyWorld, createERC20, Maps.empty]
    constructor
    · intro h
      split at h
      · rename_i e; cases h; simp [e]
      · cases h
    · intro h
      split at h
      · rename_i e; cases h; simp [e]
      · cases h
  · intro k x h
    by_cases hk : k = Addr.ofNat 50
    · subst hk
      by_cases hx : x = alice
      · subst hx; simp [oneToken]
      · exfalso; apply h
        have : x ≠ Addr.ofNat 100 := hx
        simp [balanceOf, oneToken, toyTok, this]
    · exfalso; apply h; simp [balanceOf, oneToken, hk]

/-- **C66 fails: some exports cannot be imported at all.** An exported genesis with a balance in a third-party token
makes the import panic (the bank refuses to mint `evm/` coins); so does one with a registered token of supply zero
(the export lists it, the sum of balances does not). -/
theorem C66_import_violated : ¬ ∀ (g : Cfg) (mask : Str → List Bool) (accounts regs : List Addr)
    (denoms mds : List Str) (s : State), (∀ k, k ∈ regs ↔ s.w.erc20s k = true) → (∀ k b t, s.w.tokens k = some (b, t) → Sound t) →
    (restart g (exportGenesis mask accounts regs denoms mds s) s).isSome := by
  intro h
  have hsound : ∀ k b t, custom60.w.tokens k = some (b, t) → Sound t := by
    have ht : Sound toyTok := by
      refine ⟨⟨[alice], by simp, ?_, by simp [toyTok, alice]⟩, by decide⟩
      intro x hx
      simp only [List.mem_singleton] at hx
      exact if_neg hx
    intro k b t hk
    simp only [custom60, toyWorld] at hk
    split at hk
    · cases hk; exact ht
    · split at hk
      · cases hk; exact ht
      · cases hk
  have := h toyCfg noMask [alice] [Addr.ofNat 50, Addr.ofNat 60] [] [] custom60
    (by intro k; simp [custom60, toyWorld]) hsound
  have e : (restart toyCfg (exportGenesis noMask [alice] [Addr.ofNat 50, Addr.ofNat 60] [] [] custom60) custom60).isSome
    = false := by decide +kernel
  rw [e] at this; cases this

/-- The second half of `C66_import_violated`: a token of supply zero. -/
theorem C66_zero_violated :
    (restart toyCfg (exportGenesis noMask [alice] [Addr.ofNat 50] [] [] unminted) unminted).isSome = true ∧
    (restart toyCfg (exportGenesis noMask [alice] [Addr.ofNat 50, Addr.ofNat 60] [] [] unminted) unminted).isSome = false
    := by decide +kernel

/-! ### C67 -/

/-- All (account, coin) pairs, in the order of iteration. -/
def everything (coinsOf : Bytes → List (Str × Nat)) (accounts : List Bytes) : List (Bytes × (Str × Nat)) :=
  accounts.flatMap fun a => (coinsOf a).map fun c => (a, c)

/-- What a callback has seen: it records its arguments. -/
def recorder (stop : Bytes → (Str × Nat) → Bool) : Bytes → Cb (Str × Nat) (List (Bytes × (Str × Nat))) :=
  fun a c seen => (seen ++ [(a, c)], stop a c)

/-- Everything up to and including the first pair on which the callback asks to stop. -/
def untilStop (stop : Bytes → (Str × Nat) → Bool) : List (Bytes × (Str × Nat)) → List (Bytes × (Str × Nat))
  | [] => []
  | p :: rest => if stop p.1 p.2 then [p] else p :: untilStop stop rest

/-- **C67 (iteration, partial: a callback that never stops, or a single account).** The iteration over all balances
shows every coin of every account exactly once, in order. -/
theorem C67_iterate_partial (coinsOf : Bytes → List (Str × Nat)) (accounts : List Bytes)
    (stop : Bytes → (Str × Nat) → Bool)
    (h : (∀ a c, stop a c = false) ∨ accounts.length ≤ 1) :
    iterateAll coinsOf accounts (recorder stop) [] = untilStop stop (everything coinsOf accounts) := by
  have hfeed : ∀ (a : Bytes) (l : List (Str × Nat)) (seen : List (Bytes × (Str × Nat))),
      (feed (recorder stop a) l seen).1 = seen ++ untilStop stop (l.map fun c => (a, c)) := by
    intro a l
    induction l with
    | nil => intro seen; simp [feed, untilStop]
    | cons c rest ih =>
      intro seen
      have e : recorder stop a c seen = (seen ++ [(a, c)], stop a c) := rfl
      simp only [feed, e, List.map_cons, untilStop]
      cases hs : stop a c with
      | true => simp
      | false => simp [ih (seen ++ [(a, c)])]
  rcases h with h | h
  · have hu : ∀ l, untilStop stop l = l := by
      intro l
      induction l with
      | nil => rfl
      | cons p rest ih => simp [untilStop, h, ih]
    have key : ∀ (accs : List Bytes) (seen : List (Bytes × (Str × Nat))),
        iterateAll coinsOf accs (recorder stop) seen = seen ++ everything coinsOf accs := by
      intro accs
      induction accs with
      | nil => intro seen; simp [iterateAll, everything]
      | cons a rest ih =>
        intro seen
        have := ih (feed (recorder stop a) (coinsOf a) seen).1
        unfold iterateAll at this ⊢
        rw [List.foldl_cons, this, hfeed, hu]
        simp [everything]
    rw [key, hu]; simp
  · cases accounts with
    | nil => simp [iterateAll, everything, untilStop]
    | cons a rest =>
      cases rest with
      | nil => simp [iterateAll, everything, hfeed]
      | cons b r => simp at h

example : iterateAll (fun a => if a = aliceB then [(uinit, 1), (uatom, 2)] else [(uinit, 3)]) [aliceB, bobB]
    (recorder fun _ _ => false) [] = [(aliceB, (uinit, 1)), (aliceB, (uatom, 2)), (bobB, (uinit, 3))] := by
  decide +kernel

/-- **C67 fails: the iteration does not halt.** The documentation says that the iteration over all balances halts when
the callback returns true; it only goes on to the next account. -/
theorem C67_iterate_violated : ¬ ∀ (coinsOf : Bytes → List (Str × Nat)) (accounts : List Bytes)
    (stop : Bytes → (Str × Nat) → Bool),
    iterateAll coinsOf accounts (recorder stop) [] = untilStop stop (everything coinsOf accounts) := by
  intro h
  have := h (fun _ => [(uinit, 1)]) [aliceB, bobB] (fun _ _ => true)
  revert this
  decide +kernel

/-- **C67 (balance listing, partial).** The paginated balances without their zero entries are exactly the balances
the account iteration shows. -/
theorem C67_balances_partial (mask : Str → List Bool) (s : State) (a : Addr) :
    (allBalances mask s a).filter (fun c => c.2 ≠ 0) = accountCoins mask s a := by
  unfold allBalances accountCoins accountBalances
  generalize s.w.stores a = l
  induction l with
  | nil => rfl
  | cons k rest ih =>
    by_cases hz : balanceOf s.w k a = 0
    · simp only [List.map_cons, List.filter_cons, List.filterMap_cons, hz]
      simpa using ih
    · simp only [List.map_cons, List.filter_cons, List.filterMap_cons, hz, if_false]
      simpa [hz] using ih

example : allBalances noMask oneToken alice = [(uinit, 100)] := by decide +kernel

/-- **C67 fails: zero balances are listed.** A token alice once held and spent stays in her paginated balances, with
amount zero, although the bank's other listing omits it. -/
theorem C67_balances_violated : ¬ ∀ (mask : Str → List Bool) (s : State) (a : Addr),
    allBalances mask s a = accountCoins mask s a := by
  intro h
  have := h noMask { oneToken with w := { oneToken.w with stores := fun _ => [Addr.ofNat 50] } } bob
  revert this
  decide +kernel

/-- **C67 (metadata, partial: the stored metadata).** Both metadata queries return stored metadata of a valid denom,
and the one by query string never answers something else than the other. -/
theorem C67_metadata_partial (g : Cfg) (contract : Str → Option Metadata) (d : Str) (s : State) (md : Metadata) :
    (g.validDenom d = true → s.mdata d = some md →
      queryMetadata g contract d s = some md ∧ queryMetadataByString g contract d s = some md) ∧
    (queryMetadataByString g contract d s = some md → queryMetadata g contract d s = some md) := by
  refine ⟨?_, ?_⟩
  · intro hv h; simp [queryMetadata, queryMetadataByString, hv, h]
  · intro h
    unfold queryMetadataByString at h
    split at h
    · cases h
    · rename_i hv
      simp only [Bool.not_eq_true] at hv
      simp [queryMetadata, hv, h]

example : queryMetadataByString toyCfg (fun _ => none) uinit { toyState with mdata := fun _ => some ⟨uinit, []⟩ } =
    some ⟨uinit, []⟩ := by decide +kernel

/-- **C67 fails: the two metadata queries differ.** The query-string variant is documented as identical, but only the
other one falls back to asking the token contract. -/
theorem C67_metadata_violated : ¬ ∀ (g : Cfg) (contract : Str → Option Metadata) (d : Str) (s : State),
    queryMetadata g contract d s = queryMetadataByString g contract d s := by
  intro h
  have := h toyCfg (fun d => some ⟨d, []⟩) uinit toyState
  revert this
  decide +kernel

/-- **C67 (send-enabled query).** For given denoms the query reports exactly the denoms with an entry, with its
value; a denom it does not report follows the default. -/
theorem C67_send_enabled (denoms : List Str) (s : State) (d : Str) (v : Bool) :
    ((d, v) ∈ querySendEnabled denoms s ↔ d ∈ denoms ∧ s.enabled d = some v) ∧
    (d ∈ denoms → (∀ v, (d, v) ∉ querySendEnabled denoms s) → (Enabled s d ↔ s.dflt = true)) := by
  have key : ∀ v, (d, v) ∈ querySendEnabled denoms s ↔ d ∈ denoms ∧ s.enabled d = some v := by
    intro v
    simp only [querySendEnabled, List.mem_filterMap, Option.map_eq_some_iff, Prod.mk.injEq]
    constructor
    · rintro ⟨x, hx, w, hw, rfl, rfl⟩; exact ⟨hx, hw⟩
    · rintro ⟨hx, hw⟩; exact ⟨d, hx, v, hw, rfl, rfl⟩
  refine ⟨key v, ?_⟩
  intro hd hno
  cases he : s.enabled d with
  | none => simp [Enabled, he]
  | some b => exact absurd ((key b).mpr ⟨hd, he⟩) (hno b)

example : querySendEnabled [uinit, evm60] toyState = [(evm60, false)] := by decide +kernel

end Verif.Props.BankGenesis
