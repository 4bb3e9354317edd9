import Verif.Model.Export
import Verif.Props.ModuleAcct
import Verif.Props.Registry
import Verif.Props.Denom
/-
C90: an export lists every coin once, and nobody can prevent it.
-/
namespace Verif.Props.Export
open Verif Verif.Text Verif.Denom Verif.Tokens Verif.Identity Verif.Bank Verif.ModuleAcct Verif.Export

/-- The accounts of the chain, each once. -/
def AllAccounts (s : State) (l : List Bytes) : Prop := l.Nodup ∧ ∀ b, b ∈ l ↔ hasAccount s b = true

/-- How much of `d` an exported list of balances names in all. -/
def listed (l : List (Bytes × Bank.Coins)) (d : Str) : Nat := (l.map fun e => amountOf e.2 d).sum

/-! ### The listing, account by account -/

theorem record_other {b : Bytes} {c : Str × Nat} {acc : List (Bytes × Bank.Coins)} (h : ∀ e ∈ acc, e.1 ≠ b) :
    record b c acc = acc ++ [(b, [c])] := by
  have : acc.any (fun e => decide (e.1 = b)) = false := by
    rw [List.any_eq_false]; intro e he; simp [h e he]
  simp [record, this]

theorem record_last {b : Bytes} {c : Str × Nat} {cs : Bank.Coins} {acc : List (Bytes × Bank.Coins)}
    (h : ∀ e ∈ acc, e.1 ≠ b) : record b c (acc ++ [(b, cs)]) = acc ++ [(b, cs ++ [c])] := by
  have : (acc ++ [(b, cs)]).any (fun e => decide (e.1 = b)) = true := by simp
  simp only [record, this, if_true, List.map_append, List.map_cons, List.map_nil]
  have : ∀ l : List (Bytes × Bank.Coins), (∀ e ∈ l, e.1 ≠ b) →
      l.map (fun e => if e.1 = b then (e.1, e.2 ++ [c]) else e) = l := by
    intro l
    induction l with
    | nil => intro _; rfl
    | cons e rest ih =>
      intro hl
      rw [List.map_cons, if_neg (hl e List.mem_cons_self), ih fun e he => hl e (List.mem_cons_of_mem _ he)]
  simp [this acc h]

theorem record_fold {b : Bytes} {acc : List (Bytes × Bank.Coins)} (h : ∀ e ∈ acc, e.1 ≠ b) : ∀ (cs cs0 : Bank.Coins),
    cs.foldl (fun acc c => record b c acc) (acc ++ [(b, cs0)]) = acc ++ [(b, cs0 ++ cs)] := by
  intro cs
  induction cs with
  | nil => intro cs0; simp
  | cons c rest ih => intro cs0; rw [List.foldl_cons, record_last h, ih]; simp

theorem record_account {b : Bytes} {acc : List (Bytes × Bank.Coins)} (h : ∀ e ∈ acc, e.1 ≠ b) (cs : Bank.Coins) :
    cs.foldl (fun acc c => record b c acc) acc = if cs = [] then acc else acc ++ [(b, cs)] := by
  cases cs with
  | nil => rfl
  | cons c rest => rw [List.foldl_cons, record_other h, record_fold h]; simp

/-- One account's part of the listing. -/
def entry (b : Bytes) (cs : Bank.Coins) : List (Bytes × Bank.Coins) := if cs = [] then [] else [(b, cs)]

theorem listing {mask : Str → List Bool} {s : State} : ∀ {l : List Bytes} {acc : List (Bytes × Bank.Coins)}, l.Nodup →
    (∀ e ∈ acc, e.1 ∉ l) → ∀ {out}, accountsBalances mask s l acc = some out →
    out = acc ++ l.flatMap (fun b => entry b ((coinsOf mask s b).getD [])) ∧ ∀ b ∈ l, (coinsOf mask s b).isSome = true := by
  intro l
  induction l with
  | nil => intro acc _ _ out h; cases h; simp
  | cons b rest ih =>
    intro acc hn ha out h
    unfold accountsBalances at h
    split at h
    · cases h
    · rename_i cs hcs
      have hb : ∀ e ∈ acc, e.1 ≠ b := fun e he c => ha e he (c ▸ List.mem_cons_self)
      rw [record_account hb] at h
      rw [List.nodup_cons] at hn
      have := ih hn.2 (acc := if cs = [] then acc else acc ++ [(b, cs)]) (by
        intro e he
        split at he
        · exact fun c => ha e he (List.mem_cons_of_mem _ c)
        · rcases List.mem_append.mp he with he | he
          · exact fun c => ha e he (List.mem_cons_of_mem _ c)
          · simp only [List.mem_singleton] at he; subst he; exact hn.1) h
      refine ⟨?_, ?_⟩
      · rw [this.1, List.flatMap_cons, hcs]
        simp only [Option.getD_some, entry]
        split <;> simp
      · intro x hx
        rcases List.mem_cons.mp hx with rfl | hx
        · rw [hcs]; rfl
        · exact this.2 x hx

/-- **C90 (entries).** A successful export has one entry for every account that owns anything, with exactly the coins
the balance query reports for it, and no other entries. -/
theorem C90_entries (mask : Str → List Bool) (s : State) (accounts : List Bytes) (regs : List Addr)
    (ha : AllAccounts s accounts) (l : List (Bytes × Bank.Coins)) (sup : Bank.Coins)
    (h : exportBalances mask s accounts regs = some (l, sup)) (b : Bytes) (cs : Bank.Coins) :
    (l.map Prod.fst).Nodup ∧
    ((b, cs) ∈ l ↔ hasAccount s b = true ∧ cs ≠ [] ∧
      ∃ a m, convert s.accts b false = some (a, m) ∧ accountCoins mask s a = cs) := by
  unfold exportBalances at h
  split at h
  · cases h
  · rename_i out hout
    cases h
    obtain ⟨e, hs⟩ := listing ha.1 (by simp) hout
    rw [List.nil_append] at e
    have hc : ∀ b, b ∈ accounts → ∃ a m, convert s.accts b false = some (a, m) ∧
        coinsOf mask s b = some (accountCoins mask s a) := by
      intro b hb
      have := hs b hb
      unfold coinsOf at this ⊢
      cases hq : convert s.accts b false with
      | none => rw [hq] at this; cases this
      | some q => exact ⟨q.1, q.2, rfl, rfl⟩
    constructor
    · rw [e]
      clear e hout hc hs
      have : ∀ l : List Bytes, l.Nodup →
          ((l.flatMap fun b => entry b ((coinsOf mask s b).getD [])).map Prod.fst).Nodup ∧
          ∀ x ∈ (l.flatMap fun b => entry b ((coinsOf mask s b).getD [])).map Prod.fst, x ∈ l := by
        intro l
        induction l with
        | nil => intro _; simp
        | cons b rest ih =>
          intro hn
          rw [List.nodup_cons] at hn
          obtain ⟨i1, i2⟩ := ih hn.2
          rw [List.flatMap_cons]
          unfold entry at i1 i2 ⊢
          split
          · simp only [List.nil_append]
            exact ⟨i1, fun x hx => List.mem_cons_of_mem _ (i2 x hx)⟩
          · simp only [List.singleton_append, List.map_cons, List.nodup_cons, List.mem_cons]
            refine ⟨⟨fun hb => hn.1 (i2 b hb), i1⟩, fun x hx => ?_⟩
            rcases hx with hx | hx
            · exact Or.inl hx
            · exact Or.inr (i2 x hx)
      exact (this accounts ha.1).1
    · rw [e, List.mem_flatMap]
      constructor
      · rintro ⟨b', hb', hm⟩
        obtain ⟨a, m, h1, h2⟩ := hc b' hb'
        rw [h2] at hm
        simp only [Option.getD_some, entry] at hm
        split at hm
        · cases hm
        · rename_i hne
          simp only [List.mem_singleton, Prod.mk.injEq] at hm
          obtain ⟨rfl, rfl⟩ := hm
          exact ⟨(ha.2 b).mp hb', hne, a, m, h1, rfl⟩
      · rintro ⟨hb, hne, a, m, h1, h2⟩
        have hb' := (ha.2 b).mpr hb
        obtain ⟨a', m', h1', h2'⟩ := hc b hb'
        rw [h1] at h1'; cases h1'
        refine ⟨b, hb', ?_⟩
        rw [h2', Option.getD_some, h2, entry, if_neg hne]
        exact List.mem_singleton.mpr rfl

/-! ### The sum -/

theorem amountOf_cons (x : Str × Nat) (cs : Bank.Coins) (d : Str) :
    amountOf (x :: cs) d = (if x.1 = d then x.2 else 0) + amountOf cs d := by
  simp [amountOf]

theorem contractToDenom_inj {mask : Str → List Bool} {m : Maps} (h : Props.Denom.Reachable m) {a b : Addr}
    (e : contractToDenom mask m a = contractToDenom mask m b) : a = b := by
  have h1 := Props.Denom.C22_name_resolves mask m h a
  have h2 := Props.Denom.C22_name_resolves mask m h b
  rw [e, h2] at h1
  exact (Option.some.inj h1).symm

theorem amountOf_coins {mask : Str → List Bool} {m : Maps} (h : Props.Denom.Reachable m) (w : World) (a k : Addr) :
    ∀ l : List Addr, l.Nodup →
    amountOf ((l.filterMap fun k => if balanceOf w k a = 0 then none else some (k, balanceOf w k a)).map
      fun x => (contractToDenom mask m x.1, x.2)) (contractToDenom mask m k) = if k ∈ l then balanceOf w k a else 0 := by
  intro l
  induction l with
  | nil => intro _; rfl
  | cons x rest ih =>
    intro hn
    rw [List.nodup_cons] at hn
    have i := ih hn.2
    rw [List.filterMap_cons]
    by_cases hz : balanceOf w x a = 0
    · simp only [hz, if_true]
      rw [i]
      by_cases hk : k = x
      · subst hk; simp [hn.1, hz]
      · simp [List.mem_cons, hk]
    · simp only [hz, if_false, List.map_cons, amountOf_cons]
      rw [i]
      by_cases hk : k = x
      · subst hk; simp [hn.1]
      · have : contractToDenom mask m x ≠ contractToDenom mask m k := fun e => hk (contractToDenom_inj h e).symm
        simp [this, List.mem_cons, hk]

theorem bytes_of_length {b : Bytes} (h : b.length = 20) : (bytesToAddress b).bytes = b := fitBytes_eq 20 b h

theorem sum_flatMap_entry {f : Bytes → Bank.Coins} (d : Str) : ∀ l : List Bytes,
    listed (l.flatMap fun b => entry b (f b)) d = (l.map fun b => amountOf (f b) d).sum := by
  intro l
  induction l with
  | nil => rfl
  | cons b rest ih =>
    rw [List.flatMap_cons, List.map_cons, List.sum_cons, ← ih]
    unfold entry listed
    split
    · rename_i e; simp [e, amountOf]
    · simp

theorem reach_late {c : Chain} {w0 w : World} (h : Registry.Reach c false w0 w) : Registry.Reach c true w0 w := by
  induction h with
  | refl => exact .refl
  | step w w' _ hs ih =>
    refine .step w w' ih ?_
    cases hs with
    | call a b cl _ h => exact .call a b cl _ h
    | send f r cs _ h => exact .send f r cs _ h
    | mint p r cs _ h1 h2 h3 h => exact .mint p r cs _ h1 h2 h3 h
    | burn p f al cs _ h => exact .burn p f al cs _ h
    | create p a h => exact .create p a h
    | deploy a o sd h => exact .deploy a o sd h
    | register p k _ h _ => exact .register p k _ h (Or.inl rfl)

theorem all_convert {mask : Str → List Bool} {s : State} : ∀ {l : List Bytes} {acc : List (Bytes × Bank.Coins)},
    (∀ b ∈ l, b.length = 20) → (accountsBalances mask s l acc).isSome = true := by
  intro l
  induction l with
  | nil => intro acc _; rfl
  | cons b rest ih =>
    intro acc h
    have e : coinsOf mask s b = some (accountCoins mask s (bytesToAddress b)) := by
      simp [coinsOf, convert, h b List.mem_cons_self]
    unfold accountsBalances
    rw [e]
    exact ih fun x hx => h x (List.mem_cons_of_mem _ hx)

/-- **C90 (partial: accounts with 20-byte addresses only, every registered holder has an account, and tokens register
before they are held).** Then the export succeeds, and for every registered token the exported balances add up to its
exported supply. -/
theorem C90_total_partial (c : Chain) (mask : Str → List Bool) (s : State) (accounts : List Bytes) (regs : List Addr)
    (ha : AllAccounts s accounts) (h20 : ∀ b ∈ accounts, b.length = 20)
    (hw : Registry.Reach c false Registry.World.init s.w) (hm : Props.Denom.Reachable s.w.maps)
    (hh : ∀ x k, k ∈ s.w.stores x → (s.accts x).isSome = true) :
    ∃ l sup, exportBalances mask s accounts regs = some (l, sup) ∧
      ∀ k, s.w.erc20s k = true → k ∈ regs →
        (contractToDenom mask s.w.maps k, supplyOf s.w k) ∈ sup ∧
        listed l (contractToDenom mask s.w.maps k) = supplyOf s.w k := by
  obtain ⟨l, hl⟩ := Option.isSome_iff_exists.mp (all_convert (mask := mask) (s := s) (acc := []) h20)
  refine ⟨l, _, by unfold exportBalances; rw [hl], fun k hk hr => ⟨List.mem_map.mpr ⟨k, hr, rfl⟩, ?_⟩⟩
  have hc := Registry.reach_complete hw Registry.init_complete
  obtain ⟨e, _⟩ := listing ha.1 (by simp) hl
  rw [e, List.nil_append, sum_flatMap_entry]
  have step : ∀ b ∈ accounts, amountOf ((coinsOf mask s b).getD []) (contractToDenom mask s.w.maps k) =
      balanceOf s.w k (bytesToAddress b) := by
    intro b hb
    have e : coinsOf mask s b = some (accountCoins mask s (bytesToAddress b)) := by
      simp [coinsOf, convert, h20 b hb]
    rw [e, Option.getD_some]
    unfold accountCoins accountBalances
    rw [amountOf_coins hm s.w (bytesToAddress b) k _ (hc.once _)]
    by_cases hin : k ∈ s.w.stores (bytesToAddress b)
    · rw [if_pos hin]
    · rw [if_neg hin]
      by_cases hz : balanceOf s.w k (bytesToAddress b) = 0
      · exact hz.symm
      · exact absurd (hc.holders k _ hk hz) hin
  rw [List.map_congr_left step]
  have sums : Spec.Tokens.SumsTo (balanceOf s.w k) ((accounts.map fun b => balanceOf s.w k (bytesToAddress b)).sum) := by
    refine ⟨accounts.map bytesToAddress, ?_, ?_, ?_⟩
    · have : ∀ l : List Bytes, l.Nodup → (∀ b ∈ l, b.length = 20) → (l.map bytesToAddress).Nodup := by
        intro l
        induction l with
        | nil => intro _ _; simp
        | cons b rest ih =>
          intro hn hl
          rw [List.nodup_cons] at hn
          rw [List.map_cons, List.nodup_cons]
          refine ⟨fun hb => ?_, ih hn.2 fun x hx => hl x (List.mem_cons_of_mem _ hx)⟩
          obtain ⟨b', hb', eq⟩ := List.mem_map.mp hb
          have e1 := bytes_of_length (hl b List.mem_cons_self)
          have e2 := bytes_of_length (hl b' (List.mem_cons_of_mem _ hb'))
          rw [eq, e1] at e2
          exact hn.1 (e2 ▸ hb')
      exact this accounts ha.1 h20
    · intro a hna
      by_cases hz : balanceOf s.w k a = 0
      · exact hz
      · exfalso
        have h1 := hh a k (hc.holders k a hk hz)
        have h2 : a.bytes ∈ accounts := by
          rw [ha.2]
          simp only [hasAccount, a.len, if_true, bytesToAddress_bytes]
          exact h1
        exact hna (List.mem_map.mpr ⟨a.bytes, h2, bytesToAddress_bytes a⟩)
    · rw [List.map_map]; rfl
  cases ht : s.w.tokens k with
  | none =>
    have e0 : ∀ a, balanceOf s.w k a = 0 := fun a => by simp [balanceOf, ht]
    have : supplyOf s.w k = 0 := by simp [supplyOf, ht]
    rw [this]
    exact Spec.Tokens.SumsTo.unique sums ⟨[], List.nodup_nil, fun a _ => e0 a, rfl⟩
  | some st =>
    obtain ⟨sd, t⟩ := st
    have h1 := (Registry.C23_chain c s.w (reach_late hw) k sd t ht).1
    have e1 : balanceOf s.w k = t.bal := by funext a; simp [balanceOf, ht]
    have e2 : supplyOf s.w k = t.supply := by simp [supplyOf, ht]
    rw [e1] at sums
    rw [e1, e2]
    exact Spec.Tokens.SumsTo.unique sums h1

/-! ### Every registered holder has an account -/

/-- Whoever is in the registry of holders has an account. -/
def Held (w : World) (m : Accts) : Prop := ∀ x k, k ∈ w.stores x → (m x).isSome = true

theorem held_mono {w : World} {m m' : Accts} (h : Held w m) (ho : ∀ a, ModuleAcct.Ok a m m') : Held w m' := by
  intro x k hk
  obtain ⟨y, hy⟩ := Option.isSome_iff_exists.mp (h x k hk)
  obtain ⟨z, hz, _⟩ := ho x y hy
  rw [hz]; rfl

theorem touch_isSome (m : Accts) (a : Addr) : (touch m a a).isSome = true := by
  cases h : m a with
  | some y => simp [touch, h]
  | none => simp [touch, h, put]

theorem registerStore_stores {w : World} {a k x j : Addr} (h : j ∈ (registerStore w a k).stores x) :
    j ∈ w.stores x ∨ (x = a ∧ w.erc20s k = true ∧ k ∉ w.stores a) := by
  unfold registerStore at h
  split at h
  · rename_i he
    split at h
    · exact Or.inl h
    · rename_i hn
      simp only at h
      split at h
      · rename_i hx
        subst hx
        exact Or.inr ⟨rfl, he, hn⟩
      · exact Or.inl h
  · exact Or.inl h

theorem held_registerStore {w : World} {m : Accts} {a k : Addr} (h : Held w m) :
    Held (registerStore w a k) (if w.erc20s k = true then touch m a else m) := by
  intro x j hj
  rcases registerStore_stores hj with hj | ⟨rfl, he, _⟩
  · split
    · obtain ⟨y, hy⟩ := Option.isSome_iff_exists.mp (h x j hj)
      rw [ModuleAcct.touch_some hy]; rfl
    · exact h x j hj
  · rw [if_pos he]; exact touch_isSome m x

theorem held_callTokenA {c : Chain} {caller k : Addr} {call : Call} {p p' : World × Accts} (h : Held p.1 p.2)
    (hc : callTokenA c caller k call p = some p') : Held p'.1 p'.2 := by
  unfold callTokenA at hc
  cases hw : callToken c p.1 caller k call with
  | none => rw [hw] at hc; cases hc
  | some w' =>
    rw [hw] at hc
    unfold callToken at hw
    cases ht : p.1.tokens k with
    | none =>
      rw [ht] at hw
      simp only [ht, Option.some.injEq] at hc hw
      subst hc; subst hw; exact h
    | some st =>
      obtain ⟨sd, t⟩ := st
      rw [ht] at hw
      simp only at hw
      cases he : exec c sd caller call t with
      | none => rw [he] at hw; cases hw
      | some t' =>
        rw [he] at hw
        cases hr : regTarget call with
        | none =>
          simp only [ht, hr, Option.some.injEq] at hc hw
          subst hc; subst hw; exact h
        | some a =>
          simp only [ht, hr, Option.some.injEq] at hc hw
          subst hc; subst hw
          intro x j hj
          have hj' : j ∈ (registerStore p.1 a k).stores x := hj
          by_cases hk : p.1.erc20s k = true ∧ k ∉ p.1.stores a
          · simp only [if_pos hk]
            rcases registerStore_stores hj' with hj' | ⟨rfl, _, _⟩
            · obtain ⟨y, hy⟩ := Option.isSome_iff_exists.mp (h x j hj')
              rw [ModuleAcct.touch_some hy]; rfl
            · exact touch_isSome _ _
          · simp only [if_neg hk]
            rcases registerStore_stores hj' with hj' | ⟨rfl, e1, e2⟩
            · exact h x j hj'
            · exact absurd ⟨e1, e2⟩ hk

theorem held_sendLoop {c : Chain} {f r : Addr} : ∀ {coins : Bank.Coins} {p p' : World × Accts}, Held p.1 p.2 →
    sendLoop c f r coins p = some p' → Held p'.1 p'.2 := by
  intro coins
  induction coins with
  | nil => intro p p' h hs; cases hs; exact h
  | cons x rest ih =>
    intro p p' h hs
    obtain ⟨d, amt⟩ := x
    unfold sendLoop at hs
    split at hs
    · cases hs
    · split at hs
      · cases hs
      · rename_i q hq; exact ih (held_callTokenA h hq) hs

theorem held_newToken {c : Chain} {tp : Tokens.Params} {d : Str} {p p' : World × Accts} (h : Held p.1 p.2)
    (hc : newToken c tp d p = some p') : Held p'.1 p'.2 := by
  have ho : ∀ a, ModuleAcct.Ok a p.2 p'.2 := fun a => ModuleAcct.ok_newToken hc
  have : p'.1.stores = p.1.stores := by
    unfold newToken at hc
    split at hc
    · cases hc
    · cases hc; rfl
  intro x k hk
  rw [this] at hk
  exact held_mono h ho x k hk

theorem held_mintLoop {c : Chain} {tp : Tokens.Params} {r : Addr} : ∀ {coins : Bank.Coins} {p p' : World × Accts},
    Held p.1 p.2 → mintLoop c tp r coins p = some p' → Held p'.1 p'.2 := by
  intro coins
  induction coins with
  | nil => intro p p' h hs; cases hs; exact h
  | cons x rest ih =>
    intro p p' h hs
    obtain ⟨d, amt⟩ := x
    unfold mintLoop at hs
    split at hs
    · cases hs
    · split at hs
      · cases hs
      · rename_i p1 hp1
        have h1 : Held p1.1 p1.2 := by
          split at hp1
          · cases hp1; exact h
          · exact held_newToken h hp1
        split at hs
        · cases hs
        · split at hs
          · cases hs
          · rename_i q hq; exact ih (held_callTokenA h1 hq) hs

theorem held_bankSendA {g : Cfg} {f r : Bytes} {coins : Bank.Coins} {s s' : State} (h : Held s.w s.accts)
    (hs : bankSendA g f r coins s = .ok s') : Held s'.w s'.accts := by
  unfold bankSendA at hs
  split at hs
  · cases hs
  · rename_i r' hr'
    split at hs
    · cases hs
    · rename_i s1 hs1
      have h1 : Held s1.w s1.accts := by
        unfold ekSendA at hs1
        split at hs1
        · cases hs1
        · rename_i ef m1 e1
          split at hs1
          · cases hs1
          · rename_i er m2 e2
            obtain ⟨p, hp, rfl⟩ := Option.map_eq_some_iff.mp hs1
            have hm : Held s.w m2 := held_mono h fun a => ModuleAcct.ok_trans (ModuleAcct.ok_convert e1) (ModuleAcct.ok_convert e2)
            exact held_sendLoop (p := (s.w, m2)) hm hp
      split at hs
      · cases hs; exact h1
      · cases hs
        unfold createAccount
        split
        · intro x k hk
          by_cases c : x = bytesToAddress r'
          · simp [put, c]
          · simp only [put, if_neg c]; exact h1 x k hk
        · exact h1

theorem moduleAccount_w {g : Cfg} {m : Str} {s : State} {q : Module × State} (h : moduleAccount g m s = some q) :
    q.2.w = s.w := by
  unfold moduleAccount at h
  split at h
  · cases h
  · obtain ⟨m', _, rfl⟩ := Option.map_eq_some_iff.mp h; rfl

theorem held_moduleAccount {g : Cfg} {m : Str} {s : State} {q : Module × State} (h : Held s.w s.accts)
    (hq : moduleAccount g m s = some q) : Held q.2.w q.2.accts := by
  rw [moduleAccount_w hq]
  exact held_mono h fun a => ModuleAcct.ok_moduleAccount hq

theorem held_accountToModuleA {g : Cfg} {f : Bytes} {m : Str} {coins : Bank.Coins} {s s' : State}
    (h : Held s.w s.accts) (hs : accountToModuleA g f m coins s = .ok s') : Held s'.w s'.accts := by
  unfold accountToModuleA at hs
  split at hs
  · cases hs
  · rename_i mo s1 h1; exact held_bankSendA (held_moduleAccount h h1) hs

theorem held_burnLoopA {g : Cfg} {fc : Str} {f : Addr} {all coins : Bank.Coins} : ∀ {s s' : State}, Held s.w s.accts →
    burnLoopA g fc f all coins s = .ok s' → Held s'.w s'.accts := by
  induction coins with
  | nil => intro s s' h hs; cases hs; exact h
  | cons x rest ih =>
    intro s s' h hs
    obtain ⟨d, amt⟩ := x
    unfold burnLoopA at hs
    split at hs
    · split at hs
      · rename_i s1 h1; exact ih (held_accountToModuleA h h1) hs
      · cases hs
      · cases hs
    · split at hs
      · cases hs
      · split at hs
        · cases hs
        · rename_i p hp
          exact ih (s := withPair s p) (held_callTokenA (p := (s.w, s.accts)) h hp) hs

theorem onAccts_w {s s' : State} {o : Option Accts} (h : onAccts s o = .ok s') : s'.w = s.w := by
  cases o with
  | none => cases h
  | some m => cases h; rfl

theorem held_step {g : Cfg} {fc : Str} {o : Op} {s s' : State} (h : Held s.w s.accts) (hd : ∀ a, o ≠ .destroy a)
    (hs : step g fc o s = .ok s') : Held s'.w s'.accts := by
  have mono : s'.w = s.w → Held s'.w s'.accts := fun e => by
    rw [e]; exact held_mono h fun a => ModuleAcct.step_ok (hd a) hs
  cases o with
  | send m =>
    replace hs : msgSendA g m s = .ok s' := hs
    unfold msgSendA at hs
    split at hs
    · cases hs
    · split at hs
      · cases hs
      · repeat (split at hs; · cases hs)
        exact held_bankSendA h hs
  | moduleToAccount m r coins =>
    replace hs : moduleToAccountA g m r coins s = .ok s' := hs
    unfold moduleToAccountA at hs
    split at hs
    · cases hs
    · split at hs
      · cases hs
      · exact held_bankSendA h hs
  | moduleToModule m m' coins =>
    replace hs : moduleToModuleA g m m' coins s = .ok s' := hs
    unfold moduleToModuleA at hs
    split at hs
    · cases hs
    · split at hs
      · cases hs
      · rename_i mo' s1 h1; exact held_bankSendA (held_moduleAccount h h1) hs
  | accountToModule f m coins => exact held_accountToModuleA h hs
  | mint m coins =>
    replace hs : bankMintA g m coins s = .ok s' := hs
    unfold bankMintA at hs
    split at hs
    · cases hs
    · split at hs
      · cases hs
      · rename_i mo s1 h1
        split at hs
        · cases hs
        · split at hs
          · cases hs
          · split at hs
            · cases hs
            · rename_i er m1 h2
              split at hs
              · cases hs
              · rename_i p hp
                cases hs
                have e := held_moduleAccount h h1
                exact held_mintLoop (p := (s1.w, m1)) (held_mono e fun a => ModuleAcct.ok_convert h2) hp
  | burn m coins =>
    replace hs : bankBurnA g fc m coins s = .ok s' := hs
    unfold bankBurnA at hs
    split at hs
    · cases hs
    · rename_i mo s1 h1
      split at hs
      · cases hs
      · split at hs
        · cases hs
        · rename_i ef m1 h2
          have e := held_moduleAccount h h1
          exact held_burnLoopA (s := { s1 with accts := m1 }) (held_mono e fun a => ModuleAcct.ok_convert h2) hs
  | token caller k call =>
    change (match callTokenA g.chain caller k call (s.w, s.accts) with
      | none => Res.err | some p => .ok (withPair s p)) = .ok s' at hs
    split at hs
    · cases hs
    · rename_i p hp
      cases hs
      exact held_callTokenA (p := (s.w, s.accts)) h hp
  | registerStore k b =>
    cases hs
    exact held_registerStore h
  | create b => exact mono (onAccts_w hs)
  | destroy b => exact absurd rfl (hd b)
  | evmCall b => cases hs; exact mono rfl
  | nonce b n => exact mono (onAccts_w hs)
  | key b => exact mono (onAccts_w hs)
  | signer b => exact mono (onAccts_w hs)

/-- **C90 (holders have accounts).** As long as no contract is destroyed, everybody who has ever received a registered
token has an account, and so appears in the export; whatever else happens. -/
theorem C90_holders (g : Cfg) (fc : Str) (ops : List Op) (hd : ∀ a, Op.destroy a ∉ ops) : ∀ s : State,
    (∀ x k, k ∈ s.w.stores x → (s.accts x).isSome = true) →
    ∀ x k, k ∈ (run g fc ops s).w.stores x → ((run g fc ops s).accts x).isSome = true := by
  induction ops with
  | nil => intro s h; exact h
  | cons o rest ih =>
    intro s h
    have hr : ∀ a, Op.destroy a ∉ rest := fun a e => hd a (List.mem_cons_of_mem _ e)
    unfold run
    split
    · rename_i s' hs'
      exact ih hr s' (held_step h (fun a e => hd a (e ▸ List.mem_cons_self)) hs')
    · exact ih hr s h

/-! ### What goes wrong -/

theorem export_fails {mask : Str → List Bool} {s : State} {b : Bytes} (hb : convert s.accts b false = none) :
    ∀ {l : List Bytes} {acc : List (Bytes × Bank.Coins)}, b ∈ l → accountsBalances mask s l acc = none := by
  intro l
  induction l with
  | nil => intro acc h; cases h
  | cons x rest ih =>
    intro acc h
    unfold accountsBalances
    split
    · rfl
    · rename_i cs hcs
      rcases List.mem_cons.mp h with rfl | h
      · unfold coinsOf at hcs; rw [hb] at hcs; cases hcs
      · exact ih h

theorem convert_used {m : Accts} {r : Bytes} {pk : Bool} {n : Nat} (hl : r.length ≠ 20)
    (h : m (bytesToAddress r) = some (.plain pk (n + 1))) : convert m r false = none := by
  simp [convert, hl, h, isEmpty]

/-- A state in which a coin has been sent to a longer address whose last 20 bytes are those of an account in use cannot
be exported. -/
theorem used_fails {mask : Str → List Bool} {s : State} {r : Bytes} {pk : Bool} {n : Nat} (hl : r.length ≠ 20)
    (hr : hasAccount s r = true) (h : s.accts (bytesToAddress r) = some (.plain pk (n + 1))) {accounts : List Bytes}
    (ha : AllAccounts s accounts) (regs : List Addr) : exportBalances mask s accounts regs = none := by
  unfold exportBalances
  rw [export_fails (convert_used hl h) ((ha.2 r).mpr hr)]

theorem touch_cases {m : Accts} {a b : Addr} (h : m a = none ∨ ∃ pk, m a = some (.plain pk 0)) :
    touch m b a = none ∨ ∃ pk, touch m b a = some (.plain pk 0) := by
  rcases h with h | ⟨pk, h⟩
  · by_cases c : a = b
    · subst c; exact Or.inr ⟨false, ModuleAcct.touch_none h⟩
    · left
      cases hb : m b with
      | some y => simp only [touch, hb]; exact h
      | none => simp only [touch, hb, put, if_neg c]; exact h
  · exact Or.inr ⟨pk, ModuleAcct.touch_some h⟩

theorem call_cases {c : Chain} {caller k a : Addr} {call : Call} {p p' : World × Accts}
    (h : callTokenA c caller k call p = some p') (ha : p.2 a = none ∨ ∃ pk, p.2 a = some (.plain pk 0)) :
    p'.2 a = none ∨ ∃ pk, p'.2 a = some (.plain pk 0) := by
  unfold callTokenA at h
  cases hc : callToken c p.1 caller k call with
  | none => rw [hc] at h; cases h
  | some w' =>
    rw [hc] at h
    cases ht : p.1.tokens k with
    | none => simp only [ht, Option.some.injEq] at h; subst h; exact ha
    | some t =>
      cases hr : regTarget call with
      | none => simp only [ht, hr, Option.some.injEq] at h; subst h; exact ha
      | some b =>
        simp only [ht, hr, Option.some.injEq] at h
        subst h
        by_cases hk : p.1.erc20s k = true ∧ k ∉ p.1.stores b
        · simp only [if_pos hk]; exact touch_cases ha
        · simp only [if_neg hk]; exact ha

theorem loop_cases {c : Chain} {f r a : Addr} : ∀ {coins : Bank.Coins} {p p' : World × Accts},
    sendLoop c f r coins p = some p' → (p.2 a = none ∨ ∃ pk, p.2 a = some (.plain pk 0)) →
    p'.2 a = none ∨ ∃ pk, p'.2 a = some (.plain pk 0) := by
  intro coins
  induction coins with
  | nil => intro p p' h ha; cases h; exact ha
  | cons y rest ih =>
    intro p p' h ha
    obtain ⟨d, amt⟩ := y
    unfold sendLoop at h
    split at h
    · cases h
    · split at h
      · cases h
      · rename_i q hq; exact ih h (call_cases hq ha)

/-- **C90 is violated: anybody can make the export impossible.** A new user X receives a coin, or a dust of one, at any
longer address that ends in X's 20 bytes (any accepted `MsgSend`), and then makes his first transaction, so that X's
sequence is no longer zero. From that moment on the export panics: the longer address has an account, but no EVM address
any more. -/
theorem C90_panic_violated (g : Cfg) (fc : Str) (mask : Str → List Bool) (s s1 s2 : State) (m : MsgSend) (f r : Bytes)
    (hg : g.restr = none) (hf : g.parseAddr m.from_ = some f) (hf20 : f.length = 20) (hr : g.parseAddr m.to = some r)
    (hl : r.length ≠ 20) (hnew : s.accts (bytesToAddress r) = none ∨ ∃ pk, s.accts (bytesToAddress r) = some (.plain pk 0))
    (h1 : step g fc (.send m) s = .ok s1) (n : Nat) (h2 : step g fc (.nonce (bytesToAddress r) (n + 1)) s1 = .ok s2)
    (accounts : List Bytes) (ha : AllAccounts s2 accounts) (regs : List Addr) :
    exportBalances mask s2 accounts regs = none := by
  replace h1 : msgSendA g m s = .ok s1 := h1
  unfold msgSendA at h1
  simp only [hf, hr] at h1
  repeat (split at h1; · cases h1)
  unfold bankSendA at h1
  simp only [hg, Bank.apply] at h1
  have hconv : convert s.accts f true = some (bytesToAddress f, s.accts) := by simp [convert, hf20]
  have hconv2 : convert s.accts r false = some (bytesToAddress r, s.accts) := by
    rcases hnew with h | ⟨pk, h⟩
    · exact ModuleAcct.convert_long_none hl h
    · cases pk with
      | false => simp [convert, hl, h, isEmpty]
      | true =>
        exfalso
        have : convert s.accts r false = none := by simp [convert, hl, h, isEmpty]
        simp [ekSendA, hconv, this] at h1
  have hek : ekSendA g f r (natCoins m.amount) s =
      (sendLoop g.chain (bytesToAddress f) (bytesToAddress r) (natCoins m.amount) (s.w, s.accts)).map (withPair s) := by
    simp only [ekSendA, hconv, hconv2]
  rw [hek] at h1
  cases hlp : sendLoop g.chain (bytesToAddress f) (bytesToAddress r) (natCoins m.amount) (s.w, s.accts) with
  | none => rw [hlp] at h1; cases h1
  | some p =>
    rw [hlp] at h1
    have hp := loop_cases (a := bytesToAddress r) hlp hnew
    simp only [Option.map_some] at h1
    have hs1 : hasAccount s1 r = true ∧ s1.accts = p.2 := by
      split at h1
      · rename_i hh; cases h1; exact ⟨hh, rfl⟩
      · cases h1
        simp only [createAccount, if_neg hl, hasAccount, if_true]
        exact ⟨trivial, rfl⟩
    replace h2 : onAccts s1 (setSeq s1.accts (bytesToAddress r) (n + 1)) = .ok s2 := h2
    have hs2 : ∃ pk, s2.accts (bytesToAddress r) = some (.plain pk (n + 1)) ∧ s2.long = s1.long := by
      unfold setSeq at h2
      rw [hs1.2] at h2
      rcases hp with hp | ⟨pk, hp⟩
      · rw [hp] at h2; cases h2; exact ⟨false, by simp [put], rfl⟩
      · rw [hp] at h2; cases h2; exact ⟨pk, by simp [put], rfl⟩
    obtain ⟨pk, e, elong⟩ := hs2
    refine used_fails hl ?_ e ha regs
    have := hs1.1
    simp only [hasAccount, if_neg hl] at this ⊢
    rw [elong]; exact this

open Props.Bank Props.Ledger Props.Tokens

instance : DecidableEq Bank.Coins := inferInstanceAs (DecidableEq (List (Str × Nat)))

instance : DecidableEq Bytes := inferInstanceAs (DecidableEq (List UInt8))

/-- Alice's 100 uinit, with the registry of holders filled in. -/
def heldState : State :=
  { toyState with w := { toyState.w with stores := fun a => if a = alice then [Addr.ofNat 50] else [] } }

def noMask : Str → List Bool := fun _ => []

/-- After the attack: alice sends to the 32-byte address that ends in the bytes of user 200, who then makes a
transaction. -/
def attacked : State :=
  run toyCfg "fee".toList [.send ⟨"alice".toList, "long".toList, [(uinit, 30)]⟩, .nonce (Addr.ofNat 200) 1] heldState

/-- The hypotheses of `C90_panic_violated` are met on the toy chain; before, the export worked. -/
example : hasAccount attacked longFee = true ∧ (exportBalances noMask attacked [aliceB, feeB, longFee] []).isSome = false ∧
    exportBalances noMask heldState [aliceB] [Addr.ofNat 50] = some ([(aliceB, [(uinit, 100)])], [(uinit, 100)]) := by
  refine ⟨?_, ?_, ?_⟩ <;> decide +kernel

/-- The world after a mint of 100 uinit for alice on an empty chain. -/
def minted : World := ((mintCoins toyChain toyParams alice [(uinit, 100)] Registry.World.init).getD Registry.World.init)

theorem minted_eq : mintCoins toyChain toyParams alice [(uinit, 100)] Registry.World.init = some minted := by rfl

/-- The hypotheses of `C90_total_partial` are met. -/
example : ∃ l sup, exportBalances noMask { toyState with w := minted } [aliceB] [toyParams.deployed 0] = some (l, sup) ∧
    listed l uinit = 100 := by
  obtain ⟨l, sup, h1, h2⟩ := C90_total_partial toyChain noMask { toyState with w := minted } [aliceB] [toyParams.deployed 0]
    (by
      refine ⟨by simp, fun b => ?_⟩
      simp only [List.mem_singleton, hasAccount]
      by_cases hl : b.length = 20
      · rw [if_pos hl]
        constructor
        · rintro rfl; decide +kernel
        · intro hs
          have : bytesToAddress b = alice := by
            by_cases c : bytesToAddress b = alice
            · exact c
            · simp [toyState, c] at hs
          rw [← bytes_of_length hl, this]; rfl
      · have : b ≠ aliceB := by rintro rfl; exact hl (by decide +kernel)
        simp [if_neg hl, this, toyState])
    (by intro b hb; rw [List.mem_singleton.mp hb]; decide +kernel)
    (.step _ _ .refl (.mint toyParams alice [(uinit, 100)] minted (by
        intro n m hn hm h
        simp only [toyParams, Addr.mk.injEq] at h
        have := congrArg fromBE h
        rw [fromBE_toBE _ _ (by omega), fromBE_toBE _ _ (by omega)] at this
        omega) ⟨fun d a h => by simp [Registry.World.init, Maps.empty] at h, fun n _ _ => rfl⟩ (by decide) minted_eq))
    (Props.Denom.Reachable.genesis uinit (toyParams.deployed 0) (by decide +kernel))
    (by
      intro x k hk
      have : minted.stores x = if x = alice then [toyParams.deployed 0] else [] := rfl
      by_cases c : x = alice
      · simp [toyState, c]
      · simp only [this, if_neg c] at hk; cases hk)
  refine ⟨l, sup, h1, ?_⟩
  have := (h2 (toyParams.deployed 0) (by decide +kernel) (by simp)).2
  have e1 : contractToDenom noMask minted.maps (toyParams.deployed 0) = uinit := by decide +kernel
  have e2 : supplyOf minted (toyParams.deployed 0) = 100 := by decide +kernel
  simp only [e1, e2] at this
  exact this

/-- A chain with a user of a 32-byte address: bob's balance belongs to the longer address. -/
def longUser : State := { heldState with
  accts := fun a => if a = alice then some (.shorthand (List.replicate 12 7 ++ alice.bytes) 1) else none
  long := fun b => decide (b = List.replicate 12 7 ++ alice.bytes) }

/-- **C90 fails: coins of users with longer addresses are listed twice.** Such a user has two accounts, one under the
longer address and the shorthand one under its last 20 bytes; the export lists the same balance under both, so that the
exported balances add up to twice the exported supply. -/
theorem C90_twice_violated : ¬ ∀ (mask : Str → List Bool) (s : State) (accounts : List Bytes) (k : Addr),
    AllAccounts s accounts → (∀ x k, k ∈ s.w.stores x → (s.accts x).isSome = true) → s.w.erc20s k = true →
    ∀ l sup, exportBalances mask s accounts [k] = some (l, sup) →
      listed l (contractToDenom mask s.w.maps k) = supplyOf s.w k := by
  intro h
  have ha : AllAccounts longUser [aliceB, List.replicate 12 7 ++ alice.bytes] := by
    refine ⟨by decide +kernel, fun b => ?_⟩
    simp only [List.mem_cons, List.not_mem_nil, or_false]
    by_cases hl : b.length = 20
    · have hne : b ≠ List.replicate 12 7 ++ alice.bytes := by
        intro e; rw [e] at hl; revert hl; decide +kernel
      simp only [hne, or_false, hasAccount, if_pos hl]
      constructor
      · rintro rfl; decide +kernel
      · intro hs
        have : bytesToAddress b = alice := by
          by_cases c : bytesToAddress b = alice
          · exact c
          · simp [longUser, c] at hs
        rw [← bytes_of_length hl, this]; rfl
    · have hne : b ≠ aliceB := by
        rintro rfl; exact hl (by decide +kernel)
      simp [hne, hasAccount, if_neg hl, longUser]
  have hh : ∀ x k, k ∈ longUser.w.stores x → (longUser.accts x).isSome = true := by
    intro x k hk
    by_cases c : x = alice
    · simp [longUser, c]
    · have : longUser.w.stores x = [] := by simp [longUser, heldState, c]
      rw [this] at hk; cases hk
  have e : exportBalances noMask longUser [aliceB, List.replicate 12 7 ++ alice.bytes] [Addr.ofNat 50] =
      some ([(aliceB, [(uinit, 100)]), (List.replicate 12 7 ++ alice.bytes, [(uinit, 100)])], [(uinit, 100)]) := by
    decide +kernel
  have := h noMask longUser _ (Addr.ofNat 50) ha hh (by decide +kernel) _ _ e
  revert this
  decide +kernel

/-- A contract (address 200) that holds 30 uinit. -/
def withContract : State :=
  run toyCfg "fee".toList [.create (Addr.ofNat 200), .token alice (Addr.ofNat 50) (.transfer (Addr.ofNat 200) 30)] heldState

/-- **C90 fails: the tokens of a destroyed contract are not listed.** A contract that received tokens and is destroyed in
the execution that created it loses its account, but not its tokens: the export lists less than the supply. -/
theorem C90_destroyed_violated :
    (withContract.accts (Addr.ofNat 200) = some .contract ∧ balanceOf withContract.w (Addr.ofNat 50) (Addr.ofNat 200) = 30) ∧
    exportBalances noMask withContract [aliceB, feeB] [Addr.ofNat 50] =
      some ([(aliceB, [(uinit, 70)]), (feeB, [(uinit, 30)])], [(uinit, 100)]) ∧
    let s' := run toyCfg "fee".toList [.destroy (Addr.ofNat 200)] withContract
    s'.accts (Addr.ofNat 200) = none ∧ balanceOf s'.w (Addr.ofNat 50) (Addr.ofNat 200) = 30 ∧
    exportBalances noMask s' [aliceB] [Addr.ofNat 50] = some ([(aliceB, [(uinit, 70)])], [(uinit, 100)]) := by
  refine ⟨⟨?_, ?_⟩, ?_, ?_, ?_, ?_⟩ <;> decide +kernel

end Verif.Props.Export
