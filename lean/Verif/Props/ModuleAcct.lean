import Verif.Model.ModuleAcct
import Verif.Props.Bank
/-
C89: a module's account stays the module's.
-/
namespace Verif.Props.ModuleAcct
open Verif Verif.Text Verif.Denom Verif.Tokens Verif.Identity Verif.Bank Verif.ModuleAcct

/-- At `a` an account stays an account, and stays (or stays not) a module account. -/
def Ok (a : Addr) (m m' : Accts) : Prop :=
  ∀ x, m a = some x → ∃ y, m' a = some y ∧ (x = .module ↔ y = .module)

theorem ok_refl (a : Addr) (m : Accts) : Ok a m m := fun x h => ⟨x, h, Iff.rfl⟩

theorem ok_trans {a : Addr} {m m' m'' : Accts} (h : Ok a m m') (h' : Ok a m' m'') : Ok a m m'' := by
  intro x hx
  obtain ⟨y, hy, e⟩ := h x hx
  obtain ⟨z, hz, e'⟩ := h' y hy
  exact ⟨z, hz, e.trans e'⟩

theorem ok_put_none {a b : Addr} {m : Accts} (x : Acct) (h : m b = none) : Ok a m (put m b x) := by
  intro y hy
  by_cases c : a = b
  · subst c; rw [h] at hy; cases hy
  · exact ⟨y, by simp only [put, if_neg c]; exact hy, Iff.rfl⟩

theorem ok_put_same {a b : Addr} {m : Accts} (x : Acct) {z : Acct} (h : m b = some z) (e : z = .module ↔ x = .module) :
    Ok a m (put m b x) := by
  intro y hy
  by_cases c : a = b
  · subst c; rw [h] at hy; cases hy
    exact ⟨x, by simp [put], e⟩
  · exact ⟨y, by simp only [put, if_neg c]; exact hy, Iff.rfl⟩

theorem isEmpty_ne {x : Acct} (h : isEmpty x = true) : x ≠ .module := by
  rintro rfl; cases h

theorem ok_touch (a b : Addr) (m : Accts) : Ok a m (touch m b) := by
  unfold touch
  split
  · exact ok_refl a m
  · rename_i h; exact ok_put_none _ h

theorem ok_getModule {a b : Addr} {m m' : Accts} (h : getModule m b = some m') : Ok a m m' := by
  unfold getModule at h
  split at h
  · rename_i h0; cases h; exact ok_put_none _ h0
  · cases h; exact ok_refl a m
  · cases h

theorem ok_createContract {a b : Addr} {m m' : Accts} (h : createContract m b = some m') : Ok a m m' := by
  unfold createContract at h
  split at h
  · rename_i h0; cases h; exact ok_put_none _ h0
  · rename_i x h0
    split at h
    · rename_i he; cases h
      exact ok_put_same _ h0 ⟨fun e => absurd e (isEmpty_ne he), fun e => (by cases e)⟩
    · cases h

theorem ok_setSeq {a b : Addr} {n : Nat} {m m' : Accts} (h : setSeq m b n = some m') : Ok a m m' := by
  unfold setSeq at h
  split at h
  · rename_i h0; cases h; exact ok_put_none _ h0
  · rename_i h0; cases h; exact ok_put_same _ h0 ⟨fun e => (by cases e), fun e => (by cases e)⟩
  · rename_i h0; cases h; exact ok_put_same _ h0 ⟨fun e => (by cases e), fun e => (by cases e)⟩
  · cases h; exact ok_refl a m
  · cases h

theorem ok_setKey {a b : Addr} {m m' : Accts} (h : setKey m b = some m') : Ok a m m' := by
  unfold setKey at h
  split at h
  · rename_i h0; cases h; exact ok_put_same _ h0 ⟨fun e => (by cases e), fun e => (by cases e)⟩
  · cases h

theorem ok_convert {a : Addr} {m : Accts} {b : Bytes} {sg : Bool} {q : Addr × Accts} (h : convert m b sg = some q) :
    Ok a m q.2 := by
  unfold convert at h
  split at h
  · cases h; exact ok_refl a m
  · simp only at h
    split at h
    · rename_i h0
      split at h
      · cases h; exact ok_put_none _ h0
      · cases h; exact ok_refl a m
    · rename_i acc h0
      split at h
      · rename_i he
        split at h
        · cases h; exact ok_put_same _ h0 ⟨fun e => absurd e (isEmpty_ne he), fun e => (by cases e)⟩
        · cases h; exact ok_refl a m
      · split at h
        · split at h
          · cases h; exact ok_refl a m
          · cases h
        · cases h

theorem ok_callTokenA {a caller k : Addr} {c : Chain} {call : Call} {p p' : World × Accts}
    (h : callTokenA c caller k call p = some p') : Ok a p.2 p'.2 := by
  unfold callTokenA at h
  split at h
  · cases h
  · cases h
    simp only
    split
    · split
      · exact ok_touch a _ _
      · exact ok_refl a _
    · exact ok_refl a _

theorem ok_sendLoop {a f r : Addr} {c : Chain} {coins : Bank.Coins} : ∀ {p p' : World × Accts},
    sendLoop c f r coins p = some p' → Ok a p.2 p'.2 := by
  induction coins with
  | nil => intro p p' h; cases h; exact ok_refl a _
  | cons x rest ih =>
    intro p p' h
    obtain ⟨d, amt⟩ := x
    unfold sendLoop at h
    split at h
    · cases h
    · split at h
      · cases h
      · rename_i q hq; exact ok_trans (ok_callTokenA hq) (ih h)

theorem ok_newToken {a : Addr} {c : Chain} {tp : Tokens.Params} {d : Str} {p p' : World × Accts}
    (h : newToken c tp d p = some p') : Ok a p.2 p'.2 := by
  unfold newToken at h
  split at h
  · cases h
  · rename_i m hm; cases h; exact ok_createContract hm

theorem ok_mintLoop {a r : Addr} {c : Chain} {tp : Tokens.Params} {coins : Bank.Coins} : ∀ {p p' : World × Accts},
    mintLoop c tp r coins p = some p' → Ok a p.2 p'.2 := by
  induction coins with
  | nil => intro p p' h; cases h; exact ok_refl a _
  | cons x rest ih =>
    intro p p' h
    obtain ⟨d, amt⟩ := x
    unfold mintLoop at h
    split at h
    · cases h
    · split at h
      · cases h
      · rename_i p1 hp1
        have h1 : Ok a p.2 p1.2 := by
          split at hp1
          · cases hp1; exact ok_refl a _
          · exact ok_newToken hp1
        split at h
        · cases h
        · split at h
          · cases h
          · rename_i q hq; exact ok_trans h1 (ok_trans (ok_callTokenA hq) (ih h))

theorem ok_ekSendA {a : Addr} {g : Cfg} {f r : Bytes} {coins : Bank.Coins} {s s' : State}
    (h : ekSendA g f r coins s = some s') : Ok a s.accts s'.accts := by
  unfold ekSendA at h
  split at h
  · cases h
  · rename_i ef m1 h1
    split at h
    · cases h
    · rename_i er m2 h2
      obtain ⟨p, hp, rfl⟩ := Option.map_eq_some_iff.mp h
      exact ok_trans (ok_convert h1) (ok_trans (ok_convert h2) (ok_sendLoop hp))

theorem ok_bankSendA {a : Addr} {g : Cfg} {f r : Bytes} {coins : Bank.Coins} {s s' : State}
    (h : bankSendA g f r coins s = .ok s') : Ok a s.accts s'.accts := by
  unfold bankSendA at h
  split at h
  · cases h
  · rename_i r' hr'
    split at h
    · cases h
    · rename_i s1 hs1
      refine ok_trans (ok_ekSendA hs1) ?_
      split at h
      · cases h; exact ok_refl a _
      · rename_i hn
        cases h
        unfold createAccount
        split
        · rename_i hl
          refine ok_put_none _ ?_
          unfold hasAccount at hn
          rw [if_pos hl] at hn
          cases hc : s1.accts (bytesToAddress r') with
          | none => rfl
          | some y => rw [hc] at hn; simp at hn
        · exact ok_refl a _

theorem ok_moduleAccount {a : Addr} {g : Cfg} {m : Str} {s : State} {q : Module × State}
    (h : moduleAccount g m s = some q) : Ok a s.accts q.2.accts := by
  unfold moduleAccount at h
  split at h
  · cases h
  · obtain ⟨m', hm', rfl⟩ := Option.map_eq_some_iff.mp h
    exact ok_getModule hm'

theorem ok_accountToModuleA {a : Addr} {g : Cfg} {f : Bytes} {m : Str} {coins : Bank.Coins} {s s' : State}
    (h : accountToModuleA g f m coins s = .ok s') : Ok a s.accts s'.accts := by
  unfold accountToModuleA at h
  split at h
  · cases h
  · rename_i mo s1 h1; exact ok_trans (ok_moduleAccount h1) (ok_bankSendA h)

theorem ok_burnLoopA {a f : Addr} {g : Cfg} {fc : Str} {all coins : Bank.Coins} : ∀ {s s' : State},
    burnLoopA g fc f all coins s = .ok s' → Ok a s.accts s'.accts := by
  induction coins with
  | nil => intro s s' h; cases h; exact ok_refl a _
  | cons x rest ih =>
    intro s s' h
    obtain ⟨d, amt⟩ := x
    unfold burnLoopA at h
    split at h
    · split at h
      · rename_i s1 h1; exact ok_trans (ok_accountToModuleA h1) (ih h)
      · cases h
      · cases h
    · split at h
      · cases h
      · split at h
        · cases h
        · rename_i p hp
          have e : Ok a s.accts p.2 := ok_callTokenA (p := (s.w, s.accts)) hp
          exact ok_trans e (ih h)

theorem ok_onAccts {a : Addr} {s s' : State} {o : Option Accts} (h : onAccts s o = .ok s')
    (ho : ∀ m, o = some m → Ok a s.accts m) : Ok a s.accts s'.accts := by
  cases o with
  | none => cases h
  | some m => cases h; exact ho m rfl

/-- Every operation but the removal of `a` itself. -/
theorem step_ok {a : Addr} {g : Cfg} {fc : Str} {o : Op} {s s' : State} (ho : o ≠ .destroy a)
    (h : step g fc o s = .ok s') : Ok a s.accts s'.accts := by
  cases o with
  | send m =>
    replace h : msgSendA g m s = .ok s' := h
    unfold msgSendA at h
    split at h
    · cases h
    · split at h
      · cases h
      · repeat (split at h; · cases h)
        exact ok_bankSendA h
  | moduleToAccount m r coins =>
    replace h : moduleToAccountA g m r coins s = .ok s' := h
    unfold moduleToAccountA at h
    split at h
    · cases h
    · split at h
      · cases h
      · exact ok_bankSendA h
  | moduleToModule m m' coins =>
    replace h : moduleToModuleA g m m' coins s = .ok s' := h
    unfold moduleToModuleA at h
    split at h
    · cases h
    · split at h
      · cases h
      · rename_i mo' s1 h1; exact ok_trans (ok_moduleAccount h1) (ok_bankSendA h)
  | accountToModule f m coins => exact ok_accountToModuleA h
  | mint m coins =>
    replace h : bankMintA g m coins s = .ok s' := h
    unfold bankMintA at h
    split at h
    · cases h
    · split at h
      · cases h
      · rename_i mo s1 h1
        split at h
        · cases h
        · split at h
          · cases h
          · split at h
            · cases h
            · rename_i er m1 h2
              split at h
              · cases h
              · rename_i p hp
                cases h
                have e : Ok a m1 p.2 := ok_mintLoop (p := (s1.w, m1)) hp
                exact ok_trans (ok_moduleAccount h1) (ok_trans (ok_convert h2) e)
  | burn m coins =>
    replace h : bankBurnA g fc m coins s = .ok s' := h
    unfold bankBurnA at h
    split at h
    · cases h
    · rename_i mo s1 h1
      split at h
      · cases h
      · split at h
        · cases h
        · rename_i ef m1 h2
          have e : Ok a m1 s'.accts := ok_burnLoopA h
          exact ok_trans (ok_moduleAccount h1) (ok_trans (ok_convert h2) e)
  | token caller k call =>
    change (match callTokenA g.chain caller k call (s.w, s.accts) with
      | none => Res.err | some p => .ok (withPair s p)) = .ok s' at h
    split at h
    · cases h
    · rename_i p hp
      cases h
      exact ok_callTokenA (p := (s.w, s.accts)) hp
  | registerStore k b =>
    cases h
    show Ok a s.accts (if s.w.erc20s k = true then touch s.accts b else s.accts)
    split
    · exact ok_touch a b _
    · exact ok_refl a _
  | create b => exact ok_onAccts h fun m hm => ok_createContract hm
  | destroy b =>
    refine ok_onAccts h fun m hm => ?_
    unfold destroy at hm
    split at hm
    · cases hm
      intro x hx
      have hne : a ≠ b := fun e => ho (e ▸ rfl)
      exact ⟨x, by simp only [if_neg hne]; exact hx, Iff.rfl⟩
    · cases hm
  | evmCall b => cases h; exact ok_touch a b _
  | nonce b n => exact ok_onAccts h fun m hm => ok_setSeq hm
  | key b => exact ok_onAccts h fun m hm => ok_setKey hm
  | signer b =>
    refine ok_onAccts h fun m hm => ?_
    obtain ⟨q, hq, rfl⟩ := Option.map_eq_some_iff.mp hm
    exact ok_convert hq

theorem step_keep {a : Addr} {g : Cfg} {fc : Str} {o : Op} {s s' : State} (hm : s.accts a = some .module)
    (h : step g fc o s = .ok s') : s'.accts a = some .module := by
  by_cases ho : o = .destroy a
  · subst ho
    have : destroy s.accts a = none := by simp [destroy, hm]
    change onAccts s (destroy s.accts a) = .ok s' at h
    rw [this] at h; cases h
  · obtain ⟨y, hy, e⟩ := step_ok ho h _ hm
    rw [hy, e.mp rfl]

/-- **C89 (module accounts are kept).** Where a module's account exists, no history of transfers, mints, burns, token
calls, registrations, contract creations and destructions, and signers ever replaces or removes it. -/
theorem C89_kept (g : Cfg) (fc : Str) (a : Addr) (ops : List Op) : ∀ s : State, s.accts a = some .module →
    (run g fc ops s).accts a = some .module := by
  induction ops with
  | nil => intro s h; exact h
  | cons o rest ih =>
    intro s h
    unfold run
    split
    · rename_i s' hs'; exact ih s' (step_keep h hs')
    · exact ih s h

/-- **C89 (and it works).** Then using the module's account never panics, whatever happened in between. -/
theorem C89_works (g : Cfg) (fc : Str) (n : Str) (mo : Module) (hn : g.modules n = some mo) (ops : List Op) (s : State)
    (h : s.accts (bytesToAddress mo.addr) = some .module) :
    moduleAccount g n (run g fc ops s) = some (mo, run g fc ops s) := by
  have := C89_kept g fc _ ops s h
  simp [moduleAccount, hn, getModule, this]

theorem run_taken {g : Cfg} {fc : Str} {a : Addr} {ops : List Op} (hops : Op.destroy a ∉ ops) : ∀ {s : State} {x : Acct},
    s.accts a = some x → x ≠ .module → ∃ y, (run g fc ops s).accts a = some y ∧ y ≠ .module := by
  induction ops with
  | nil => intro s x h hx; exact ⟨x, h, hx⟩
  | cons o rest ih =>
    intro s x h hx
    have hr : Op.destroy a ∉ rest := fun e => hops (List.mem_cons_of_mem _ e)
    have ho : o ≠ .destroy a := fun e => hops (e ▸ List.mem_cons_self)
    unfold run
    split
    · rename_i s' hs'
      obtain ⟨y, hy, e⟩ := step_ok ho hs' _ h
      exact ih hr hy (fun k => hx (e.mpr k))
    · exact ih hr h hx

/-- **C89 (what is lost when the address is taken).** If an account of any other kind lies at a module's address, every
payment to the module, every mint and every burn by it panics, after every further history. (The only operation that
would free the address is the destruction of a contract there, which would need a contract at that address.) -/
theorem C89_lost (g : Cfg) (fc : Str) (n : Str) (mo : Module) (hn : g.modules n = some mo) (ops : List Op) (s : State)
    (x : Acct) (h : s.accts (bytesToAddress mo.addr) = some x) (hx : x ≠ .module)
    (hops : Op.destroy (bytesToAddress mo.addr) ∉ ops) :
    (∀ f coins, step g fc (.accountToModule f n coins) (run g fc ops s) = .panic) ∧
    (∀ m mo' coins, g.modules m = some mo' → step g fc (.moduleToModule m n coins) (run g fc ops s) = .panic) ∧
    (∀ coins, g.mintOk coins = true → step g fc (.mint n coins) (run g fc ops s) = .panic) ∧
    (∀ coins, step g fc (.burn n coins) (run g fc ops s) = .panic) := by
  obtain ⟨y, hy, hne⟩ := run_taken (g := g) (fc := fc) hops h hx
  have e : moduleAccount g n (run g fc ops s) = none := by
    unfold moduleAccount
    simp only [hn, getModule, hy]
    cases y with
    | module => exact absurd rfl hne
    | plain _ _ => rfl
    | contract => rfl
    | shorthand _ _ => rfl
  refine ⟨fun f coins => ?_, fun m mo' coins hm' => ?_, fun coins hc => ?_, fun coins => ?_⟩
  · simp [step, accountToModuleA, e]
  · simp [step, moduleToModuleA, e, hm']
  · simp [step, bankMintA, e, hc]
  · simp [step, bankBurnA, e]

/-! ### How an address is taken -/

theorem touch_none {m : Accts} {a : Addr} (h : m a = none) : touch m a a = some (.plain false 0) := by
  simp [touch, h, put]

/-- **C89 is violated: any registered token can take a module's address.** A registered token contract (with the default
parameters any contract can register itself, C29) calls `register_erc20_store` for the address of a module whose account
does not exist yet: an ordinary account is created there. No block list is consulted, and no permission of the module is
needed. From then on every payment to the module and every mint or burn by it panics, whatever happens later. -/
theorem C89_registry_violated (g : Cfg) (fc : Str) (n : Str) (mo : Module) (hn : g.modules n = some mo) (s : State)
    (hs : s.accts (bytesToAddress mo.addr) = none) (k : Addr) (hk : s.w.erc20s k = true) (ops : List Op)
    (hops : Op.destroy (bytesToAddress mo.addr) ∉ ops) :
    (run g fc [.registerStore k (bytesToAddress mo.addr)] s).accts (bytesToAddress mo.addr) = some (.plain false 0) ∧
    ∀ f coins, step g fc (.accountToModule f n coins)
      (run g fc ops (run g fc [.registerStore k (bytesToAddress mo.addr)] s)) = .panic := by
  have e : (run g fc [.registerStore k (bytesToAddress mo.addr)] s).accts (bytesToAddress mo.addr) =
      some (.plain false 0) := by
    simp only [run, step, registerStoreA, hk, if_true]
    exact touch_none hs
  exact ⟨e, (C89_lost g fc n mo hn ops _ _ e (by simp) hops).1⟩

theorem touch_some {m : Accts} {a b : Addr} {x : Acct} (h : m a = some x) : touch m b a = some x := by
  cases hb : m b with
  | some y => simp only [touch, hb]; exact h
  | none =>
    have c : a ≠ b := by rintro rfl; rw [h] at hb; cases hb
    simp only [touch, hb, put, if_neg c]; exact h

theorem callTokenA_some {c : Chain} {caller k a : Addr} {call : Call} {p p' : World × Accts} {x : Acct}
    (h : callTokenA c caller k call p = some p') (ha : p.2 a = some x) : p'.2 a = some x := by
  unfold callTokenA at h
  cases hc : callToken c p.1 caller k call with
  | none => rw [hc] at h; cases h
  | some w' =>
    rw [hc] at h
    cases ht : p.1.tokens k with
    | none => simp only [ht, Option.some.injEq] at h; subst h; exact ha
    | some t =>
      cases hr : regTarget call with
      | none => simp only [ht, hr, Option.some.injEq] at h; subst h; exact ha
      | some b =>
        simp only [ht, hr, Option.some.injEq] at h
        subst h
        by_cases hk : p.1.erc20s k = true ∧ k ∉ p.1.stores b
        · simp only [if_pos hk]; exact touch_some ha
        · simp only [if_neg hk]; exact ha

theorem sendLoop_some {c : Chain} {f r a : Addr} {x : Acct} : ∀ {coins : Bank.Coins} {p p' : World × Accts},
    sendLoop c f r coins p = some p' → p.2 a = some x → p'.2 a = some x := by
  intro coins
  induction coins with
  | nil => intro p p' h ha; cases h; exact ha
  | cons y rest ih =>
    intro p p' h ha
    obtain ⟨d, amt⟩ := y
    unfold sendLoop at h
    split at h
    · cases h
    · split at h
      · cases h
      · rename_i q hq; exact ih h (callTokenA_some hq ha)

theorem convert_long_none {m : Accts} {r : Bytes} (hl : r.length ≠ 20) (hn : m (bytesToAddress r) = none) :
    convert m r false = some (bytesToAddress r, m) := by
  simp [convert, hl, hn]

/-- **C89 is violated: a transfer takes a module's address.** An accepted `MsgSend` whose recipient is a longer address
ending in the module's 20 bytes (which the block list, keyed by whole addresses, does not contain), of a coin the module
does not hold yet, creates an ordinary account at the address of a module whose account does not exist yet; from then on
every payment to the module panics, whatever happens later. -/
theorem C89_send_violated (g : Cfg) (fc : Str) (n : Str) (mo : Module) (hn : g.modules n = some mo) (s s' : State)
    (hs : s.accts (bytesToAddress mo.addr) = none) (hrestr : g.restr = none) (m : MsgSend) (f r : Bytes)
    (hf : g.parseAddr m.from_ = some f) (hf20 : f.length = 20) (hr : g.parseAddr m.to = some r) (hl : r.length ≠ 20)
    (hra : bytesToAddress r = bytesToAddress mo.addr) (d : Str) (amt : Nat) (rest : Bank.Coins)
    (hm : natCoins m.amount = (d, amt) :: rest) (k : Addr) (hd : denomToContract s.w.maps d = some k)
    (hk : s.w.erc20s k = true) (ht : (s.w.tokens k).isSome = true) (hst : k ∉ s.w.stores (bytesToAddress r))
    (h : step g fc (.send m) s = .ok s') (ops : List Op) (hops : Op.destroy (bytesToAddress mo.addr) ∉ ops) :
    s'.accts (bytesToAddress mo.addr) = some (.plain false 0) ∧
    ∀ f coins, step g fc (.accountToModule f n coins) (run g fc ops s') = .panic := by
  have e : s'.accts (bytesToAddress mo.addr) = some (.plain false 0) := by
    rw [← hra] at hs ⊢
    replace h : msgSendA g m s = .ok s' := h
    unfold msgSendA at h
    simp only [hf, hr] at h
    repeat (split at h; · cases h)
    unfold bankSendA at h
    simp only [hrestr, Bank.apply] at h
    have hconv : convert s.accts f true = some (bytesToAddress f, s.accts) := by simp [convert, hf20]
    have hek : ekSendA g f r (natCoins m.amount) s =
        (sendLoop g.chain (bytesToAddress f) (bytesToAddress r) (natCoins m.amount) (s.w, s.accts)).map (withPair s) := by
      simp only [ekSendA, hconv, convert_long_none hl hs]
    rw [hek, hm] at h
    cases hlp : sendLoop g.chain (bytesToAddress f) (bytesToAddress r) ((d, amt) :: rest) (s.w, s.accts) with
    | none => rw [hlp] at h; cases h
    | some p =>
      rw [hlp] at h
      have hp : p.2 (bytesToAddress r) = some (.plain false 0) := by
        unfold sendLoop at hlp
        simp only [hd] at hlp
        split at hlp
        · cases hlp
        · rename_i q hq
          refine sendLoop_some hlp ?_
          unfold callTokenA at hq
          obtain ⟨t, ht⟩ := Option.isSome_iff_exists.mp ht
          split at hq
          · cases hq
          · simp only [ht, regTarget, hk, hst, not_false_eq_true, and_self, if_true, Option.some.injEq] at hq
            rw [← hq]
            exact touch_none hs
      simp only [Option.map_some] at h
      split at h
      · cases h; exact hp
      · cases h
        simp only [createAccount, if_neg hl]
        exact hp
  exact ⟨e, (C89_lost g fc n mo hn ops _ _ e (by simp) hops).1⟩

/-- The hypotheses of `C89_send_violated` are met by the toy chain: alice sends 30 uinit to the 32-byte address that ends
in the bytes of the blocked module "fee". -/
example : (Props.Bank.Res.toOption (step Props.Bank.toyCfg "fee".toList (.send ⟨"alice".toList, "long".toList, [(Ledger.uinit, 30)]⟩)
      Props.Bank.toyState)).map (fun s => s.accts (Addr.ofNat 200)) = some (some (Acct.plain false 0)) ∧
    bytesToAddress Props.Bank.longFee = Addr.ofNat 200 ∧ Props.Bank.longFee.length = 32 ∧
    Props.Bank.toyCfg.blockedAddrs Props.Bank.feeB = true ∧ Props.Bank.toyState.accts (Addr.ofNat 200) = none := by
  decide +kernel

/-- While a first payment by the keeper creates the module's account, which then stays. -/
example : (Props.Bank.Res.toOption (step Props.Bank.toyCfg "fee".toList (.accountToModule Props.Bank.aliceB "fee".toList [(Ledger.uinit, 30)])
      Props.Bank.toyState)).map (fun s => s.accts (Addr.ofNat 200)) = some (some Acct.module) ∧
    (Props.Bank.Res.toOption (step Props.Bank.toyCfg "fee".toList (.accountToModule Props.Bank.aliceB "fee".toList [(Ledger.uinit, 30)])
      (run Props.Bank.toyCfg "fee".toList [.registerStore (Addr.ofNat 50) (Addr.ofNat 200)] Props.Bank.toyState))).isNone = true ∧
    (Props.Bank.Res.toOption (step Props.Bank.toyCfg "fee".toList (.accountToModule Props.Bank.aliceB "fee".toList [(Ledger.uinit, 30)])
      (run Props.Bank.toyCfg "fee".toList [.registerStore (Addr.ofNat 50) (Addr.ofNat 201)] Props.Bank.toyState))).isSome = true := by
  decide +kernel

/-! ### The ledger is that of C44 -/

theorem callTokenA_fst (c : Chain) (caller k : Addr) (call : Call) (p : World × Accts) :
    (callTokenA c caller k call p).map Prod.fst = callToken c p.1 caller k call := by
  unfold callTokenA
  split <;> simp_all

theorem sendLoop_fst (c : Chain) (f r : Addr) : ∀ (coins : Bank.Coins) (p : World × Accts),
    (sendLoop c f r coins p).map Prod.fst = sendCoins c f r coins p.1 := by
  intro coins
  induction coins with
  | nil => intro p; rfl
  | cons x rest ih =>
    intro p
    obtain ⟨d, amt⟩ := x
    unfold sendLoop sendCoins
    cases denomToContract p.1.maps d with
    | none => rfl
    | some a =>
      have e := callTokenA_fst c c.chainAddr a (.sudoTransfer f r amt) p
      cases hq : callTokenA c c.chainAddr a (.sudoTransfer f r amt) p with
      | none => rw [hq] at e; simp only [Option.map_none] at e; simp only [← e, hq, Option.map_none]
      | some q => rw [hq] at e; simp only [Option.map_some] at e; simp only [← e, hq]; exact ih q

/-- What `msgSendA` does to the ledger and to the addresses of other lengths is what `Bank.msgSend` (C44) does. -/
theorem C89_refines (g : Cfg) (hg : g.restr = none) (m : MsgSend) (s : State) :
    match msgSendA g m s, msgSend g m s with
    | .ok a, .ok b => a.w = b.w ∧ a.long = b.long
    | .err, .err => True
    | _, _ => False := by
  unfold msgSendA msgSend
  cases g.parseAddr m.from_ with
  | none => trivial
  | some f =>
    cases g.parseAddr m.to with
    | none => trivial
    | some r =>
      simp only
      by_cases h1 : (!coinsValid g m.amount) = true
      · simp only [if_pos h1]
      simp only [if_neg h1]
      by_cases h2 : (!allPositive m.amount) = true
      · simp only [if_pos h2]
      simp only [if_neg h2]
      by_cases h3 : (!isSendEnabledCoins s m.amount) = true
      · simp only [if_pos h3]
      simp only [if_neg h3]
      by_cases h4 : g.blockedAddrs r = true
      · simp only [if_pos h4]
      simp only [if_neg h4]
      unfold bankSendA sendCoinsB
      simp only [hg, Bank.apply]
      unfold ekSendA ekSend
      cases convert s.accts f true with
      | none => trivial
      | some q1 =>
        obtain ⟨ef, m1⟩ := q1
        simp only
        cases convert m1 r false with
        | none => trivial
        | some q2 =>
          obtain ⟨er, m2⟩ := q2
          simp only
          have e := sendLoop_fst g.chain ef er (natCoins m.amount) (s.w, m2)
          cases hq : sendLoop g.chain ef er (natCoins m.amount) (s.w, m2) with
          | none =>
            rw [hq] at e; simp only [Option.map_none] at e
            simp only [← e, Option.map_none]
          | some p =>
            rw [hq] at e; simp only [Option.map_some] at e
            simp only [← e, Option.map_some]
            by_cases hl : r.length = 20
            · simp only [hasAccount, createAccount, if_pos hl, withPair]
              cases (p.2 (bytesToAddress r)).isSome <;> cases (m2 (bytesToAddress r)).isSome <;>
                exact ⟨rfl, rfl⟩
            · simp only [hasAccount, createAccount, if_neg hl, withPair]
              cases s.long r <;> simp

end Verif.Props.ModuleAcct
