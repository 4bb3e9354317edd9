import Verif.Spec.Safe
import Verif.Props.Books
import Verif.Props.Identity
/-
C98: nobody else can take your money.
-/
namespace Verif.Props.Safe
open Verif Verif.Text Verif.Denom Verif.Tokens Verif.Identity Verif.Bank Verif.Books
open Verif.Spec.Tokens Verif.Spec.Ledger Verif.Spec.Value Verif.Spec.Books Verif.Spec.Safe
open Verif.Props.Tokens Verif.Props.Ledger Verif.Props.Registry Verif.Props.Value Verif.Props.Bank Verif.Props.Books

/-! ### Who acts -/

/-- Only the holder's own addresses convert to his EVM address. -/
theorem convert_mine {A f : Bytes} {x : Addr} {m m' : Accts} {sgn : Bool} (hh : Holder A x m)
    (h : convert m f sgn = some (x, m')) : mine A x f = true := by
  unfold mine
  by_cases hl : f.length = 20
  · simp only [convert, if_pos hl, Option.some.injEq, Prod.mk.injEq] at h
    have e : f = x.bytes := by
      rw [← h.1]; simp [bytesToAddress, fitBytes_eq 20 f hl]
    simp [e]
  · obtain ⟨acc, hm, hc⟩ := hh
    simp only [convert, if_neg hl] at h
    by_cases hx : bytesToAddress f = x
    case neg =>
      exfalso
      split at h
      · cases sgn <;> simp at h <;> exact hx h.1
      · split at h
        · cases sgn <;> simp at h <;> exact hx h.1
        · split at h
          · split at h
            · simp at h; exact hx h.1
            · cases h
          · cases h
    rw [hx, hm] at h
    simp only at h
    rcases hc with ⟨n, _, rfl⟩ | ⟨_, he, hs⟩
    · simp only [isEmpty, Bool.false_eq_true, if_false] at h
      by_cases ho : A = f
      · simp [ho]
      · simp [ho] at h
    · simp only [he, Bool.false_eq_true, if_false] at h
      cases acc with
      | shorthand o n => exact absurd rfl (hs o n)
      | plain pk n => cases h
      | module => cases h
      | contract => cases h

/-- Conversions leave the holder's account alone. -/
theorem convert_holder {A f : Bytes} {x a : Addr} {m m' : Accts} {sgn : Bool} (hh : Holder A x m)
    (h : convert m f sgn = some (a, m')) : Holder A x m' := by
  obtain ⟨acc, hm, hc⟩ := hh
  refine ⟨acc, ?_, hc⟩
  by_cases hb : m' x = m x
  · rw [hb, hm]
  · obtain ⟨_, _, _, h4, _⟩ := Identity.C30_frame m m' f a x sgn h hb
    rw [hm] at h4
    rcases h4 with h4 | h4
    · cases h4
    · cases h4
      rcases hc with ⟨n, _, h⟩ | ⟨_, he, _⟩
      · cases h
      · simp [isEmpty] at he

theorem create_holder {A r : Bytes} {x : Addr} {s : State} (hh : Holder A x s.accts) (hr : hasAccount s r = false) :
    Holder A x (createAccount s r).accts := by
  unfold createAccount
  split
  · rename_i hl
    obtain ⟨acc, hm, hc⟩ := hh
    refine ⟨acc, ?_, hc⟩
    have hne : ¬ x = bytesToAddress r := by
      intro e
      simp only [hasAccount, hl, if_true] at hr
      rw [← e, hm] at hr
      cases hr
    simp only [put, hne, if_false]
    exact hm
  · exact hh

/-! ### What acts take -/

theorem listed_mono {m m' : Maps} (h : Extends m m') (coins : Spec.Ledger.Coins) (k : Addr) :
    listed m coins k ≤ listed m' coins k := by
  induction coins with
  | nil => exact Nat.le_refl _
  | cons y ys ih =>
    obtain ⟨d, n⟩ := y
    rw [listed_cons, listed_cons]
    have : (if denomToContract m d = some k then n else 0) ≤ (if denomToContract m' d = some k then n else 0) := by
      by_cases hd : denomToContract m d = some k
      · have hd' : denomToContract m' d = some k := by
          unfold denomToContract at hd ⊢
          split
          · rename_i he; rw [if_pos he] at hd; exact hd
          · rename_i he; rw [if_neg he] at hd; exact h d k hd
        rw [if_pos hd, if_pos hd']
        exact Nat.le_refl _
      · rw [if_neg hd]; exact Nat.zero_le _
    omega

/-- Nothing of `x` is lost but what is listed under `coins`, and approvals stay away. -/
structure Keeps (ch x : Addr) (coins : Spec.Ledger.Coins) (w w' : World) : Prop where
  maps : Extends w.maps w'.maps
  allow : ApprovedNobody ch x w → ApprovedNobody ch x w'
  bal : ApprovedNobody ch x w → ∀ k, balanceOf w k x ≤ balanceOf w' k x + listed w'.maps coins k

theorem Keeps.refl (ch x : Addr) (w : World) : Keeps ch x [] w w :=
  ⟨fun _ _ h => h, fun h => h, fun _ _ => Nat.le_refl _⟩

/-- One forced transfer. -/
theorem force_keeps {c : Chain} {w w' : World} {a f r ch x : Addr} {n : Nat}
    (h : callToken c w c.chainAddr a (.sudoTransfer f r n) = some w') :
    w'.maps = w.maps ∧ (ApprovedNobody ch x w → ApprovedNobody ch x w') ∧
    ∀ k, balanceOf w k x ≤ balanceOf w' k x + (if k = a ∧ x = f then n else 0) := by
  obtain ⟨e1, _, _, e4, h5⟩ := callToken_spec h
  rcases h5 with ⟨_, rfl⟩ | ⟨s, t, t', h1, h2, h3⟩
  · exact ⟨rfl, fun h => h, fun _ => Nat.le_add_right _ _⟩
  · simp only [exec] at h2
    split at h2
    · cases h2
    · obtain ⟨_, _, g3, _, g5, _⟩ := doTransfer_spec h2
      refine ⟨e1, ?_, ?_⟩
      · intro ha j s1 t1 hj y hy
        by_cases hk : j = a
        · subst hk; rw [h3] at hj; cases hj; rw [g3]; exact ha j s t h1 y hy
        · rw [e4 j hk] at hj; exact ha j s1 t1 hj y hy
      · intro k
        by_cases hk : k = a
        · subst hk
          simp only [balanceOf, h1, h3, true_and]
          have := g5 x
          omega
        · simp [balanceOf, e4 k hk]

theorem send_keeps {c : Chain} {f r ch x : Addr} (coins : Bank.Coins) : ∀ {w w' : World},
    sendCoins c f r coins w = some w' → Keeps ch x (if x = f then coins else []) w w' := by
  have key : ∀ (w w' : World), sendCoins c f r coins w = some w' →
      w'.maps = w.maps ∧ (ApprovedNobody ch x w → ApprovedNobody ch x w') ∧
      ∀ k, balanceOf w k x ≤ balanceOf w' k x + (if x = f then listed w.maps coins k else 0) := by
    induction coins with
    | nil => intro w w' h; cases h; exact ⟨rfl, fun h => h, fun _ => Nat.le_add_right _ _⟩
    | cons y rest ih =>
      obtain ⟨d, n⟩ := y
      intro w w' h
      simp only [sendCoins] at h
      split at h
      · cases h
      · rename_i a ha
        split at h
        · cases h
        · rename_i w1 h1
          obtain ⟨a1, a2, a3⟩ := force_keeps (ch := ch) (x := x) h1
          obtain ⟨b1, b2, b3⟩ := ih w1 w' h
          refine ⟨b1.trans a1, fun h => b2 (a2 h), fun k => ?_⟩
          have h1 := a3 k
          have h2 := b3 k
          rw [a1] at h2
          rw [listed_cons, ha]
          simp only [Option.some.injEq]
          by_cases hxf : x = f
          · simp only [hxf, and_true, if_true] at h1 h2 ⊢
            by_cases hk : k = a
            · subst hk; simp only [if_true] at h1 ⊢; omega
            · have hk' : ¬ a = k := fun e => hk e.symm
              simp only [hk, hk', if_false] at h1 ⊢; omega
          · simp only [hxf, and_false, if_false] at h1 h2 ⊢; omega
  intro w w' h
  obtain ⟨a1, a2, a3⟩ := key w w' h
  refine ⟨fun d k hd => by rw [a1]; exact hd, a2, fun _ k => ?_⟩
  have := a3 k
  rw [a1]
  by_cases hxf : x = f
  · simp only [hxf, if_true] at this ⊢; exact this
  · simp only [hxf, if_false] at this ⊢; rw [listed_nil]; exact this

theorem burn_keeps {c : Chain} {p : Tokens.Params} {f ch x : Addr} (hx : x ≠ f) (all : Bank.Coins) : ∀ (coins : Bank.Coins) {w w' : World},
    burnCoins c p f all coins w = some w' → Keeps ch x [] w w' := by
  intro coins
  induction coins with
  | nil => intro w w' h; cases h; exact Keeps.refl ch x _
  | cons y rest ih =>
    obtain ⟨d, n⟩ := y
    intro w w' h
    simp only [burnCoins] at h
    split at h
    · split at h
      · cases h
      · rename_i w1 h1
        have k1 := send_keeps (ch := ch) (x := x) all h1
        rw [if_neg hx] at k1
        have k2 := ih h
        refine ⟨fun d k hd => k2.maps d k (k1.maps d k hd), fun h => k2.allow (k1.allow h), fun h k => ?_⟩
        have := k1.bal h k
        have := k2.bal (k1.allow h) k
        simp only [listed_nil] at *
        omega
    · split at h
      · cases h
      · rename_i a ha
        split at h
        · cases h
        · rename_i w1 h1
          have k1 : Keeps ch x [] w w1 := by
            obtain ⟨e1, _, _, e4, h5⟩ := callToken_spec h1
            rcases h5 with ⟨_, rfl⟩ | ⟨s, t, t', p1, p2, p3⟩
            · exact Keeps.refl ch x _
            · simp only [exec] at p2
              split at p2
              · cases p2
              · obtain ⟨_, _, _, g4, _, g6⟩ := doBurn_spec p2
                refine ⟨fun d k hd => by rw [e1]; exact hd, ?_, ?_⟩
                · intro hap j s1 t1 hj y hy
                  by_cases hk : j = a
                  · subst hk; rw [p3] at hj; cases hj; rw [g4]; exact hap j s t p1 y hy
                  · rw [e4 j hk] at hj; exact hap j s1 t1 hj y hy
                · intro _ k
                  by_cases hk : k = a
                  · subst hk
                    simp [balanceOf, p1, p3, g6, setB, hx]
                  · simp [balanceOf, e4 k hk]
          have k2 := ih h
          refine ⟨fun d k hd => k2.maps d k (k1.maps d k hd), fun h => k2.allow (k1.allow h), fun h k => ?_⟩
          have := k1.bal h k
          have := k2.bal (k1.allow h) k
          simp only [listed_nil] at *
          omega

/-- A new contract on a free address. -/
theorem fresh_keeps {w : World} {ch x a o : Addr} {b : Bool} {e : Addr → Bool} {n : Nat} {m : Maps}
    (hm : Extends w.maps m) (hf : w.tokens a = none) :
    Keeps ch x [] w { w with
      maps := m, erc20s := e, factoryNonce := n
      tokens := fun x => if x = a then some (b, Token.fresh o) else w.tokens x } := by
  refine ⟨hm, ?_, ?_⟩
  · intro ha j s1 t1 hj y hy
    simp only at hj
    split at hj
    · cases hj; rfl
    · exact ha j s1 t1 hj y hy
  · intro _ k
    simp only [balanceOf, listed_nil, Nat.add_zero]
    by_cases hk : k = a
    · subst hk; rw [hf]; exact Nat.zero_le _
    · simp [hk]

theorem mint_keeps {g : Cfg} (hp : NoCollision g.tp) {r ch x : Addr} {coins : Bank.Coins} : ∀ {w w' : World}, Inv g w →
    w.factoryNonce + coins.length < 2 ^ 64 → mintCoins g.chain g.tp r coins w = some w' → Keeps ch x [] w w' := by
  induction coins with
  | nil => intro w w' _ _ h; cases h; exact Keeps.refl ch x _
  | cons y rest ih =>
    obtain ⟨d, n⟩ := y
    intro w w' hw hl h
    rw [mintCoins_cons] at h
    simp only [List.length_cons] at hl
    split at h
    · cases h
    · rename_i hne
      have hne' : isERC20Denom d = false := by simpa using hne
      obtain ⟨v1, v2, ⟨a0, v3⟩, _, _, _, _, v8⟩ := ensure_spec g.chain g.tp hp w hw.con (by omega) d
      obtain ⟨i1, _⟩ := ensure_inv hp hw (by omega) d
      have k0 : Keeps ch x [] w (ensure g.chain g.tp w d) := by
        have hf := hw.con.fresh w.factoryNonce (Nat.le_refl _) (by omega)
        revert v2
        unfold ensure
        split
        · intro _; exact Keeps.refl ch x _
        · intro v2; exact fresh_keeps v2 hf
      generalize ensure g.chain g.tp w d = w1 at *
      have hda : denomToContract w1.maps d = w1.maps.toAddr d := by simp [denomToContract, hne']
      rw [hda, v3] at h
      simp only at h
      split at h
      · cases h
      · rename_i w2 h2
        obtain ⟨e1, _, e3, e4, _, e6, _, e7⟩ := sudoMint_step h2 (v1.denoms d a0 v3)
        have hal : ∀ k s1 t1, w2.tokens k = some (s1, t1) → ∃ s t, w1.tokens k = some (s, t) ∧ t1.allow = t.allow := by
          intro k s1 t1 hk
          have := e6 k
          unfold grants at this
          rw [hk] at this
          cases h1 : w1.tokens k with
          | none => rw [h1] at this; cases this
          | some p =>
            rw [h1] at this
            simp only [Option.map_some, Option.some.injEq, Prod.mk.injEq] at this
            exact ⟨p.1, p.2, rfl, this.2.1⟩
        have hso : SameOwners w1 w2 := by
          intro k
          have := e6 k
          unfold grants at this
          cases h1 : w1.tokens k with
          | none =>
            rw [h1] at this
            cases h2 : w2.tokens k with
            | none => rfl
            | some p => rw [h2] at this; cases this
          | some p =>
            rw [h1] at this
            cases h2 : w2.tokens k with
            | none => rw [h2] at this; cases this
            | some q =>
              rw [h2] at this
              simp only [Option.map_some, Option.some.injEq, Prod.mk.injEq] at this ⊢
              exact ⟨this.1, this.2.2⟩
        have k1 : Keeps ch x [] w1 w2 := by
          refine ⟨fun d k hd => by rw [e1]; exact hd, ?_, ?_⟩
          · intro ha j s1 t1 hj y hy
            obtain ⟨s, t, ht, he⟩ := hal j s1 t1 hj
            rw [he]; exact ha j s t ht y hy
          · intro _ k
            rw [e7]; omega
        have hi := inv_same i1 e1 e3 e4 (fun _ k _ => hso k)
        have k2 := ih hi (by rw [e3, v8]; split <;> omega) h
        refine ⟨fun d k hd => k2.maps d k (k1.maps d k (k0.maps d k hd)), fun h => k2.allow (k1.allow (k0.allow h)), fun h k => ?_⟩
        have := k0.bal h k
        have := k1.bal (k0.allow h) k
        have := k2.bal (k1.allow (k0.allow h)) k
        simp only [listed_nil] at *
        omega

theorem message_keeps {c : Chain} {fee x : Addr} {p : Value.Prog} {l : List Addr} {w w' : World}
    (hp : CallersIn (fun a => a ≠ x ∧ a ≠ c.chainAddr) p) (hl : x ∉ l) (h : Value.message c fee p l w = some w') :
    Keeps c.chainAddr x [] w w' := by
  have key := fun ha => message_safe c fee (fun a => a ≠ x ∧ a ≠ c.chainAddr) x p l w w' (fun h => h.1 rfl)
    (fun h => h.2 rfl) hp hl ha h
  refine ⟨fun d k hd => ?_, fun h => (key h).1, fun h k => (key h).2 k⟩
  rw [(message_frame _ _ _ _ _ _ h).1]; exact hd

/-! ### One act -/

theorem eksend_keeps {g : Cfg} {A f r : Bytes} {x : Addr} {coins : Bank.Coins} {s s' : State} (hh : Holder A x s.accts)
    (h : ekSend g f r coins s = some s') :
    Holder A x s'.accts ∧ Keeps g.chain.chainAddr x (if mine A x f then coins else []) s.w s'.w := by
  obtain ⟨ef, er, m1, h1, h2, h3, _⟩ := ekSend_spec h
  refine ⟨convert_holder (convert_holder hh h1) h2, ?_⟩
  have k := send_keeps (ch := g.chain.chainAddr) (x := x) coins h3
  by_cases hx : x = ef
  · subst hx
    rw [if_pos (convert_mine hh h1)]
    rw [if_pos rfl] at k
    exact k
  · rw [if_neg hx] at k
    refine ⟨k.maps, k.allow, fun ha j => Nat.le_trans (k.bal ha j) ?_⟩
    rw [listed_nil]; exact Nat.le_add_right _ _

theorem bsend_keeps {g : Cfg} {A f r : Bytes} {x : Addr} {coins : Bank.Coins} {s s' : State} (hh : Holder A x s.accts)
    (h : sendCoinsB g f r coins s = .ok s') :
    Holder A x s'.accts ∧ Keeps g.chain.chainAddr x (if mine A x f then coins else []) s.w s'.w := by
  unfold sendCoinsB at h
  split at h
  · cases h
  · split at h
    · cases h
    · rename_i s1 h1
      obtain ⟨a, b⟩ := eksend_keeps hh h1
      generalize hg : hasAccount s1 _ = t at h
      cases t with
      | true => cases h; exact ⟨a, b⟩
      | false =>
        cases h
        refine ⟨create_holder a hg, ?_⟩
        have : ∀ r, (createAccount s1 r).w = s1.w := by intro r; unfold createAccount; split <;> rfl
        rw [this]; exact b

theorem ekmint_keeps {g : Cfg} (hp : NoCollision g.tp) {A r : Bytes} {x : Addr} {coins : Bank.Coins} {s s' : State}
    (hh : Holder A x s.accts) (hw : Inv g s.w) (hl : s.w.factoryNonce + coins.length < 2 ^ 64)
    (h : ekMint g r coins s = some s') : Holder A x s'.accts ∧ Keeps g.chain.chainAddr x [] s.w s'.w := by
  unfold ekMint at h
  split at h
  · cases h
  · rename_i er m1 hc
    split at h
    · cases h
    · rename_i w' hw'
      cases h
      exact ⟨convert_holder hh hc, mint_keeps hp hw hl hw'⟩

theorem act_keeps {g : Cfg} (hp : NoCollision g.tp) {A : Bytes} {x : Addr} {a : Act} {s s' : State}
    (hh : Holder A x s.accts) (hw : Inv g s.w) (hl : s.w.factoryNonce + creations a < 2 ^ 64) (ha : Foreign g A x a)
    (h : doAct g a s = .ok s') :
    Holder A x s'.accts ∧ Keeps g.chain.chainAddr x (takes g A x a) s.w s'.w := by
  have modu : ∀ {m : Str} {mo : Module}, g.modules m = some mo → moduleIs g A x m = mine A x mo.addr := by
    intro m mo h; unfold moduleIs; rw [h]
  cases a with
  | genesis r coins =>
    simp only [doAct] at h
    cases hm : ekMint g r coins s with
    | none => rw [hm] at h; cases h
    | some s1 => rw [hm] at h; cases h; exact ekmint_keeps hp hh hw hl hm
  | send m =>
    simp only [doAct, msgSend] at h
    split at h
    · cases h
    · rename_i f hf
      split at h
      · cases h
      · split at h
        · cases h
        · split at h
          · cases h
          · split at h
            · cases h
            · split at h
              · cases h
              · simp only [takes, hf, Option.any_some]
                exact bsend_keeps hh h
  | fromModule m r coins =>
    simp only [doAct, moduleToAccount] at h
    split at h
    · cases h
    · rename_i mo hm
      split at h
      · cases h
      · simp only [takes, modu hm]; exact bsend_keeps hh h
  | betweenModules m m' coins =>
    simp only [doAct, moduleToModule] at h
    split at h
    · cases h
    · rename_i mo hm
      split at h
      · cases h
      · simp only [takes, modu hm]; exact bsend_keeps hh h
  | toModule f m coins =>
    simp only [doAct, accountToModule] at h
    split at h
    · cases h
    · exact bsend_keeps hh h
  | delegate f m coins =>
    simp only [doAct, delegateToModule, delegateCoins] at h
    split at h
    · cases h
    · split at h
      · cases h
      · split at h
        · cases h
        · split at h
          · cases h
          · split at h
            · cases h
            · rename_i s1 h1
              cases h
              exact eksend_keeps hh h1
  | pay f r coins =>
    simp only [doAct] at h
    split at h
    · cases h
    · rename_i s1 h1
      cases h
      exact eksend_keeps hh h1
  | undelegate m r coins =>
    simp only [doAct, undelegateFromModule, undelegateCoins] at h
    split at h
    · cases h
    · rename_i mo hm
      split at h
      · cases h
      · split at h
        · cases h
        · split at h
          · cases h
          · split at h
            · cases h
            · rename_i s1 h1
              cases h
              simp only [takes, modu hm]
              exact eksend_keeps hh h1
  | mint m coins =>
    simp only [doAct, bankMint] at h
    split at h
    · cases h
    · split at h
      · cases h
      · split at h
        · cases h
        · split at h
          · cases h
          · split at h
            · cases h
            · rename_i s1 h1
              cases h
              exact ekmint_keeps hp hh hw hl h1
  | burn m coins =>
    simp only [doAct, bankBurn] at h
    split at h
    · cases h
    · rename_i mo hm
      split at h
      · cases h
      · split at h
        · cases h
        · rename_i s1 h1
          cases h
          unfold ekBurn at h1
          split at h1
          · cases h1
          · rename_i ef m1 hc
            split at h1
            · cases h1
            · rename_i w' hw'
              cases h1
              refine ⟨convert_holder hh hc, burn_keeps ?_ _ _ hw'⟩
              intro e
              subst e
              have h1 := convert_mine hh hc
              have h2 : moduleIs g A x m = false := ha
              rw [modu hm, h1] at h2
              cases h2
  | evm fee p l =>
    simp only [doAct] at h
    cases hm : Value.message g.chain fee p l s.w with
    | none => rw [hm] at h; cases h
    | some w' => rw [hm] at h; cases h; exact ⟨hh, message_keeps ha.1 ha.2 hm⟩
  | create caller =>
    simp only [doAct] at h
    split at h
    · cases h
    · rename_i hf
      cases h
      exact ⟨hh, fresh_keeps (fun _ _ h => h) (by simpa using hf)⟩
  | deploy a owner sudo =>
    simp only [doAct] at h
    split at h
    · cases h
    · rename_i hf
      cases h
      exact ⟨hh, fresh_keeps (fun _ _ h => h) (by simpa using hf)⟩
  | register p k =>
    simp only [doAct] at h
    cases hm : Tokens.register p s.w k with
    | none => rw [hm] at h; cases h
    | some w' =>
      rw [hm] at h; cases h
      refine ⟨hh, ?_⟩
      obtain ⟨_, ⟨_, rfl⟩ | ⟨_, _, rfl⟩⟩ := register_form hm
      · exact Keeps.refl _ _ _
      · exact ⟨fun _ _ h => h, fun h => h, fun _ _ => Nat.le_refl _⟩
  | setSendEnabled au en ud =>
    simp only [doAct, msgSetSendEnabled] at h
    have e1 : ∀ (l : List (Str × Bool)) (u : State), (setAllEnabled l u).w = u.w ∧ (setAllEnabled l u).accts = u.accts := by
      intro l
      induction l with
      | nil => intro u; exact ⟨rfl, rfl⟩
      | cons x xs ih => obtain ⟨d, v⟩ := x; intro u; simp only [setAllEnabled]; exact ih _
    have e2 : ∀ (l : List Str) (u : State), (deleteEnabled l u).w = u.w ∧ (deleteEnabled l u).accts = u.accts := by
      intro l
      induction l with
      | nil => intro u; exact ⟨rfl, rfl⟩
      | cons x xs ih => intro u; simp only [deleteEnabled]; exact ih _
    split at h
    · cases h
    · split at h
      · cases h
      · split at h
        · cases h
        · split at h
          · cases h
          · cases h
            rw [(e2 _ _).2, (e1 _ _).2, (e2 _ _).1, (e1 _ _).1]
            exact ⟨hh, Keeps.refl _ _ _⟩
  | updateParams au p =>
    simp only [doAct, msgUpdateParams] at h
    have e1 : ∀ (l : List (Str × Bool)) (u : State), (setAllEnabled l u).w = u.w ∧ (setAllEnabled l u).accts = u.accts := by
      intro l
      induction l with
      | nil => intro u; exact ⟨rfl, rfl⟩
      | cons x xs ih => obtain ⟨d, v⟩ := x; intro u; simp only [setAllEnabled]; exact ih _
    split at h
    · cases h
    · split at h
      · cases h
      · cases h
        simp only [setParams]
        rw [(e1 _ _).2, (e1 _ _).1]
        exact ⟨hh, Keeps.refl _ _ _⟩
  | setMetadata valid au md =>
    simp only [doAct, msgSetMetadata] at h
    split at h
    · cases h
    · split at h
      · cases h
      · cases h
        exact ⟨hh, Keeps.refl _ _ _⟩

/-! ### Histories -/

theorem listed_append (m : Maps) (a b : Spec.Ledger.Coins) (k : Addr) :
    listed m (a ++ b) k = listed m a k + listed m b k := by
  simp [listed]

theorem keeps_trans {ch x : Addr} {u v w : World} {a b : Spec.Ledger.Coins} (h1 : Keeps ch x a u v) (h2 : Keeps ch x b v w) :
    Keeps ch x (a ++ b) u w := by
  refine ⟨fun d k hd => h2.maps d k (h1.maps d k hd), fun h => h2.allow (h1.allow h), fun h k => ?_⟩
  have p1 := h1.bal h k
  have p2 := h2.bal (h1.allow h) k
  have p3 := listed_mono h2.maps a k
  rw [listed_append]
  omega

theorem foreign_possible {g : Cfg} {A : Bytes} {x : Addr} {a : Act} (h : Foreign g A x a) : Possible g a := by
  cases a with
  | evm fee p l =>
    have : ∀ p : Value.Prog, CallersIn (fun a => a ≠ x ∧ a ≠ g.chain.chainAddr) p → CallersIn (· ≠ g.chain.chainAddr) p := by
      intro p
      induction p with
      | done => exact fun _ => trivial
      | token c k cl r ih => exact fun h => ⟨h.1.2, ih h.2⟩
      | call a b v body ok r ihb ihr => exact fun h => ⟨h.1.2, ihb h.2.1, ihr h.2.2⟩
      | destruct s b c r ih => exact fun h => ⟨h.1.2, ih h.2⟩
    exact this p h.1
  | burn m coins => exact trivial
  | _ => exact h

theorem tx_keeps {g : Cfg} (hp : NoCollision g.tp) {A : Bytes} {x : Addr} : ∀ (tx : List Act) (s s' : State),
    Holder A x s.accts → Inv g s.w → s.w.factoryNonce + (tx.map creations).sum < 2 ^ 64 →
    (∀ a ∈ tx, Foreign g A x a) → doTx g tx s = some s' →
    Holder A x s'.accts ∧ Keeps g.chain.chainAddr x (tx.flatMap (takes g A x)) s.w s'.w := by
  intro tx
  induction tx with
  | nil => intro s s' hh _ _ _ h; cases h; exact ⟨hh, Keeps.refl _ _ _⟩
  | cons a rest ih =>
    intro s s' hh hw hl ha h
    simp only [List.map_cons, List.sum_cons] at hl
    simp only [doTx] at h
    have ha0 := ha a (List.mem_cons_self ..)
    cases hd : doAct g a s with
    | err => rw [hd] at h; cases h
    | panic => rw [hd] at h; cases h
    | ok s1 =>
      rw [hd] at h
      obtain ⟨a1, a2⟩ := act_keeps hp hh hw (by omega) ha0 hd
      obtain ⟨b1, b2, _⟩ := act_step hp hw (by omega) (foreign_possible ha0) (act_eff g a s s1 hd)
      obtain ⟨c1, c2⟩ := ih s1 s' a1 b1 (by omega) (fun y hy => ha y (List.mem_cons_of_mem _ hy)) h
      exact ⟨c1, by rw [List.flatMap_cons]; exact keeps_trans a2 c2⟩

theorem history_keeps {g : Cfg} (hp : NoCollision g.tp) {A : Bytes} {x : Addr} : ∀ (txs : List (List Act)) (s : State),
    Holder A x s.accts → Inv g s.w → s.w.factoryNonce + allCreations txs < 2 ^ 64 →
    (∀ tx ∈ txs, ∀ a ∈ tx, Foreign g A x a) →
    Holder A x (history g txs s).accts ∧
    Keeps g.chain.chainAddr x ((accepted g txs s).flatMap (takes g A x)) s.w (history g txs s).w := by
  intro txs
  induction txs with
  | nil => intro s hh _ _ _; exact ⟨hh, Keeps.refl _ _ _⟩
  | cons tx rest ih =>
    intro s hh hw hl ha
    simp only [allCreations, List.flatten_cons, List.map_append, List.sum_append] at hl
    simp only [history, accepted]
    have har : ∀ tx ∈ rest, ∀ a ∈ tx, Foreign g A x a := fun t ht => ha t (List.mem_cons_of_mem _ ht)
    have ha0 := ha tx (List.mem_cons_self ..)
    cases hd : doTx g tx s with
    | none =>
      simp only [Option.getD_none]
      exact ih s hh hw (by simp only [allCreations]; omega) har
    | some s1 =>
      simp only [Option.getD_some]
      obtain ⟨a1, a2⟩ := tx_keeps hp tx s s1 hh hw (by omega) ha0 hd
      obtain ⟨b1, b2, _⟩ := tx_step hp tx s s1 hw (by omega) (fun a h => foreign_possible (ha0 a h)) hd
      obtain ⟨c1, c2⟩ := ih s1 a1 b1 (by simp only [allCreations]; omega) har
      exact ⟨c1, by rw [List.flatMap_append]; exact keeps_trans a2 c2⟩

theorem history_nonce {g : Cfg} (hp : NoCollision g.tp) : ∀ (txs : List (List Act)) (s : State), Inv g s.w →
    s.w.factoryNonce + allCreations txs < 2 ^ 64 → (∀ tx ∈ txs, ∀ a ∈ tx, Possible g a) →
    (history g txs s).w.factoryNonce ≤ s.w.factoryNonce + allCreations txs := by
  intro txs
  induction txs with
  | nil => intro s _ _ _; exact Nat.le_add_right _ _
  | cons tx rest ih =>
    intro s hw hl ha
    simp only [allCreations, List.flatten_cons, List.map_append, List.sum_append] at hl ⊢
    simp only [history]
    have har : ∀ tx ∈ rest, ∀ a ∈ tx, Possible g a := fun t ht => ha t (List.mem_cons_of_mem _ ht)
    cases hd : doTx g tx s with
    | none =>
      simp only [Option.getD_none]
      have := ih s hw (by simp only [allCreations]; omega) har
      simp only [allCreations] at this
      omega
    | some s1 =>
      simp only [Option.getD_some]
      obtain ⟨a1, a2, _⟩ := tx_step hp tx s s1 hw (by omega) (ha tx (List.mem_cons_self ..)) hd
      have := ih s1 a1 (by simp only [allCreations]; omega) har
      simp only [allCreations] at this
      omega

/-! ### C98 -/

/-- **C98 (nobody else can take your money).** Take any history `past` of the chain and a holder in it who has approved
nobody. Let anything happen after that — sends, module transfers, mints, burns, delegations, contract code, new tokens,
registrations, administration, failing transactions — except code that runs in the holder's own name (and, if he is a
module, burns he asks for). In every token he then has at least what he had, less what messages of his own took. -/
theorem C98_loss (g : Cfg) (past txs : List (List Act)) (s0 : State) (hp : NoCollision g.tp) (hs : s0.w = World.init)
    (hl : allCreations past + allCreations txs < 2 ^ 64) (hpast : ∀ tx ∈ past, ∀ a ∈ tx, Possible g a)
    (A : Bytes) (x : Addr) (hh : Holder A x (history g past s0).accts)
    (hn : ApprovedNobody g.chain.chainAddr x (history g past s0).w)
    (ha : ∀ tx ∈ txs, ∀ a ∈ tx, Foreign g A x a) (k : Addr) :
    balanceOf (history g past s0).w k x ≤
      balanceOf (history g txs (history g past s0)).w k x +
      listed (history g txs (history g past s0)).w.maps
        ((accepted g txs (history g past s0)).flatMap (takes g A x)) k := by
  have h0 : Inv g s0.w := by rw [hs]; exact init_inv g
  have z : s0.w.factoryNonce = 0 := by rw [hs]; rfl
  obtain ⟨h1, _, _⟩ := history_step hp past s0 h0 (by omega) hpast
  have h2 := history_nonce hp past s0 h0 (by omega) hpast
  exact (history_keeps hp txs _ hh h1 (by omega) ha).2.bal hn k

/-- **C98.** If, besides, no message that goes through takes anything from the holder, no balance of his ever shrinks; he
is still the holder and still has approved nobody. -/
theorem C98_safe (g : Cfg) (past txs : List (List Act)) (s0 : State) (hp : NoCollision g.tp) (hs : s0.w = World.init)
    (hl : allCreations past + allCreations txs < 2 ^ 64) (hpast : ∀ tx ∈ past, ∀ a ∈ tx, Possible g a)
    (A : Bytes) (x : Addr) (hh : Holder A x (history g past s0).accts)
    (hn : ApprovedNobody g.chain.chainAddr x (history g past s0).w)
    (ha : ∀ tx ∈ txs, ∀ a ∈ tx, Foreign g A x a)
    (ht : ∀ a ∈ accepted g txs (history g past s0), takes g A x a = []) :
    (∀ k, balanceOf (history g past s0).w k x ≤ balanceOf (history g txs (history g past s0)).w k x) ∧
    Holder A x (history g txs (history g past s0)).accts ∧
    ApprovedNobody g.chain.chainAddr x (history g txs (history g past s0)).w := by
  have h0 : Inv g s0.w := by rw [hs]; exact init_inv g
  have z : s0.w.factoryNonce = 0 := by rw [hs]; rfl
  obtain ⟨h1, _, _⟩ := history_step hp past s0 h0 (by omega) hpast
  have h2 := history_nonce hp past s0 h0 (by omega) hpast
  obtain ⟨k1, k2⟩ := history_keeps hp txs _ hh h1 (by omega) ha
  refine ⟨fun k => ?_, k1, k2.allow hn⟩
  have := C98_loss g past txs s0 hp hs hl hpast A x hh hn ha k
  rw [List.flatMap_eq_nil_iff.2 ht, listed_nil] at this
  exact this

/-- **C98.** Read by denom: a denom means the same contract before and after, and the holder's balance of it has not
shrunk. -/
theorem C98_denom (g : Cfg) (past txs : List (List Act)) (s0 : State) (hp : NoCollision g.tp) (hs : s0.w = World.init)
    (hl : allCreations past + allCreations txs < 2 ^ 64) (hpast : ∀ tx ∈ past, ∀ a ∈ tx, Possible g a)
    (A : Bytes) (x : Addr) (hh : Holder A x (history g past s0).accts)
    (hn : ApprovedNobody g.chain.chainAddr x (history g past s0).w)
    (ha : ∀ tx ∈ txs, ∀ a ∈ tx, Foreign g A x a)
    (ht : ∀ a ∈ accepted g txs (history g past s0), takes g A x a = [])
    (d : Str) (k : Addr) (hd : denomToContract (history g past s0).w.maps d = some k) :
    denomToContract (history g txs (history g past s0)).w.maps d = some k ∧
    balanceOf (history g past s0).w k x ≤ balanceOf (history g txs (history g past s0)).w k x := by
  have h0 : Inv g s0.w := by rw [hs]; exact init_inv g
  have z : s0.w.factoryNonce = 0 := by rw [hs]; rfl
  obtain ⟨h1, _, _⟩ := history_step hp past s0 h0 (by omega) hpast
  have h2 := history_nonce hp past s0 h0 (by omega) hpast
  refine ⟨?_, (C98_safe g past txs s0 hp hs hl hpast A x hh hn ha ht).1 k⟩
  have hm := (history_keeps hp txs _ hh h1 (by omega) ha).2.maps d k
  unfold denomToContract at hd ⊢
  by_cases he : isERC20Denom d = true
  · rw [if_pos he] at hd ⊢; exact hd
  · rw [if_neg he] at hd ⊢; exact hm hd

/-- **C98.** A holder who has never run contract code has approved nobody: for an account that only ever signs bank
messages the theorems above hold at every point of every history. -/
theorem C98_approved (g : Cfg) (past : List (List Act)) (s0 : State) (hp : NoCollision g.tp) (hs : s0.w = World.init)
    (hl : allCreations past < 2 ^ 64) (A : Bytes) (x : Addr) (hh : Holder A x s0.accts)
    (ha : ∀ tx ∈ past, ∀ a ∈ tx, Foreign g A x a) :
    Holder A x (history g past s0).accts ∧ ApprovedNobody g.chain.chainAddr x (history g past s0).w := by
  have h0 : Inv g s0.w := by rw [hs]; exact init_inv g
  have z : s0.w.factoryNonce = 0 := by rw [hs]; rfl
  obtain ⟨k1, k2⟩ := history_keeps hp past s0 hh h0 (by omega) ha
  refine ⟨k1, k2.allow ?_⟩
  rw [hs]
  intro k s t h
  cases h

/-! A concrete history: `toyTxs`, then a second one in which bob's code tries everything. -/

def tok0 : Addr := toyParams.deployed 0

def toyAttack : List (List Act) :=
  [[.evm tok0 (.token bob tok0 (.transferFrom alice bob 10) .done) []],
   [.evm tok0 (.token bob tok0 (.burnFrom alice 10) .done) []],
   [.evm tok0 (.token bob tok0 (.transfer alice 5) .done) []],
   [.mint "minter".toList [(uinit, 4)], .send ⟨"bob".toList, "alice".toList, [(uinit, 2)]⟩],
   [.send ⟨"alice".toList, "bob".toList, [(uinit, 12)]⟩]]

/-- alice is a holder from the start, and no act of either history runs in her name. -/
example : Holder aliceB alice toyStart.accts :=
  ⟨.plain true 3, rfl, .inr ⟨rfl, rfl, fun _ _ h => by cases h⟩⟩

theorem toy_foreign : ∀ tx ∈ toyTxs ++ toyAttack, ∀ a ∈ tx, Foreign toyCfg aliceB alice a := by
  have n1 : (bob ≠ alice ∧ bob ≠ toyCfg.chain.chainAddr) := by decide +kernel
  intro tx htx a ha
  simp only [toyTxs, toyAttack, List.cons_append, List.nil_append, List.mem_cons, List.not_mem_nil, or_false] at htx
  rcases htx with rfl | rfl | rfl | rfl | rfl | rfl | rfl | rfl | rfl | rfl | rfl | rfl | rfl <;>
    simp only [List.mem_cons, List.not_mem_nil, or_false] at ha
  · subst ha; exact trivial
  · subst ha; exact trivial
  · rcases ha with rfl | rfl <;> exact trivial
  · subst ha; exact trivial
  · subst ha; show moduleIs _ _ _ _ = false; decide +kernel
  · subst ha; exact ⟨⟨n1, trivial⟩, by simp⟩
  · rcases ha with rfl | rfl | rfl
    · exact trivial
    · intro n hn e
      have h1 := congrArg (fun a : Addr => fromBE a.bytes) e
      have h2 : fromBE (Addr.ofNat 60).bytes = 60 := by decide +kernel
      simp only [toyCfg, toyParams] at h1
      rw [fromBE_toBE 20 _ (by omega), h2] at h1
      omega
    · exact trivial
  · subst ha; exact trivial
  · subst ha; exact ⟨⟨n1, trivial⟩, by simp⟩
  · subst ha; exact ⟨⟨n1, trivial⟩, by simp⟩
  · subst ha; exact ⟨⟨n1, trivial⟩, by simp⟩
  · rcases ha with rfl | rfl <;> exact trivial
  · subst ha; exact trivial

/-- 70 before; 5 and 2 received, 12 sent by herself: 65 after. -/
example : balanceOf (history toyCfg toyTxs toyStart).w tok0 alice = 70 ∧
    balanceOf (history toyCfg toyAttack (history toyCfg toyTxs toyStart)).w tok0 alice = 65 ∧
    listed (history toyCfg toyAttack (history toyCfg toyTxs toyStart)).w.maps
      ((accepted toyCfg toyAttack (history toyCfg toyTxs toyStart)).flatMap (takes toyCfg aliceB alice)) tok0 = 12 ∧
    allCreations toyTxs + allCreations toyAttack < 2 ^ 64 := by decide +kernel

/-- An account that is not in use is no `Holder`, and rightly so: the owner of a longer address that ends in the same 20
bytes takes its coins with a plain `MsgSend`. -/
theorem C98_needs_use : balanceOf (history toyCfg [[.genesis feeB [(uinit, 9)]]] toyStart).w tok0 (Addr.ofNat 200) = 9 ∧
    takes toyCfg feeB (Addr.ofNat 200) (.send ⟨"long".toList, "bob".toList, [(uinit, 9)]⟩) = [] ∧
    balanceOf (history toyCfg [[.genesis feeB [(uinit, 9)]],
      [.send ⟨"long".toList, "bob".toList, [(uinit, 9)]⟩]] toyStart).w tok0 (Addr.ofNat 200) = 0 := by
  decide +kernel

/-- Approvals matter: who has approved somebody can lose what was approved. -/
theorem C98_needs_approval : balanceOf (history toyCfg (toyTxs ++
      [[.evm tok0 (.token alice tok0 (.approve bob 10) .done) []]]) toyStart).w tok0 alice = 70 ∧
    balanceOf (history toyCfg (toyTxs ++ [[.evm tok0 (.token alice tok0 (.approve bob 10) .done) []],
      [.evm tok0 (.token bob tok0 (.transferFrom alice bob 10) .done) []]]) toyStart).w tok0 alice = 60 := by
  decide +kernel

end Verif.Props.Safe
