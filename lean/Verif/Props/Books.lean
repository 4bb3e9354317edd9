import Verif.Spec.Books
import Verif.Props.Value
import Verif.Props.Bank
import Verif.Props.Registry
import Verif.Props.Paging
/-
C97: the books balance, whatever happens.
-/
namespace Verif.Props.Books
open Verif Verif.Text Verif.Denom Verif.Tokens Verif.Identity Verif.Bank Verif.Books
open Verif.Spec.Tokens Verif.Spec.Ledger Verif.Spec.Value Verif.Spec.Books
open Verif.Props.Tokens Verif.Props.Ledger Verif.Props.Registry Verif.Props.Value Verif.Props.Bank

/-! ### What acts do to the ledger -/

/-- The effect of an accepted act on the ledger, in the ledger's own terms. -/
inductive Eff (g : Cfg) (w w' : World) : Act → Prop where
  | none (a : Act) (hi : ∀ d, issues d a = 0) (hr : ∀ d, redeems d a = 0) (h : w' = w) : Eff g w w' a
  | send (a : Act) (hi : ∀ d, issues d a = 0) (hr : ∀ d, redeems d a = 0) (f r : Addr) (coins : Bank.Coins)
      (h : sendCoins g.chain f r coins w = some w') : Eff g w w' a
  | mint (a : Act) (coins : Bank.Coins) (hi : ∀ d, issues d a = named d coins) (hr : ∀ d, redeems d a = 0)
      (hc : creations a = coins.length) (r : Addr) (h : mintCoins g.chain g.tp r coins w = some w') : Eff g w w' a
  | burn (m : Str) (coins : Bank.Coins) (f : Addr) (h : burnCoins g.chain g.tp f coins coins w = some w') :
      Eff g w w' (.burn m coins)
  | evm (fee : Addr) (p : Value.Prog) (l : List Addr) (h : Value.message g.chain fee p l w = some w') :
      Eff g w w' (.evm fee p l)
  | create (caller : Addr) (hf : w.tokens (g.tp.deployed w.factoryNonce) = none)
      (h : w' = (factoryCreate g.tp w caller).1) : Eff g w w' (.create caller)
  | deploy (a owner : Addr) (sudo : Bool) (hf : w.tokens a = none)
      (h : w' = { w with tokens := fun x => if x = a then some (sudo, Token.fresh owner) else w.tokens x }) :
      Eff g w w' (.deploy a owner sudo)
  | register (p : Tokens.Params) (k : Addr) (h : Tokens.register p w k = some w') : Eff g w w' (.register p k)

theorem bsend_eff {g : Cfg} {a : Act} {f r : Bytes} {coins : Bank.Coins} {s s' : State}
    (hi : ∀ d, issues d a = 0) (hr : ∀ d, redeems d a = 0) (h : sendCoinsB g f r coins s = .ok s') :
    Eff g s.w s'.w a := by
  obtain ⟨r', _, s1, h1, e, _⟩ := sendCoinsB_spec h
  obtain ⟨ef, er, _, _, _, hs, _⟩ := ekSend_spec h1
  rw [e]
  exact .send a hi hr ef er coins hs

theorem ekmint_eff {g : Cfg} {a : Act} {r : Bytes} {coins : Bank.Coins} {s s' : State}
    (hi : ∀ d, issues d a = named d coins) (hr : ∀ d, redeems d a = 0) (hc : creations a = coins.length)
    (h : ekMint g r coins s = some s') : Eff g s.w s'.w a := by
  unfold ekMint at h
  split at h
  · cases h
  · split at h
    · cases h
    · rename_i w' hw
      cases h
      exact .mint a coins hi hr hc _ hw

theorem act_eff (g : Cfg) (a : Act) (s s' : State) (h : doAct g a s = .ok s') : Eff g s.w s'.w a := by
  cases a with
  | genesis r coins =>
    simp only [doAct] at h
    cases hm : ekMint g r coins s with
    | none => rw [hm] at h; cases h
    | some s1 =>
      rw [hm] at h
      cases h
      exact ekmint_eff (fun _ => rfl) (fun _ => rfl) rfl hm
  | send m =>
    simp only [doAct, msgSend] at h
    split at h
    · cases h
    · split at h
      · cases h
      · split at h
        · cases h
        · split at h
          · cases h
          · split at h
            · cases h
            · split at h
              · cases h
              · exact bsend_eff (fun _ => rfl) (fun _ => rfl) h
  | fromModule m r coins =>
    simp only [doAct, moduleToAccount] at h
    split at h
    · cases h
    · split at h
      · cases h
      · exact bsend_eff (fun _ => rfl) (fun _ => rfl) h
  | betweenModules m m' coins =>
    simp only [doAct, moduleToModule] at h
    split at h
    · cases h
    · split at h
      · cases h
      · exact bsend_eff (fun _ => rfl) (fun _ => rfl) h
  | toModule f m coins =>
    simp only [doAct, accountToModule] at h
    split at h
    · cases h
    · exact bsend_eff (fun _ => rfl) (fun _ => rfl) h
  | delegate f m coins =>
    simp only [doAct, delegateToModule, delegateCoins] at h
    split at h
    · cases h
    · split at h
      · cases h
      · split at h
        · cases h
        · split at h
          · cases h
          · split at h
            · cases h
            · rename_i s1 h1
              cases h
              obtain ⟨ef, er, _, _, _, hs, _⟩ := ekSend_spec h1
              exact .send _ (fun _ => rfl) (fun _ => rfl) ef er coins hs
  | pay f r coins =>
    simp only [doAct] at h
    split at h
    · cases h
    · rename_i s1 h1
      cases h
      obtain ⟨ef, er, _, _, _, hs, _⟩ := ekSend_spec h1
      exact .send _ (fun _ => rfl) (fun _ => rfl) ef er coins hs
  | undelegate m r coins =>
    simp only [doAct, undelegateFromModule, undelegateCoins] at h
    split at h
    · cases h
    · split at h
      · cases h
      · split at h
        · cases h
        · split at h
          · cases h
          · split at h
            · cases h
            · rename_i s1 h1
              cases h
              obtain ⟨ef, er, _, _, _, hs, _⟩ := ekSend_spec h1
              exact .send _ (fun _ => rfl) (fun _ => rfl) ef er coins hs
  | mint m coins =>
    simp only [doAct, bankMint] at h
    split at h
    · cases h
    · split at h
      · cases h
      · split at h
        · cases h
        · split at h
          · cases h
          · split at h
            · cases h
            · rename_i s1 h1
              cases h
              exact ekmint_eff (fun _ => rfl) (fun _ => rfl) rfl h1
  | burn m coins =>
    simp only [doAct, bankBurn] at h
    split at h
    · cases h
    · split at h
      · cases h
      · split at h
        · cases h
        · rename_i s1 h1
          cases h
          unfold ekBurn at h1
          split at h1
          · cases h1
          · split at h1
            · cases h1
            · rename_i w' hw
              cases h1
              exact .burn m coins _ hw
  | evm fee p l =>
    simp only [doAct] at h
    cases hm : Value.message g.chain fee p l s.w with
    | none => rw [hm] at h; cases h
    | some w' => rw [hm] at h; cases h; exact .evm fee p l hm
  | create caller =>
    simp only [doAct] at h
    split at h
    · cases h
    · rename_i hf
      cases h
      exact .create caller (by simpa using hf) rfl
  | deploy a owner sudo =>
    simp only [doAct] at h
    split at h
    · cases h
    · rename_i hf
      cases h
      exact .deploy a owner sudo (by simpa using hf) rfl
  | register p k =>
    simp only [doAct] at h
    cases hm : Tokens.register p s.w k with
    | none => rw [hm] at h; cases h
    | some w' => rw [hm] at h; cases h; exact .register p k hm
  | setSendEnabled au en ud =>
    simp only [doAct, msgSetSendEnabled] at h
    split at h
    · cases h
    · split at h
      · cases h
      · split at h
        · cases h
        · split at h
          · cases h
          · cases h
            have e1 : ∀ (l : List (Str × Bool)) (u : State), (setAllEnabled l u).w = u.w := by
              intro l
              induction l with
              | nil => intro u; rfl
              | cons x xs ih => obtain ⟨d, v⟩ := x; intro u; simp only [setAllEnabled]; rw [ih]
            have e2 : ∀ (l : List Str) (u : State), (deleteEnabled l u).w = u.w := by
              intro l
              induction l with
              | nil => intro u; rfl
              | cons x xs ih => intro u; simp only [deleteEnabled]; rw [ih]
            exact .none _ (fun _ => rfl) (fun _ => rfl) (by rw [e2, e1])
  | updateParams au p =>
    simp only [doAct, msgUpdateParams] at h
    split at h
    · cases h
    · split at h
      · cases h
      · cases h
        have e1 : ∀ (l : List (Str × Bool)) (u : State), (setAllEnabled l u).w = u.w := by
          intro l
          induction l with
          | nil => intro u; rfl
          | cons x xs ih => obtain ⟨d, v⟩ := x; intro u; simp only [setAllEnabled]; rw [ih]
        exact .none _ (fun _ => rfl) (fun _ => rfl) (by simp only [setParams]; rw [e1])
  | setMetadata valid au md =>
    simp only [doAct, msgSetMetadata] at h
    split at h
    · cases h
    · split at h
      · cases h
      · cases h
        exact .none _ (fun _ => rfl) (fun _ => rfl) rfl

/-! ### Executions are made of token calls -/

theorem reach_one {c : Chain} {late : Bool} {w w' : World} (h : Step c late w w') : Reach c late w w' := .step w w' .refl h

/-- Whatever token calls preserve, a message preserves. -/
theorem message_calls (c : Chain) (fee : Addr) (p : Value.Prog) (l : List Addr) (w w' : World) (Q : World → World → Prop)
    (refl : ∀ u, Q u u) (trans : ∀ {u v x}, Q u v → Q v x → Q u x)
    (call : ∀ {caller k : Addr} {cl : Call} {u u' : World}, callToken c u caller k cl = some u' → Q u u')
    (h : Value.message c fee p l w = some w') : Q w w' := by
  have sub : ∀ {a : Addr} {n : Nat} {u u' : World}, Value.subBalance c fee u a n = some u' → Q u u' := by
    intro a n u u' h
    unfold Value.subBalance at h
    split at h
    · cases h; exact refl _
    · exact call h
  have add : ∀ {a : Addr} {n : Nat} {u u' : World}, Value.addBalance c fee u a n = some u' → Q u u' := by
    intro a n u u' h
    unfold Value.addBalance at h
    split at h
    · cases h; exact refl _
    · exact call h
  have runs : ∀ (p : Value.Prog) (u u' : World), Value.run c fee p u = some u' → Q u u' := by
    intro p
    induction p with
    | done => intro u u' h; cases h; exact refl _
    | token caller contract cl k ih =>
      intro u u' h
      simp only [Value.run] at h
      cases hk : callToken c u caller contract cl with
      | none => rw [hk] at h; exact ih u u' h
      | some u1 => rw [hk] at h; exact trans (call hk) (ih u1 u' h)
    | call a b v body ok k ihb ihk =>
      intro u u' h
      simp only [Value.run] at h
      cases he : Value.enter c fee u a b v with
      | aborted => rw [he] at h; cases h
      | refused => rw [he] at h; exact ihk u u' h
      | paid u1 =>
        rw [he] at h
        simp only at h
        have h1 : Q u u1 := by
          unfold Value.enter at he
          split at he
          · cases he
          · split at he
            · cases he
            · rename_i u2 h2
              cases he
              unfold Value.transfer at h2
              split at h2
              · cases h2; exact refl _
              · exact call h2
        cases hb : Value.run c fee body u1 with
        | none => rw [hb] at h; cases h
        | some u2 =>
          rw [hb] at h
          cases ok with
          | false =>
            simp only [Bool.false_eq_true, if_false] at h
            exact ihk u u' h
          | true =>
            simp only [if_true] at h
            exact trans h1 (trans (ihb u1 u2 hb) (ihk u2 u' h))
    | destruct self ben created k ih =>
      intro u u' h
      simp only [Value.run] at h
      cases hd : Value.destruct c fee u self ben created with
      | none => rw [hd] at h; cases h
      | some u1 =>
        rw [hd] at h
        refine trans ?_ (ih u1 u' h)
        unfold Value.destruct at hd
        simp only at hd
        split at hd
        · cases hd
        · rename_i v1 h1
          split at hd
          · cases hd
          · rename_i v2 h2
            split at hd
            · exact trans (sub h1) (trans (add h2) (sub hd))
            · cases hd; exact trans (sub h1) (add h2)
  have burns : ∀ (l : List Addr) (u u' : World), Value.burnDestroyed c fee l u = some u' → Q u u' := by
    intro l
    induction l with
    | nil => intro u u' h; cases h; exact refl _
    | cons y ys ih =>
      intro u u' h
      simp only [Value.burnDestroyed] at h
      cases hs : Value.subBalance c fee u y (Value.getBalance u fee y) with
      | none => rw [hs] at h; cases h
      | some u1 => rw [hs] at h; exact trans (sub hs) (ih u1 u' h)
  unfold Value.message at h
  cases hr : Value.run c fee p w with
  | none => rw [hr] at h; cases h
  | some w1 => rw [hr] at h; exact trans (runs p w w1 hr) (burns l w1 w' h)

theorem message_reach (c : Chain) (fee : Addr) (p : Value.Prog) (l : List Addr) (w w' : World)
    (h : Value.message c fee p l w = some w') : Reach c true w w' :=
  message_calls c fee p l w w' (Reach c true) (fun _ => .refl) Paging.reach_trans (fun h => reach_one (.call _ _ _ _ h)) h

/-! ### The state of the books -/

/-- What the chain keeps: denoms have contracts of their own, owned by the chain, and the factory's next addresses are
free. -/
structure Inv (g : Cfg) (w : World) : Prop where
  con : Consistent g.tp w
  inj : ∀ d d' a, w.maps.toAddr d = some a → w.maps.toAddr d' = some a → d = d'
  own : ∀ d a s t, w.maps.toAddr d = some a → w.tokens a = some (s, t) → t.owner = g.chain.chainAddr

/-- The supply of denom `d`; a denom without a contract has none. -/
def book (w : World) (d : Str) : Nat :=
  match w.maps.toAddr d with
  | none => 0
  | some a => supplyOf w a

theorem so_isSome {w w' : World} {k : Addr} (h : SameOwner k w w') : (w'.tokens k).isSome = (w.tokens k).isSome := by
  have := congrArg Option.isSome h
  simpa using this

theorem so_owner {w w' : World} {k o : Addr} (h : SameOwner k w w') (ho : ∀ s t, w.tokens k = some (s, t) → t.owner = o) :
    ∀ s t, w'.tokens k = some (s, t) → t.owner = o := by
  intro s t ht
  unfold SameOwner at h
  rw [ht] at h
  cases hv : w.tokens k with
  | none => rw [hv] at h; cases h
  | some p =>
    obtain ⟨s1, t1⟩ := p
    rw [hv] at h
    simp only [Option.map_some, Option.some.injEq, Prod.mk.injEq] at h
    rw [h.2]; exact ho s1 t1 hv

/-- Calls keep the books in order as long as owners stay. -/
theorem inv_same {g : Cfg} {w w' : World} (hw : Inv g w) (hm : w'.maps = w.maps) (hn : w'.factoryNonce = w.factoryNonce)
    (hs : ∀ k, (w'.tokens k).isSome = (w.tokens k).isSome) (ho : ∀ d k, w.maps.toAddr d = some k → SameOwner k w w') :
    Inv g w' := by
  refine ⟨⟨?_, ?_⟩, ?_, ?_⟩
  · intro d a h; rw [hm] at h; rw [hs]; exact hw.con.denoms d a h
  · intro n h1 h2
    rw [hn] at h1
    have h3 := hw.con.fresh n h1 h2
    have h4 := hs (g.tp.deployed n)
    rw [h3] at h4
    simpa using h4
  · intro d d' a h h'; rw [hm] at h h'; exact hw.inj d d' a h h'
  · intro d a s t h ht
    rw [hm] at h
    exact so_owner (ho d a h) (fun s t => hw.own d a s t h) s t ht

/-- A forced transfer changes no owner and no supply. -/
theorem force_step {c : Chain} {w w' : World} {a f r : Addr} {n : Nat}
    (h : callToken c w c.chainAddr a (.sudoTransfer f r n) = some w') :
    w'.maps = w.maps ∧ w'.factoryNonce = w.factoryNonce ∧ SameOwners w w' ∧ ∀ k, supplyOf w' k = supplyOf w k := by
  obtain ⟨e1, _, e3, e4, h5⟩ := callToken_spec h
  rcases h5 with ⟨_, rfl⟩ | ⟨s, t, t', h1, h2, h3⟩
  · exact ⟨rfl, rfl, fun _ => rfl, fun _ => rfl⟩
  · simp only [exec] at h2
    split at h2
    · cases h2
    · obtain ⟨_, g2, _, g4, _⟩ := doTransfer_spec h2
      refine ⟨e1, e3, fun k => ?_, fun k => ?_⟩
      · by_cases hk : k = a
        · subst hk; simp [h1, h3, g4]
        · rw [e4 k hk]
      · by_cases hk : k = a
        · subst hk; simp [supplyOf, h1, h3, g2]
        · simp [supplyOf, e4 k hk]

theorem send_step {c : Chain} (f r : Addr) (coins : Bank.Coins) : ∀ (w w' : World), sendCoins c f r coins w = some w' →
    w'.maps = w.maps ∧ w'.factoryNonce = w.factoryNonce ∧ SameOwners w w' ∧ ∀ k, supplyOf w' k = supplyOf w k := by
  induction coins with
  | nil => intro w w' h; cases h; exact ⟨rfl, rfl, fun _ => rfl, fun _ => rfl⟩
  | cons x rest ih =>
    obtain ⟨d, n⟩ := x
    intro w w' h
    simp only [sendCoins] at h
    split at h
    · cases h
    · split at h
      · cases h
      · rename_i w1 h1
        obtain ⟨a1, a2, a3, a4⟩ := force_step h1
        obtain ⟨b1, b2, b3, b4⟩ := ih w1 w' h
        exact ⟨b1.trans a1, b2.trans a2, so_trans a3 b3, fun k => (b4 k).trans (a4 k)⟩

theorem so_all {w w' : World} (h : SameOwners w w') (k : Addr) : SameOwner k w w' := h k

theorem send_inv {g : Cfg} {f r : Addr} {coins : Bank.Coins} {w w' : World} (hw : Inv g w)
    (h : sendCoins g.chain f r coins w = some w') :
    Inv g w' ∧ w'.factoryNonce = w.factoryNonce ∧ w'.maps = w.maps ∧ ∀ d, book w' d = book w d := by
  obtain ⟨a1, a2, a3, a4⟩ := send_step f r coins w w' h
  exact ⟨inv_same hw a1 a2 (fun k => so_isSome (a3 k)) (fun _ k _ => a3 k), a2, a1, fun d => by
    unfold book; rw [a1]; split
    · rfl
    · exact a4 _⟩

theorem burn_inv {g : Cfg} {f : Addr} {all coins : Bank.Coins} : ∀ {w w' : World}, Inv g w →
    burnCoins g.chain g.tp f all coins w = some w' →
    Inv g w' ∧ w'.factoryNonce = w.factoryNonce ∧
      ∀ d, isERC20Denom d = false → book w' d + named d coins = book w d := by
  induction coins with
  | nil => intro w w' hw h; cases h; exact ⟨hw, rfl, fun _ _ => rfl⟩
  | cons x rest ih =>
    obtain ⟨d, n⟩ := x
    intro w w' hw h
    simp only [burnCoins] at h
    split at h
    · rename_i hd
      split at h
      · cases h
      · rename_i w1 h1
        obtain ⟨a1, a2, _, a3⟩ := send_inv hw h1
        obtain ⟨b1, b2, b3⟩ := ih a1 h
        refine ⟨b1, b2.trans a2, fun d' hd' => ?_⟩
        have hne : ¬ d = d' := by intro e; subst e; rw [hd] at hd'; cases hd'
        have := b3 d' hd'
        rw [a3] at this
        simp only [named, List.map_cons, List.sum_cons, hne, if_false, Nat.zero_add] at this ⊢
        exact this
    · rename_i hd
      have hd0 : isERC20Denom d = false := by simpa using hd
      have hda : denomToContract w.maps d = w.maps.toAddr d := by simp [denomToContract, hd0]
      split at h
      · cases h
      · rename_i a ha
        rw [hda] at ha
        split at h
        · cases h
        · rename_i w1 h1
          obtain ⟨e1, _, e3, e4, h5⟩ := callToken_spec h1
          rcases h5 with ⟨hn, _⟩ | ⟨s, t, t', p1, p2, p3⟩
          · have := hw.con.denoms d a ha
            rw [hn] at this; cases this
          · simp only [exec] at p2
            split at p2
            · cases p2
            · obtain ⟨_, q2, q3, _, q5, _⟩ := doBurn_spec p2
              have hso : SameOwners w w1 := by
                intro k
                by_cases hk : k = a
                · subst hk; simp [p1, p3, q5]
                · rw [e4 k hk]
              have hsup : ∀ k, supplyOf w1 k + (if k = a then n else 0) = supplyOf w k := by
                intro k
                by_cases hk : k = a
                · subst hk; simp only [supplyOf, p1, p3, q3, if_true]; omega
                · simp [supplyOf, e4 k hk, hk]
              have hi := inv_same hw e1 e3 (fun k => so_isSome (hso k)) (fun _ k _ => hso k)
              obtain ⟨b1, b2, b3⟩ := ih hi h
              refine ⟨b1, b2.trans e3, fun d' hd' => ?_⟩
              have hb := b3 d' hd'
              have key : book w1 d' + (if d = d' then n else 0) = book w d' := by
                unfold book
                rw [e1]
                by_cases hdd : d = d'
                · subst hdd
                  rw [ha]
                  have := hsup a
                  simpa using this
                · rw [if_neg hdd]
                  cases hm : w.maps.toAddr d' with
                  | none => rfl
                  | some a' =>
                    have hne : ¬ a' = a := fun e => hdd (hw.inj d d' a ha (e ▸ hm))
                    have := hsup a'
                    simpa [hne] using this
              simp only [named, List.map_cons, List.sum_cons] at hb ⊢
              omega

theorem ensure_inv {g : Cfg} (hp : NoCollision g.tp) {w : World} (hw : Inv g w) (hl : w.factoryNonce < 2 ^ 64) (d : Str) :
    Inv g (ensure g.chain g.tp w d) ∧ (∀ d', book (ensure g.chain g.tp w d) d' = book w d') := by
  obtain ⟨v1, _, _, _, _, v6, v7, _⟩ := ensure_spec g.chain g.tp hp w hw.con hl d
  cases hd : w.maps.toAddr d with
  | some a =>
    have : ensure g.chain g.tp w d = w := by unfold ensure; rw [hd]
    rw [this]; exact ⟨hw, fun _ => rfl⟩
  | none =>
    have hf := hw.con.fresh w.factoryNonce (Nat.le_refl _) hl
    have hmap : ∀ d', (ensure g.chain g.tp w d).maps.toAddr d' =
        if d' = d then some (g.tp.deployed w.factoryNonce) else w.maps.toAddr d' := by
      intro d'; unfold ensure; rw [hd]; simp only [factoryCreate, createERC20]
    have hmap2 : ∀ d' a, w.maps.toAddr d' = some a → a ≠ g.tp.deployed w.factoryNonce := by
      intro d' a h e
      have := hw.con.denoms d' a h
      rw [e, hf] at this; cases this
    refine ⟨⟨v1, ?_, ?_⟩, ?_⟩
    · intro d1 d2 a h1 h2
      rw [hmap] at h1 h2
      split at h1 <;> split at h2
      · rename_i e1 e2; rw [e1, e2]
      · cases h1; exact absurd rfl (hmap2 d2 _ h2)
      · cases h2; exact absurd rfl (hmap2 d1 _ h1)
      · exact hw.inj d1 d2 a h1 h2
    · intro d1 a s t h1 ht
      rw [hmap] at h1
      split at h1
      · cases h1
        unfold ensure at ht
        rw [hd] at ht
        simp only [factoryCreate, if_true, Option.some.injEq, Prod.mk.injEq] at ht
        rw [← ht.2]; rfl
      · rw [v7 a (hw.con.denoms d1 a h1)] at ht
        exact hw.own d1 a s t h1 ht
    · intro d'
      unfold book
      rw [hmap]
      by_cases e : d' = d
      · subst e
        rw [if_pos rfl, hd]
        simp only
        rw [v6]
        simp [supplyOf, hf]
      · rw [if_neg e]
        split
        · rfl
        · exact v6 _

theorem mint_inv {g : Cfg} (hp : NoCollision g.tp) {r : Addr} {coins : Bank.Coins} : ∀ {w w' : World}, Inv g w →
    w.factoryNonce + coins.length < 2 ^ 64 → mintCoins g.chain g.tp r coins w = some w' →
    Inv g w' ∧ w'.factoryNonce ≤ w.factoryNonce + coins.length ∧ ∀ d, book w' d = book w d + named d coins := by
  induction coins with
  | nil => intro w w' hw _ h; cases h; exact ⟨hw, Nat.le_refl _, fun _ => rfl⟩
  | cons x rest ih =>
    obtain ⟨d, n⟩ := x
    intro w w' hw hl h
    rw [mintCoins_cons] at h
    simp only [List.length_cons] at hl
    split at h
    · cases h
    · rename_i hne
      have hne' : isERC20Denom d = false := by simpa using hne
      obtain ⟨v1, _, ⟨a0, v3⟩, _, _, _, _, v8⟩ := ensure_spec g.chain g.tp hp w hw.con (by omega) d
      obtain ⟨i1, i2⟩ := ensure_inv hp hw (by omega) d
      generalize ensure g.chain g.tp w d = w1 at *
      have hda : denomToContract w1.maps d = w1.maps.toAddr d := by simp [denomToContract, hne']
      rw [hda, v3] at h
      simp only at h
      split at h
      · cases h
      · rename_i w2 h2
        obtain ⟨e1, _, e3, e4, _, e6, e5, _⟩ := sudoMint_step h2 (v1.denoms d a0 v3)
        have hso : SameOwners w1 w2 := by
          intro k
          have := e6 k
          unfold grants at this
          cases h1 : w1.tokens k with
          | none =>
            rw [h1] at this
            cases h2 : w2.tokens k with
            | none => rfl
            | some p => rw [h2] at this; cases this
          | some p =>
            rw [h1] at this
            cases h2 : w2.tokens k with
            | none => rw [h2] at this; cases this
            | some q =>
              rw [h2] at this
              simp only [Option.map_some, Option.some.injEq, Prod.mk.injEq] at this ⊢
              exact ⟨this.1, this.2.2⟩
        have hi := inv_same i1 e1 e3 e4 (fun _ k _ => hso k)
        obtain ⟨b1, b2, b3⟩ := ih hi (by rw [e3, v8]; split <;> omega) h
        refine ⟨b1, ?_, fun d' => ?_⟩
        · simp only [List.length_cons]
          rw [e3, v8] at b2
          split at b2 <;> omega
        · have key : book w2 d' = book w1 d' + (if d = d' then n else 0) := by
            unfold book
            rw [e1]
            by_cases hdd : d = d'
            · subst hdd
              rw [v3]
              have := e5 a0
              simpa using this
            · rw [if_neg hdd]
              cases hm : w1.maps.toAddr d' with
              | none => rfl
              | some a' =>
                have hne : ¬ a' = a0 := fun e => hdd (i1.inj d d' a0 v3 (e ▸ hm))
                have := e5 a'
                simpa [hne] using this
          rw [b3, key, i2]
          simp only [named, List.map_cons, List.sum_cons]
          omega

/-- A message leaves the denoms, the factory and the set of contracts alone. -/
theorem message_frame (c : Chain) (fee : Addr) (p : Value.Prog) (l : List Addr) (w w' : World)
    (h : Value.message c fee p l w = some w') :
    w'.maps = w.maps ∧ w'.factoryNonce = w.factoryNonce ∧ ∀ k, (w'.tokens k).isSome = (w.tokens k).isSome := by
  refine message_calls c fee p l w w' (fun w w' => w'.maps = w.maps ∧ w'.factoryNonce = w.factoryNonce ∧
    ∀ k, (w'.tokens k).isSome = (w.tokens k).isSome) (fun _ => ⟨rfl, rfl, fun _ => rfl⟩)
    (fun h h' => ⟨h'.1.trans h.1, h'.2.1.trans h.2.1, fun k => (h'.2.2 k).trans (h.2.2 k)⟩) ?_ h
  intro caller k cl u u' h
  obtain ⟨e1, _, e3, e4, h5⟩ := callToken_spec h
  refine ⟨e1, e3, fun j => ?_⟩
  rcases h5 with ⟨_, rfl⟩ | ⟨s, t, t', h1, _, h3⟩
  · rfl
  · by_cases hj : j = k
    · subst hj; simp [h1, h3]
    · rw [e4 j hj]

theorem message_inv {g : Cfg} {fee : Addr} {p : Value.Prog} {l : List Addr} {w w' : World} (hw : Inv g w)
    (hp : CallersIn (· ≠ g.chain.chainAddr) p) (h : Value.message g.chain fee p l w = some w') :
    Inv g w' ∧ w'.factoryNonce = w.factoryNonce ∧ ∀ d, book w' d ≤ book w d := by
  obtain ⟨e1, e2, e3⟩ := message_frame _ _ _ _ _ _ h
  have key : ∀ d k, w.maps.toAddr d = some k → SameOwner k w w' ∧ supplyOf w' k ≤ supplyOf w k := by
    intro d k hd
    refine C75_token g.chain fee (· ≠ g.chain.chainAddr) p l w w' k (fun h => h rfl) hp ?_ h
    intro s t ht hne
    exact hne (hw.own d k s t hd ht)
  refine ⟨inv_same hw e1 e2 e3 (fun d k hd => (key d k hd).1), e2, fun d => ?_⟩
  unfold book
  rw [e1]
  cases hd : w.maps.toAddr d with
  | none => exact Nat.le_refl _
  | some k => exact (key d k hd).2

/-- A new contract on a free address that no denom will get. -/
theorem fresh_inv {g : Cfg} {w : World} (hw : Inv g w) (a o : Addr) (sudo : Bool) (e : Addr → Bool) (n : Nat)
    (hn : w.factoryNonce ≤ n) (hf : w.tokens a = none) (ha : ∀ m, n ≤ m → m < 2 ^ 64 → a ≠ g.tp.deployed m) :
    Inv g { w with
      erc20s := e, factoryNonce := n
      tokens := fun x => if x = a then some (sudo, Token.fresh o) else w.tokens x } ∧
    ∀ d, book { w with
      erc20s := e, factoryNonce := n
      tokens := fun x => if x = a then some (sudo, Token.fresh o) else w.tokens x } d = book w d := by
  have hne : ∀ d k, w.maps.toAddr d = some k → k ≠ a := by
    intro d k hd e
    have := hw.con.denoms d k hd
    rw [e, hf] at this; cases this
  refine ⟨⟨⟨?_, ?_⟩, hw.inj, ?_⟩, ?_⟩
  · intro d k hd
    simp only [hne d k hd, if_false]
    exact hw.con.denoms d k hd
  · intro m h1 h2
    have : ¬ g.tp.deployed m = a := fun e => ha m h1 h2 e.symm
    simp only [this, if_false]
    exact hw.con.fresh m (Nat.le_trans hn h1) h2
  · intro d k s t hd ht
    simp only [hne d k hd, if_false] at ht
    exact hw.own d k s t hd ht
  · intro d
    unfold book
    cases hd : w.maps.toAddr d with
    | none => rfl
    | some k => simp [supplyOf, hne d k hd]

/-- One act: the books stay in order, and the supply of every denom of the chain changes by what the act issues and
redeems; contract code can only destroy. -/
theorem act_step {g : Cfg} (hp : NoCollision g.tp) {w w' : World} {a : Act} (hw : Inv g w)
    (hl : w.factoryNonce + creations a < 2 ^ 64) (ha : Possible g a) (h : Eff g w w' a) :
    Inv g w' ∧ w'.factoryNonce ≤ w.factoryNonce + creations a ∧ Reach g.chain true w w' ∧
    ∀ d, isERC20Denom d = false → ∃ x, book w' d + redeems d a + x = book w d + issues d a ∧ (NoCode a → x = 0) := by
  cases h with
  | none a hi hr h =>
    subst h
    exact ⟨hw, Nat.le_add_right _ _, .refl, fun d _ => ⟨0, by rw [hi, hr], fun _ => rfl⟩⟩
  | send a hi hr f r coins h =>
    obtain ⟨a1, a2, _, a3⟩ := send_inv hw h
    exact ⟨a1, by rw [a2]; exact Nat.le_add_right _ _, reach_one (.send _ _ _ _ h),
      fun d _ => ⟨0, by rw [hi, hr, a3], fun _ => rfl⟩⟩
  | mint a coins hi hr hc r h =>
    rw [hc] at hl
    obtain ⟨a1, a2, a3⟩ := mint_inv hp hw hl h
    exact ⟨a1, by rw [hc]; exact a2, reach_one (.mint _ _ _ _ hp hw.con hl h),
      fun d _ => ⟨0, by rw [hi, hr, a3]; omega, fun _ => rfl⟩⟩
  | burn m coins f h =>
    obtain ⟨a1, a2, a3⟩ := burn_inv hw h
    exact ⟨a1, by rw [a2]; exact Nat.le_add_right _ _, reach_one (.burn _ _ _ _ _ h),
      fun d hd => ⟨0, by have := a3 d hd; simp only [redeems, issues]; omega, fun _ => rfl⟩⟩
  | evm fee p l h =>
    obtain ⟨a1, a2, a3⟩ := message_inv hw ha h
    refine ⟨a1, by rw [a2]; exact Nat.le_add_right _ _, message_reach _ _ _ _ _ _ h, fun d _ =>
      ⟨book w d - book w' d, ?_, fun h => absurd h (fun h => h)⟩⟩
    have := a3 d
    simp only [redeems, issues]; omega
  | create caller hf h =>
    simp only [creations] at hl ⊢
    have hs : Step g.chain true w w' := by rw [h]; exact .create g.tp caller hf
    obtain ⟨a1, a2⟩ := fresh_inv hw (g.tp.deployed w.factoryNonce) caller true
      (fun x => if x = g.tp.deployed w.factoryNonce then true else w.erc20s x) (w.factoryNonce + 1) (by omega) hf
      (fun m h1 h2 e => by have := hp _ _ (by omega) h2 e; omega)
    subst h
    exact ⟨a1, Nat.le_refl _, reach_one hs, fun d _ => ⟨0, by
      simp only [redeems, issues, Nat.add_zero]; exact a2 d, fun _ => rfl⟩⟩
  | deploy k owner sudo hf h =>
    have hs : Step g.chain true w w' := by rw [h]; exact .deploy k owner sudo hf
    obtain ⟨a1, a2⟩ := fresh_inv hw k owner sudo w.erc20s w.factoryNonce (Nat.le_refl _) hf (fun m _ h2 => ha m h2)
    subst h
    exact ⟨a1, Nat.le_add_right _ _, reach_one hs, fun d _ => ⟨0, by
      simp only [redeems, issues, Nat.add_zero]; exact a2 d, fun _ => rfl⟩⟩
  | register p k h =>
    have hs : Step g.chain true w w' := .register p k w' h (Or.inl rfl)
    obtain ⟨_, ⟨_, rfl⟩ | ⟨_, _, rfl⟩⟩ := register_form h
    · exact ⟨hw, Nat.le_add_right _ _, .refl, fun d _ => ⟨0, rfl, fun _ => rfl⟩⟩
    · exact ⟨⟨⟨hw.con.denoms, hw.con.fresh⟩, hw.inj, hw.own⟩, Nat.le_add_right _ _, reach_one hs,
        fun d _ => ⟨0, rfl, fun _ => rfl⟩⟩

theorem tx_step {g : Cfg} (hp : NoCollision g.tp) : ∀ (tx : List Act) (s s' : State), Inv g s.w →
    s.w.factoryNonce + (tx.map creations).sum < 2 ^ 64 → (∀ a ∈ tx, Possible g a) → doTx g tx s = some s' →
    Inv g s'.w ∧ s'.w.factoryNonce ≤ s.w.factoryNonce + (tx.map creations).sum ∧ Reach g.chain true s.w s'.w ∧
    ∀ d, isERC20Denom d = false → ∃ x, book s'.w d + redeemed d tx + x = book s.w d + issued d tx ∧
      ((∀ a ∈ tx, NoCode a) → x = 0) := by
  intro tx
  induction tx with
  | nil => intro s s' hw _ _ h; cases h; exact ⟨hw, Nat.le_refl _, .refl, fun d _ => ⟨0, rfl, fun _ => rfl⟩⟩
  | cons a rest ih =>
    intro s s' hw hl ha h
    simp only [List.map_cons, List.sum_cons] at hl ⊢
    simp only [doTx] at h
    cases hd : doAct g a s with
    | err => rw [hd] at h; cases h
    | panic => rw [hd] at h; cases h
    | ok s1 =>
      rw [hd] at h
      obtain ⟨a1, a2, a3, a4⟩ := act_step hp hw (by omega) (ha a (List.mem_cons_self ..)) (act_eff g a s s1 hd)
      obtain ⟨b1, b2, b3, b4⟩ := ih s1 s' a1 (by omega) (fun x hx => ha x (List.mem_cons_of_mem _ hx)) h
      refine ⟨b1, by omega, Paging.reach_trans a3 b3, fun d hd => ?_⟩
      obtain ⟨x, hx, hx0⟩ := a4 d hd
      obtain ⟨y, hy, hy0⟩ := b4 d hd
      refine ⟨x + y, ?_, fun hc => ?_⟩
      · simp only [redeemed, issued, List.map_cons, List.sum_cons] at hy ⊢
        omega
      · rw [hx0 (hc a (List.mem_cons_self ..)), hy0 (fun z hz => hc z (List.mem_cons_of_mem _ hz))]

theorem history_step {g : Cfg} (hp : NoCollision g.tp) : ∀ (txs : List (List Act)) (s : State), Inv g s.w →
    s.w.factoryNonce + allCreations txs < 2 ^ 64 → (∀ tx ∈ txs, ∀ a ∈ tx, Possible g a) →
    Inv g (history g txs s).w ∧ Reach g.chain true s.w (history g txs s).w ∧
    ∀ d, isERC20Denom d = false → ∃ x, book (history g txs s).w d + redeemed d (accepted g txs s) + x =
      book s.w d + issued d (accepted g txs s) ∧ ((∀ tx ∈ txs, ∀ a ∈ tx, NoCode a) → x = 0) := by
  intro txs
  induction txs with
  | nil => intro s hw _ _; exact ⟨hw, .refl, fun d _ => ⟨0, rfl, fun _ => rfl⟩⟩
  | cons tx rest ih =>
    intro s hw hl ha
    simp only [allCreations, List.flatten_cons, List.map_append, List.sum_append] at hl
    simp only [history, accepted]
    have har : ∀ tx ∈ rest, ∀ a ∈ tx, Possible g a := fun t ht => ha t (List.mem_cons_of_mem _ ht)
    cases hd : doTx g tx s with
    | none =>
      simp only [Option.getD_none]
      obtain ⟨b1, b2, b3⟩ := ih s hw (by simp only [allCreations]; omega) har
      refine ⟨b1, b2, fun d hd => ?_⟩
      obtain ⟨x, hx, hx0⟩ := b3 d hd
      exact ⟨x, hx, fun hc => hx0 (fun t ht => hc t (List.mem_cons_of_mem _ ht))⟩
    | some s1 =>
      simp only [Option.getD_some]
      obtain ⟨a1, a2, a3, a4⟩ := tx_step hp tx s s1 hw (by omega) (ha tx (List.mem_cons_self ..)) hd
      obtain ⟨b1, b2, b3⟩ := ih s1 a1 (by simp only [allCreations]; omega) har
      refine ⟨b1, Paging.reach_trans a3 b2, fun d hd => ?_⟩
      obtain ⟨x, hx, hx0⟩ := a4 d hd
      obtain ⟨y, hy, hy0⟩ := b3 d hd
      refine ⟨x + y, ?_, fun hc => ?_⟩
      · simp only [redeemed, issued, List.map_append, List.sum_append] at hx hy ⊢
        omega
      · rw [hx0 (hc tx (List.mem_cons_self ..)), hy0 (fun t ht => hc t (List.mem_cons_of_mem _ ht))]

theorem init_inv (g : Cfg) : Inv g World.init :=
  ⟨⟨fun _ _ h => (by cases h), fun _ _ _ => rfl⟩, fun _ _ _ h => (by cases h), fun _ _ _ _ h => (by cases h)⟩

/-! ### C97 -/

/-- **C97 (every token, always).** After any history of bank messages, module transfers, mints, burns, contract
executions, token creations, registrations and administration, from an empty chain, with any transactions failing:
every token's supply is the sum of its balances and fits in 256 bits. -/
theorem C97_sums (g : Cfg) (txs : List (List Act)) (s : State) (hp : NoCollision g.tp) (hs : s.w = World.init)
    (hl : allCreations txs < 2 ^ 64) (ha : ∀ tx ∈ txs, ∀ a ∈ tx, Possible g a) (k : Addr) (b : Bool) (t : Token)
    (ht : (history g txs s).w.tokens k = some (b, t)) : SumsTo t.bal t.supply ∧ t.supply < 2 ^ 256 := by
  obtain ⟨_, h, _⟩ := history_step hp txs s (by rw [hs]; exact init_inv g)
    (by rw [hs]; simp only [World.init]; omega) ha
  rw [hs] at h
  exact C23_chain g.chain _ h k b t ht

/-- **C97 (no inflation).** After any such history the supply of a denom of the chain, plus what bank burns took back, is
at most what genesis and bank mints issued of that very denom in transactions that went through. Contract code never
adds to it. -/
theorem C97_issued (g : Cfg) (txs : List (List Act)) (s : State) (hp : NoCollision g.tp) (hs : s.w = World.init)
    (hl : allCreations txs < 2 ^ 64) (ha : ∀ tx ∈ txs, ∀ a ∈ tx, Possible g a) (d : Str) (k : Addr)
    (hd : isERC20Denom d = false) (hk : denomToContract (history g txs s).w.maps d = some k) :
    supplyOf (history g txs s).w k + redeemed d (accepted g txs s) ≤ issued d (accepted g txs s) := by
  obtain ⟨_, _, h⟩ := history_step hp txs s (by rw [hs]; exact init_inv g)
    (by rw [hs]; simp only [World.init]; omega) ha
  obtain ⟨x, hx, _⟩ := h d hd
  have e : denomToContract (history g txs s).w.maps d = (history g txs s).w.maps.toAddr d := by
    simp [denomToContract, hd]
  rw [e] at hk
  have e0 : book s.w d = 0 := by rw [hs]; rfl
  rw [e0] at hx
  simp only [book, hk] at hx
  omega

/-- **C97 (to the last coin).** Without contract code in between the two sides are equal. -/
theorem C97_exact (g : Cfg) (txs : List (List Act)) (s : State) (hp : NoCollision g.tp) (hs : s.w = World.init)
    (hl : allCreations txs < 2 ^ 64) (ha : ∀ tx ∈ txs, ∀ a ∈ tx, Possible g a ∧ NoCode a) (d : Str) (k : Addr)
    (hd : isERC20Denom d = false) (hk : denomToContract (history g txs s).w.maps d = some k) :
    supplyOf (history g txs s).w k + redeemed d (accepted g txs s) = issued d (accepted g txs s) := by
  obtain ⟨_, _, h⟩ := history_step hp txs s (by rw [hs]; exact init_inv g)
    (by rw [hs]; simp only [World.init]; omega) (fun t ht a h => (ha t ht a h).1)
  obtain ⟨x, hx, hx0⟩ := h d hd
  have e : denomToContract (history g txs s).w.maps d = (history g txs s).w.maps.toAddr d := by
    simp [denomToContract, hd]
  rw [e] at hk
  have e0 : book s.w d = 0 := by rw [hs]; rfl
  rw [e0, hx0 (fun t ht a h => (ha t ht a h).2)] at hx
  simp only [book, hk] at hx
  omega

/-- **C97 (nobody has what was not issued).** No account's balance exceeds what was issued and not taken back. -/
theorem C97_holder (g : Cfg) (txs : List (List Act)) (s : State) (hp : NoCollision g.tp) (hs : s.w = World.init)
    (hl : allCreations txs < 2 ^ 64) (ha : ∀ tx ∈ txs, ∀ a ∈ tx, Possible g a) (d : Str) (k : Addr)
    (hd : isERC20Denom d = false) (hk : denomToContract (history g txs s).w.maps d = some k) (x : Addr) :
    balanceOf (history g txs s).w k x + redeemed d (accepted g txs s) ≤ issued d (accepted g txs s) := by
  have h1 := C97_issued g txs s hp hs hl ha d k hd hk
  have : balanceOf (history g txs s).w k x ≤ supplyOf (history g txs s).w k := by
    unfold balanceOf supplyOf
    cases ht : (history g txs s).w.tokens k with
    | none => exact Nat.le_refl _
    | some p =>
      obtain ⟨b, t⟩ := p
      obtain ⟨h, _⟩ := C97_sums g txs s hp hs hl ha k b t ht
      obtain ⟨l, hn, hz, hsum⟩ := h
      simp only
      by_cases hm : x ∈ l
      · rw [← hsum]
        clear hsum hz hn
        induction l with
        | nil => cases hm
        | cons y ys ih =>
          simp only [List.map_cons, List.sum_cons]
          rcases List.mem_cons.mp hm with rfl | hm
          · omega
          · have := ih hm; omega
      · rw [hz x hm]; exact Nat.zero_le _
  omega

/-! A concrete history. -/

def toyStart : State := { toyState with w := World.init }

/-- Genesis gives alice 100; she pays bob 30; a mint whose transaction then fails; a mint; a burn; bob's contract code
destroys 3 of his; alice creates a token of her own and registers another; alice sends more than she has. -/
def toyTxs : List (List Act) :=
  [[.genesis aliceB [(uinit, 100)]],
   [.send ⟨"alice".toList, "bob".toList, [(uinit, 30)]⟩],
   [.mint "minter".toList [(uinit, 50)], .mint "fee".toList [(uinit, 1)]],
   [.mint "minter".toList [(uinit, 5)]],
   [.burn "minter".toList [(uinit, 2)]],
   [.evm (toyParams.deployed 0) (.token bob (toyParams.deployed 0) (.burn 3) .done) []],
   [.create alice, .deploy (Addr.ofNat 60) alice false, .register toyParams (Addr.ofNat 60)],
   [.send ⟨"alice".toList, "bob".toList, [(uinit, 71)]⟩]]

/-- Issued 105, taken back 2, destroyed by code 3: the supply is 100; alice has 70. -/
example : (history toyCfg toyTxs toyStart).w.maps.toAddr uinit = some (toyParams.deployed 0) ∧
    supplyOf (history toyCfg toyTxs toyStart).w (toyParams.deployed 0) = 100 ∧
    balanceOf (history toyCfg toyTxs toyStart).w (toyParams.deployed 0) alice = 70 ∧
    issued uinit (accepted toyCfg toyTxs toyStart) = 105 ∧ redeemed uinit (accepted toyCfg toyTxs toyStart) = 2 ∧
    (accepted toyCfg toyTxs toyStart).length = 8 := by decide +kernel

/-- The hypotheses of the theorems are met. -/
example : toyStart.w = World.init ∧ allCreations toyTxs < 2 ^ 64 ∧ isERC20Denom uinit = false :=
  ⟨rfl, by decide +kernel, by decide +kernel⟩

example : ∀ tx ∈ toyTxs, ∀ a ∈ tx, Possible toyCfg a := by
  intro tx htx a ha
  simp only [toyTxs, List.mem_cons, List.not_mem_nil, or_false] at htx
  rcases htx with rfl | rfl | rfl | rfl | rfl | rfl | rfl | rfl <;>
    simp only [List.mem_cons, List.not_mem_nil, or_false] at ha
  · subst ha; exact trivial
  · subst ha; exact trivial
  · rcases ha with rfl | rfl <;> exact trivial
  · subst ha; exact trivial
  · subst ha; exact trivial
  · subst ha
    refine ⟨fun e => ?_, trivial⟩
    revert e
    decide +kernel
  · rcases ha with rfl | rfl | rfl
    · exact trivial
    · intro n hn e
      have h1 := congrArg (fun a : Addr => fromBE a.bytes) e
      have h2 : fromBE (Addr.ofNat 60).bytes = 60 := by decide +kernel
      simp only [toyCfg, toyParams] at h1
      rw [fromBE_toBE 20 _ (by omega), h2] at h1
      omega
    · exact trivial
  · subst ha; exact trivial

end Verif.Props.Books
