import Verif.Props.Ledger
import Verif.Spec.Wrapper
/-
C49: the ERC20 wrapper.
-/
namespace Verif.Props.Wrapper
open Verif Verif.Tokens Verif.Wrapper Verif.Spec.Wrapper Verif.Spec.Tokens Verif.Props.Tokens Verif.Props.Ledger

theorem solCall_some {c : Chain} {ts ts' : Addr → Option (Bool × Token)} {caller a : Addr} {call : Call}
    (h : solCall c ts caller a call = some ts') :
    ∃ b t t', ts a = some (b, t) ∧ exec c b caller call t = some t' ∧ ts' = upd ts a (b, t') := by
  unfold solCall at h
  split at h
  · cases h
  · rename_i b t hb
    split at h
    · cases h
    · rename_i t' he
      cases h
      exact ⟨b, t, t', hb, he, rfl⟩

/-- The invariant of histories without nested wrapping. -/
structure Inv (e : Env) (s : WS) : Prop where
  fwd : ∀ o w, s.wrapped o = some w → s.origin w = some o
  bwd : ∀ w o, s.origin w = some o → s.wrapped o = some w
  flat : ∀ w o, s.origin w = some o → s.origin o = none
  live : ∀ w o, s.origin w = some o → ∃ b t b' t', s.ts w = some (b, t) ∧ s.ts o = some (b', t') ∧
    t.owner = e.self ∧ Covers (s.dec o) (t'.bal e.self) t.supply
  allow : ∀ k b t x, s.ts k = some (b, t) → t.allow e.self x = 0
  cbs : ∀ i u w wa, s.cbs i = some (u, w, wa) → wa ≠ 0
  sound : ∀ k b t, s.ts k = some (b, t) → Sound t

theorem start_inv {e : Env} {s : WS} (h : Start e s) : Inv e s :=
  ⟨fun o w hw => (by rw [h.wrapped] at hw; cases hw),
   fun w o hw => (by rw [h.origin] at hw; cases hw),
   fun w o hw => (by rw [h.origin] at hw; cases hw),
   fun w o hw => (by rw [h.origin] at hw; cases hw), h.allow,
   fun i u w wa hw => (by rw [h.cbs] at hw; cases hw), h.sound⟩

/-- An update of one token that takes nothing from the wrapper, creates no wrapped tokens, and keeps the owner. -/
theorem inv_update {e : Env} {s : WS} (hi : Inv e s) {a : Addr} {b : Bool} {t t' : Token} (ha : s.ts a = some (b, t))
    (hal : ∀ x, t'.allow e.self x = 0)
    (hw : s.origin a ≠ none → t'.owner = t.owner ∧ t'.supply ≤ t.supply)
    (hb : s.origin a = none → t.bal e.self ≤ t'.bal e.self) (hs : Sound t') :
    Inv e { s with ts := upd s.ts a (b, t') } := by
  refine ⟨hi.fwd, hi.bwd, hi.flat, ?_, ?_, hi.cbs, ?_⟩
  · intro w o hwo
    obtain ⟨b1, t1, b2, t2, h1, h2, h3, h4⟩ := hi.live w o hwo
    have hflat := hi.flat w o hwo
    have hwo' : w ≠ o := by rintro rfl; rw [hwo] at hflat; cases hflat
    simp only [upd]
    by_cases c1 : w = a
    · subst c1
      rw [ha] at h1; cases h1
      obtain ⟨k1, k2⟩ := hw (by rw [hwo]; simp)
      have c2 : o ≠ w := fun e => hwo' e.symm
      refine ⟨_, t', b2, t2, if_pos rfl, by rw [if_neg c2]; exact h2, k1.trans h3, ?_⟩
      unfold Covers at h4 ⊢
      by_cases c : 6 ≤ s.dec o
      · simp only [if_pos c] at h4 ⊢
        exact Nat.le_trans (Nat.mul_le_mul_right _ k2) h4
      · simp only [if_neg c] at h4 ⊢
        exact Nat.le_trans k2 h4
    · by_cases c2 : o = a
      · subst c2
        rw [ha] at h2; cases h2
        have k := hb hflat
        refine ⟨b1, t1, _, t', by rw [if_neg c1]; exact h1, if_pos rfl, h3, ?_⟩
        unfold Covers at h4 ⊢
        by_cases c : 6 ≤ s.dec o
        · simp only [if_pos c] at h4 ⊢
          exact Nat.le_trans h4 k
        · simp only [if_neg c] at h4 ⊢
          exact Nat.le_trans h4 (Nat.mul_le_mul_right _ k)
      · exact ⟨b1, t1, b2, t2, by rw [if_neg c1]; exact h1, by rw [if_neg c2]; exact h2, h3, h4⟩
  · intro k b1 t1 x hk
    simp only [upd] at hk
    split at hk
    · cases hk; exact hal x
    · exact hi.allow k b1 t1 x hk
  · intro k b1 t1 hk
    simp only [upd] at hk
    split at hk
    · cases hk; exact hs
    · exact hi.sound k b1 t1 hk

/-- An allowance of zero granted by `a` stays zero if someone else calls. -/
theorem allow_zero {c : Chain} {b : Bool} {caller : Addr} {call : Call} {t t' : Token}
    (h : exec c b caller call t = some t') (a : Addr) (hz : ∀ x, t.allow a x = 0)
    (hc : caller ≠ a ∨ ∀ x n, call ≠ .approve x n) (x : Addr) : t'.allow a x = 0 := by
  have := (C24_grants c b caller call t t' h).1 a x
  rw [hz x] at this
  rcases Nat.eq_zero_or_pos (t'.allow a x) with h0 | h0
  · exact h0
  · obtain ⟨e1, e2⟩ := this h0
    rcases hc with hc | hc
    · exact absurd e1 hc
    · exact absurd e2 (hc _ _)

/-- The chain's own calls do not lower the wrapper's balance unless they may. -/
theorem chain_keeps {c : Chain} {b : Bool} {call : Call} {t t' : Token} {self : Addr}
    (h : exec c b c.chainAddr call t = some t') (hz : ∀ x, t.allow self x = 0) (hself : self ≠ c.chainAddr)
    (h1 : ∀ r n, call ≠ .sudoTransfer self r n) (h2 : ∀ n, call ≠ .sudoBurn self n) :
    t.bal self ≤ t'.bal self := by
  have tr : ∀ (u u' : Token) (f r : Addr) (amt : Nat), doTransfer u f r amt = some u' → f ≠ self ∨ amt = 0 →
      u.bal self ≤ u'.bal self := by
    intro u u' f r amt hh hf
    have := (doTransfer_spec hh).2.2.2.2.1 self
    rcases hf with hf | rfl
    · have : self ≠ f := fun e => hf e.symm
      simp only [this, if_false] at *
      omega
    · simp at this; omega
  have bu : ∀ (u u' : Token) (f : Addr) (amt : Nat), doBurn u f amt = some u' → f ≠ self ∨ amt = 0 →
      u.bal self ≤ u'.bal self := by
    intro u u' f amt hh hf
    obtain ⟨_, _, _, _, _, e6⟩ := doBurn_spec hh
    rw [e6]; simp only [setB]
    rcases hf with hf | rfl
    · rw [if_neg (fun e => hf e.symm)]; exact Nat.le_refl _
    · split
      · rename_i g; rw [g]; simp
      · exact Nat.le_refl _
  have mi : ∀ (u u' : Token) (f : Addr) (amt : Nat), doMint u f amt = some u' → u.bal self ≤ u'.bal self := by
    intro u u' f amt hh
    obtain ⟨_, _, _, _, e6⟩ := doMint_spec hh
    rw [e6]; simp only [setB]
    split
    · rename_i g; rw [g]; omega
    · exact Nat.le_refl _
  cases call with
  | transfer to amt =>
    simp only [exec] at h; split at h
    · cases h
    · exact tr _ _ _ _ _ h (Or.inl (fun e => hself e.symm))
  | approve s amt => simp only [exec, Option.some.injEq] at h; subst h; exact Nat.le_refl _
  | transferFrom s r amt =>
    simp only [exec] at h; split at h
    · cases h
    · split at h
      · cases h
      · rename_i t1 ht1
        obtain ⟨k1, k2⟩ := spend_spec ht1
        have hb : t1.bal = t.bal := by rw [k2]
        rw [← hb]
        refine tr _ _ _ _ _ h ?_
        by_cases hs : s = self
        · right; rw [hs, hz] at k1; omega
        · exact Or.inl hs
  | mint to amt =>
    simp only [exec] at h; split at h
    · cases h
    · split at h
      · cases h
      · exact mi _ _ _ _ h
  | burn amt =>
    simp only [exec] at h; split at h
    · cases h
    · exact bu _ _ _ _ h (Or.inl (fun e => hself e.symm))
  | burnFrom f amt =>
    simp only [exec] at h; split at h
    · cases h
    · split at h
      · cases h
      · rename_i t1 ht1
        obtain ⟨k1, k2⟩ := spend_spec ht1
        have hb : t1.bal = t.bal := by rw [k2]
        rw [← hb]
        refine bu _ _ _ _ h ?_
        by_cases hs : f = self
        · right; rw [hs, hz] at k1; omega
        · exact Or.inl hs
  | sudoTransfer s r amt =>
    simp only [exec] at h; split at h
    · cases h
    · exact tr _ _ _ _ _ h (Or.inl (fun e => h1 r amt (by rw [e])))
  | sudoMint to amt =>
    simp only [exec] at h; split at h
    · cases h
    · exact mi _ _ _ _ h
  | sudoBurn f amt =>
    simp only [exec] at h; split at h
    · cases h
    · exact bu _ _ _ _ h (Or.inl (fun e => h2 amt (by rw [e])))
  | transferOwnership n =>
    simp only [exec] at h; split at h
    · cases h
    · split at h
      · cases h
      · cases h; exact Nat.le_refl _

/-- The supply of a token owned by someone else grows only by the chain's `sudoMint`. -/
theorem supply_keeps {c : Chain} {b : Bool} {caller : Addr} {call : Call} {t t' : Token}
    (h : exec c b caller call t = some t') (ho : caller ≠ t.owner)
    (hm : caller = c.chainAddr → ∀ r n, call ≠ .sudoMint r n) : t'.supply ≤ t.supply := by
  rcases Nat.lt_or_ge t.supply t'.supply with hlt | hge
  · rcases C24_mint c b caller call t t' h hlt with h1 | h1
    · exact absurd h1 ho
    · have hs := C23_step c b caller call t t' h
      cases call with
      | mint to amt =>
        clear hs
        simp only [exec] at h
        by_cases g : c.blocked to = true
        · rw [if_pos g] at h; cases h
        · rw [if_neg g, if_pos ho] at h; cases h
      | sudoMint to amt => exact absurd rfl (hm h1 to amt)
      | _ => simp only at hs; omega
  · exact hge

theorem inv_other {e : Env} (hchain : e.self ≠ e.chain.chainAddr) {s : WS} (hi : Inv e s) {caller a : Addr}
    {call : Call} {ts' : Addr → Option (Bool × Token)} (hc : caller ≠ e.self)
    (hch : caller = e.chain.chainAddr → ChainMay e s a call)
    (h : solCall e.chain s.ts caller a call = some ts') : Inv e { s with ts := ts' } := by
  obtain ⟨b, t, t', ha, he, rfl⟩ := solCall_some h
  have hz : ∀ x, t.allow e.self x = 0 := fun x => hi.allow a b t x ha
  refine inv_update hi ha (fun x => allow_zero he e.self hz (Or.inl hc) x) ?_ ?_
    (exec_sound _ _ _ _ _ _ he (hi.sound a b t ha))
  · intro hw
    cases ho : s.origin a with
    | none => exact absurd ho hw
    | some o =>
      obtain ⟨b1, t1, _, _, k1, _, k3, _⟩ := hi.live a o ho
      rw [ha] at k1; cases k1
      have hne : caller ≠ t.owner := by rw [k3]; exact hc
      refine ⟨?_, ?_⟩
      · by_cases heq : t'.owner = t.owner
        · exact heq
        · exact absurd ((C24_grants e.chain b caller call t t' he).2 heq).1 hne
      · apply supply_keeps he hne
        intro hcc r n hcall
        have := hch hcc
        rw [hcall] at this
        simp only [ChainMay] at this
        rw [ho] at this; cases this
  · intro ho
    by_cases hcc : caller = e.chain.chainAddr
    · have hm := hch hcc
      rw [hcc] at he
      refine chain_keeps he hz hchain ?_ ?_
      · intro r n hcall
        rw [hcall] at hm
        simp only [ChainMay] at hm
        rcases hm with hm | hm
        · exact hm rfl
        · exact hm ho
      · intro n hcall
        rw [hcall] at hm
        simp only [ChainMay] at hm
        exact hm rfl
    · rcases Nat.lt_or_ge (t'.bal e.self) (t.bal e.self) with hlt | hge
      · rcases C24_spend e.chain b caller call t t' he e.self hlt with h1 | h1 | ⟨h1, _⟩
        · exact absurd h1 hc
        · exact absurd h1 hcc
        · rw [hz] at h1; omega
      · exact hge

theorem inv_create {e : Env} {s s' : WS} {owner a : Addr} {d : Nat} (hi : Inv e s)
    (h : create e owner d s = some (s', a)) :
    Inv e s' ∧ s'.wrapped = s.wrapped ∧ s'.origin = s.origin ∧ s.ts a = none ∧
    s'.ts = upd s.ts a (true, Token.fresh owner) ∧ s'.dec a = d ∧ (∀ x, x ≠ a → s'.dec x = s.dec x) ∧
    s'.cbs = s.cbs ∧ s'.cbId = s.cbId := by
  unfold create at h
  simp only at h
  split at h
  · cases h
  · rename_i hn
    cases h
    refine ⟨⟨hi.fwd, hi.bwd, hi.flat, ?_, ?_, hi.cbs, ?_⟩, rfl, rfl, hn, rfl, if_pos rfl, fun x hx => if_neg hx, rfl, rfl⟩
    · intro w o hwo
      obtain ⟨b1, t1, b2, t2, h1, h2, h3, h4⟩ := hi.live w o hwo
      have c1 : w ≠ e.deployed s.nonce := by rintro rfl; rw [h1] at hn; cases hn
      have c2 : o ≠ e.deployed s.nonce := by rintro rfl; rw [h2] at hn; cases hn
      refine ⟨b1, t1, b2, t2, ?_, ?_, h3, ?_⟩
      · simp only [upd]; rw [if_neg c1]; exact h1
      · simp only [upd]; rw [if_neg c2]; exact h2
      · simp only; rw [if_neg c2]; exact h4
    · intro k b t x hk
      simp only [upd] at hk
      split at hk
      · cases hk; rfl
      · exact hi.allow k b t x hk
    · intro k b t hk
      simp only [upd] at hk
      split at hk
      · cases hk; exact fresh_sound _
      · exact hi.sound k b t hk

/-- `_convertDecimal` when locking: what is minted is covered by what is locked. -/
theorem convert_covers {amount d wa : Nat} (h : convertDecimal amount d 6 = some wa) (L S : Nat)
    (hc : Covers d L S) : Covers d (L + amount) (S + wa) := by
  unfold convertDecimal at h
  split at h
  · cases h
  · rename_i v hv
    split at h
    · cases h
    · cases h
      unfold scale at hv
      unfold Covers at hc ⊢
      by_cases c1 : 6 < d
      · rw [if_pos c1] at hv
        rw [if_pos (by omega)] at hc ⊢
        unfold pow10 at hv
        split at hv
        · simp only [Option.map_some, Option.some.injEq] at hv
          have := Nat.div_mul_le_self amount (10 ^ (d - 6))
          rw [hv] at this
          rw [Nat.add_mul]
          omega
        · cases hv
      · rw [if_neg c1] at hv
        by_cases c2 : d < 6
        · rw [if_pos c2] at hv
          rw [if_neg (by omega)] at hc ⊢
          split at hv
          · cases hv
          · rename_i f hf
            unfold pow10 at hf
            split at hf
            · cases hf
              unfold mulU at hv
              split at hv
              · cases hv
                rw [Nat.add_mul]
                omega
              · cases hv
            · cases hf
        · rw [if_neg c2] at hv
          cases hv
          have : d = 6 := by omega
          subst this
          simp at hc ⊢
          omega

/-- `_convertDecimal` when redeeming: what is paid out was covered, and the rest stays covered. -/
theorem convert_uncovers {wa d amount : Nat} (h : convertDecimal wa 6 d = some amount) (L S : Nat)
    (hc : Covers d L S) (hs : wa ≤ S) : amount ≤ L ∧ Covers d (L - amount) (S - wa) := by
  unfold convertDecimal at h
  split at h
  · cases h
  · rename_i v hv
    split at h
    · cases h
    · cases h
      unfold scale at hv
      unfold Covers at hc ⊢
      by_cases c1 : d < 6
      · rw [if_pos c1] at hv
        rw [if_neg (by omega)] at hc ⊢
        unfold pow10 at hv
        split at hv
        · simp only [Option.map_some, Option.some.injEq] at hv
          have h1 := Nat.div_mul_le_self wa (10 ^ (6 - d))
          rw [hv] at h1
          have hle : amount ≤ L := by
            rw [← hv]
            have hpos : 0 < 10 ^ (6 - d) := Nat.pow_pos (by decide)
            rw [Nat.div_le_iff_le_mul_add_pred hpos]
            have := Nat.le_trans hs hc
            rw [Nat.mul_comm] at this
            omega
          refine ⟨hle, ?_⟩
          rw [Nat.sub_mul]
          omega
        · cases hv
      · rw [if_neg c1] at hv
        by_cases c2 : 6 < d
        · rw [if_pos c2] at hv
          rw [if_pos (by omega)] at hc ⊢
          split at hv
          · cases hv
          · rename_i f hf
            unfold pow10 at hf
            split at hf
            · cases hf
              unfold mulU at hv
              split at hv
              · cases hv
                have : wa * 10 ^ (d - 6) ≤ S * 10 ^ (d - 6) := Nat.mul_le_mul_right _ hs
                refine ⟨by omega, ?_⟩
                rw [Nat.sub_mul]
                omega
              · cases hv
            · cases hf
        · rw [if_neg c2] at hv
          cases hv
          have : d = 6 := by omega
          subst this
          simp at hc ⊢
          omega

/-- Change the two tokens of one pair. -/
theorem inv_two {e : Env} {s s' : WS} (hi : Inv e s) {w o : Addr} {b b' : Bool} {u u' : Token}
    (hwo : s.origin w = some o) (h1 : s'.wrapped = s.wrapped) (h2 : s'.origin = s.origin) (h3 : s'.dec = s.dec)
    (hw : s'.ts w = some (b, u)) (ho : s'.ts o = some (b', u'))
    (hx : ∀ x, x ≠ w → x ≠ o → s'.ts x = s.ts x)
    (ha : ∀ x, u.allow e.self x = 0) (ha' : ∀ x, u'.allow e.self x = 0)
    (hs : Sound u) (hs' : Sound u') (hown : u.owner = e.self)
    (hcov : Covers (s.dec o) (u'.bal e.self) u.supply)
    (hcb : ∀ i x w wa, s'.cbs i = some (x, w, wa) → wa ≠ 0) : Inv e s' := by
  have key : ∀ x, x = w ∨ x = o ∨ (x ≠ w ∧ x ≠ o) := by
    intro x; by_cases c : x = w
    · exact Or.inl c
    · by_cases c' : x = o
      · exact Or.inr (Or.inl c')
      · exact Or.inr (Or.inr ⟨c, c'⟩)
  refine ⟨?_, ?_, ?_, ?_, ?_, hcb, ?_⟩
  · intro x y hxy; rw [h1] at hxy; rw [h2]; exact hi.fwd x y hxy
  · intro x y hxy; rw [h2] at hxy; rw [h1]; exact hi.bwd x y hxy
  · intro x y hxy; rw [h2] at hxy ⊢; exact hi.flat x y hxy
  · intro x y hxy
    rw [h2] at hxy
    rw [h3]
    by_cases c : x = w
    · subst c
      rw [hwo] at hxy; cases hxy
      exact ⟨b, u, b', u', hw, ho, hown, hcov⟩
    · have hfl := hi.flat x y hxy
      have c1 : x ≠ o := by rintro rfl; rw [hi.flat w x hwo] at hxy; cases hxy
      have c2 : y ≠ w := by rintro rfl; rw [hwo] at hfl; cases hfl
      have c3 : y ≠ o := by
        rintro rfl
        have := hi.bwd x y hxy
        rw [hi.bwd w y hwo] at this
        cases this; exact c rfl
      rw [hx x c c1, hx y c2 c3]
      exact hi.live x y hxy
  · intro k b1 t1 x hk
    rcases key k with rfl | rfl | ⟨c1, c2⟩
    · rw [hw] at hk; cases hk; exact ha x
    · rw [ho] at hk; cases hk; exact ha' x
    · rw [hx k c1 c2] at hk; exact hi.allow k b1 t1 x hk
  · intro k b1 t1 hk
    rcases key k with rfl | rfl | ⟨c1, c2⟩
    · rw [hw] at hk; cases hk; exact hs
    · rw [ho] at hk; cases hk; exact hs'
    · rw [hx k c1 c2] at hk; exact hi.sound k b1 t1 hk

theorem inv_ensure {e : Env} {s s' : WS} (hi : Inv e s) {token : Addr} (hn : s.origin token = none)
    (h : ensureWrapped e token s = some s') :
    Inv e s' ∧ s'.cbs = s.cbs ∧ s'.origin token = none := by
  unfold ensureWrapped at h
  split at h
  · cases h; exact ⟨hi, rfl, hn⟩
  · rename_i hw
    by_cases hc : (s.ts token).isNone = true
    · rw [if_pos hc] at h; cases h
    · rw [if_neg hc] at h
      split at h
      · cases h
      · rename_i s1 w hcr
        obtain ⟨i1, e1, e2, e3, e4, e5, e6, e7, e8⟩ := inv_create hi hcr
        cases h
        cases htk : s.ts token with
        | none => rw [htk] at hc; exact absurd rfl hc
        | some v =>
          obtain ⟨bt, tt⟩ := v
          have hne : w ≠ token := by rintro rfl; rw [e3] at htk; cases htk
          have hnow : ∀ x, s.origin x ≠ some w := by
            intro x hx
            obtain ⟨_, _, _, _, _, k, _⟩ := hi.live x w hx
            rw [e3] at k; cases k
          have hnw : s.origin w = none := by
            cases hh : s.origin w with
            | none => rfl
            | some o =>
              obtain ⟨_, _, _, _, k, _⟩ := hi.live w o hh
              rw [e3] at k; cases k
          refine ⟨⟨?_, ?_, ?_, ?_, i1.allow, i1.cbs, i1.sound⟩, e7, ?_⟩
          · intro o x hox
            simp only at hox ⊢
            by_cases c : o = token
            · subst c; rw [if_pos rfl] at hox; cases hox; rw [if_pos rfl]
            · rw [if_neg c] at hox
              have := i1.fwd o x hox
              have : x ≠ w := by rintro rfl; rw [e2, hnw] at this; cases this
              rw [if_neg this]; exact i1.fwd o x hox
          · intro x o hxo
            simp only at hxo ⊢
            by_cases c : x = w
            · subst c; rw [if_pos rfl] at hxo; cases hxo; rw [if_pos rfl]
            · rw [if_neg c] at hxo
              have k := i1.bwd x o hxo
              have : o ≠ token := by rintro rfl; rw [e1, hw] at k; cases k
              rw [if_neg this]; exact k
          · intro x o hxo
            simp only at hxo ⊢
            by_cases c : x = w
            · subst c; rw [if_pos rfl] at hxo; cases hxo
              rw [if_neg (fun h => hne h.symm), e2]; exact hn
            · rw [if_neg c] at hxo
              have : o ≠ w := by rintro rfl; rw [e2] at hxo; exact hnow x hxo
              rw [if_neg this]; exact i1.flat x o hxo
          · intro x o hxo
            simp only at hxo ⊢
            by_cases c : x = w
            · subst c; rw [if_pos rfl] at hxo; cases hxo
              refine ⟨true, Token.fresh e.self, bt, tt, ?_, ?_, rfl, ?_⟩
              · rw [e4]; simp [upd]
              · rw [e4]; simp only [upd]; rw [if_neg (fun h => hne h.symm)]; exact htk
              · unfold Covers Token.fresh; split <;> simp
            · rw [if_neg c] at hxo
              exact i1.live x o hxo
          · simp only
            rw [if_neg (fun h => hne h.symm), e2]; exact hn

theorem inv_wrap {e : Env} {s s' : WS} (hi : Inv e s) {user token : Addr} {amount : Nat} (hu : user ≠ e.self)
    (hn : s.origin token = none) (h : wrap e user token amount s = some s') : Inv e s' := by
  unfold wrap at h
  split at h
  · cases h
  · rename_i s1 hen
    obtain ⟨i1, ecb, hn1⟩ := inv_ensure hi hn hen
    split at h
    · cases h
    · rename_i ts2 hc1
      split at h
      · cases h
      · rename_i wa hwa
        split at h
        · cases h
        · rename_i w hw
          split at h
          · cases h
          · rename_i ts3 hc2
            split at h
            · cases h
              obtain ⟨b1, t1, t1', k1, k2, rfl⟩ := solCall_some hc1
              obtain ⟨b2, t2, t2', k3, k4, rfl⟩ := solCall_some hc2
              have hwo := i1.fwd _ _ hw
              have hne : w ≠ token := by rintro rfl; rw [hwo] at hn1; cases hn1
              simp only [upd, if_neg hne] at k3
              obtain ⟨c1, d1, c2, d2, l1, l2, l3, l4⟩ := i1.live _ _ hwo
              rw [k3] at l1; cases l1
              rw [k1] at l2; cases l2
              have z1 := fun x => i1.allow token _ _ x k1
              have z2 := fun x => i1.allow w _ _ x k3
              have a1 := fun x => allow_zero k2 e.self z1 (Or.inr (by intro x n; simp)) x
              have a2 := fun x => allow_zero k4 e.self z2 (Or.inr (by intro x n; simp)) x
              have s1s := exec_sound _ _ _ _ _ _ k2 (i1.sound _ _ _ k1)
              have s2s := exec_sound _ _ _ _ _ _ k4 (i1.sound _ _ _ k3)
              have m := C23_step _ _ _ _ _ _ k4
              simp only at m
              have hown : t2'.owner = e.self := by
                have k5 := k4
                simp only [exec] at k5
                split at k5
                · cases k5
                · split at k5
                  · cases k5
                  · exact (doMint_spec k5).2.2.2.1.trans l3
              have hb : t1'.bal e.self = t1.bal e.self + amount := by
                simp only [exec] at k2
                split at k2
                · cases k2
                · split at k2
                  · cases k2
                  · rename_i tm htm
                    obtain ⟨_, q2⟩ := spend_spec htm
                    have hbm : tm.bal = t1.bal := by rw [q2]
                    have := (doTransfer_spec k2).2.2.2.2.1 e.self
                    rw [if_neg (fun h => hu h.symm), if_pos rfl, hbm] at this
                    omega
              refine inv_two i1 hwo rfl rfl rfl (b := b2) (u := t2') (b' := b1) (u' := t1') ?_ ?_ ?_ a2 a1 s2s s1s
                hown ?_ ?_
              · simp [upd]
              · simp only [upd]; rw [if_neg (fun h => hne h.symm)]; simp
              · intro x hx1 hx2; simp only [upd]; rw [if_neg hx1, if_neg hx2]
              · rw [hb, m]
                exact convert_covers hwa _ _ l4
              · intro i x y va hcb
                simp only at hcb
                split at hcb
                · cases hcb
                  unfold convertDecimal at hwa
                  split at hwa
                  · cases hwa
                  · split at hwa
                    · cases hwa
                    · cases hwa; assumption
                · exact i1.cbs i x y va hcb
            · cases h

theorem inv_unwrap {e : Env} {s s' : WS} (hi : Inv e s) {sender w r : Addr} {wa : Nat}
    (h : unwrap e sender w r wa s = some s') : Inv e s' := by
  unfold unwrap at h
  split at h
  · cases h
  · rename_i o hwo
    split at h
    · cases h
    · rename_i ts1 hc1
      split at h
      · cases h
      · rename_i amount ham
        split at h
        · cases h
        · rename_i ts2 hc2
          cases h
          obtain ⟨b1, t1, t1', k1, k2, rfl⟩ := solCall_some hc1
          obtain ⟨b2, t2, t2', k3, k4, rfl⟩ := solCall_some hc2
          have hne : o ≠ w := by rintro rfl; have := hi.flat _ _ hwo; rw [hwo] at this; cases this
          simp only [upd, if_neg hne] at k3
          obtain ⟨c1, d1, c2, d2, l1, l2, l3, l4⟩ := hi.live _ _ hwo
          rw [k1] at l1; cases l1
          rw [k3] at l2; cases l2
          have z1 := fun x => hi.allow w _ _ x k1
          have z2 := fun x => hi.allow o _ _ x k3
          have a1 := fun x => allow_zero k2 e.self z1 (Or.inr (by intro x n; simp)) x
          have a2 := fun x => allow_zero k4 e.self z2 (Or.inr (by intro x n; simp)) x
          have s1s := exec_sound _ _ _ _ _ _ k2 (hi.sound _ _ _ k1)
          have s2s := exec_sound _ _ _ _ _ _ k4 (hi.sound _ _ _ k3)
          have hown : t1'.owner = e.self := by
            have k5 := k2
            simp only [exec] at k5
            split at k5
            · cases k5
            · split at k5
              · cases k5
              · rename_i tm htm
                obtain ⟨_, q2⟩ := spend_spec htm
                have hbm : tm.owner = t1.owner := by rw [q2]
                exact ((doBurn_spec k5).2.2.2.2.1.trans hbm).trans l3
          have hsup : wa ≤ t1.supply ∧ t1'.supply = t1.supply - wa := by
            simp only [exec] at k2
            split at k2
            · cases k2
            · split at k2
              · cases k2
              · rename_i tm htm
                obtain ⟨_, q2⟩ := spend_spec htm
                have hbm : tm.supply = t1.supply := by rw [q2]
                obtain ⟨_, g2, g3, _⟩ := doBurn_spec k2
                rw [hbm] at g2 g3
                exact ⟨g2, g3⟩
          have hbal : t2.bal e.self - amount ≤ t2'.bal e.self := by
            simp only [exec] at k4
            split at k4
            · cases k4
            · have := (doTransfer_spec k4).2.2.2.2.1 e.self
              rw [if_pos rfl] at this
              split at this <;> omega
          obtain ⟨_, cov⟩ := convert_uncovers ham _ _ l4 hsup.1
          refine inv_two hi hwo rfl rfl rfl (b := b1) (u := t1') (b' := b2) (u' := t2') ?_ ?_ ?_ a1 a2 s1s s2s hown ?_ hi.cbs
          · simp only [upd]; rw [if_neg (fun h => hne h.symm)]; simp
          · simp [upd]
          · intro x hx1 hx2; simp only [upd]; rw [if_neg hx1, if_neg hx2]
          · rw [hsup.2]
            unfold Covers at cov ⊢
            by_cases c : 6 ≤ s.dec o
            · simp only [if_pos c] at cov ⊢
              omega
            · simp only [if_neg c] at cov ⊢
              exact Nat.le_trans cov (Nat.mul_le_mul_right _ hbal)

theorem step_inv {e : Env} (hchain : e.self ≠ e.chain.chainAddr) {s s' : WS} (hi : Inv e s)
    (h : Step e false s s') : Inv e s' := by
  cases h with
  | wrap user token amount _ hu hn h =>
    rcases hn with hn | hn
    · cases hn
    · exact inv_wrap hi hu hn h
  | unwrap user w r wa _ hu h => exact inv_unwrap hi h
  | failed sender id _ h =>
    unfold failedTransfer at h
    split at h
    · cases h
    · exact inv_unwrap hi h
  | other caller a call ts' hc hch h => exact inv_other hchain hi hc hch h
  | create owner a d _ h => exact (inv_create hi h).1

theorem reach_inv {e : Env} (hchain : e.self ≠ e.chain.chainAddr) {s0 s : WS} (hs : Start e s0)
    (h : Reach e false s0 s) : Inv e s := by
  induction h with
  | init => exact start_inv hs
  | step s s' _ hst ih => exact step_inv hchain ih hst

/-- **C49, solvency.** Start from any sound state in which the wrapper has been deployed, and let anything happen: wraps
and unwraps by anyone with tokens of any decimals, failed-transfer callbacks by anyone, any calls of any token by
anyone, new tokens, and the chain's own transfers, mints and burns, IBC transfers of the wrapper's minted tokens
included. As long as wrapped tokens are not themselves wrapped, the wrapper at all times holds enough of each origin
token to redeem the whole supply of its wrapped token. -/
theorem C49_solvent_partial (e : Env) (hchain : e.self ≠ e.chain.chainAddr) (s0 s : WS) (hs : Start e s0)
    (h : Reach e false s0 s) : Solvent e s := by
  intro w o b t b' t' hwo hw ho
  obtain ⟨c1, d1, c2, d2, l1, l2, _, l4⟩ := (reach_inv hchain hs h).live w o hwo
  rw [hw] at l1; cases l1
  rw [ho] at l2; cases l2
  exact l4

/-- **C49, redemption.** In every such state a holder who has approved the wrapper can redeem any amount up to the
balance that converts to at least one unit: the call succeeds, burns exactly that amount, and pays the receiver exactly
the converted amount. -/
theorem C49_redeem (e : Env) (hchain : e.self ≠ e.chain.chainAddr) (s0 s : WS) (hs : Start e s0)
    (h : Reach e false s0 s) (w o u r : Addr) (b : Bool) (t : Token) (wa amount : Nat)
    (hwo : s.origin w = some o) (hw : s.ts w = some (b, t))
    (hbal : wa ≤ t.bal u) (hal : wa ≤ t.allow u e.self) (hmod : e.chain.isModule u = false)
    (hr : e.chain.blocked r = false) (hcv : convertDecimal wa 6 (s.dec o) = some amount) :
    ∃ s' t1 b2 t2 t2', unwrap e u w r wa s = some s' ∧ s'.ts w = some (b, t1) ∧
      s.ts o = some (b2, t2) ∧ s'.ts o = some (b2, t2') ∧
      t1.bal u = t.bal u - wa ∧ (∀ x, x ≠ u → t1.bal x = t.bal x) ∧ t1.supply = t.supply - wa ∧
      (∀ x, t2'.bal x + (if x = e.self then amount else 0) = t2.bal x + (if x = r then amount else 0)) := by
  have hi := reach_inv hchain hs h
  obtain ⟨c1, d1, b2, t2, l1, l2, l3, l4⟩ := hi.live w o hwo
  rw [hw] at l1; cases l1
  have hne : o ≠ w := by rintro rfl; have := hi.flat _ _ hwo; rw [hwo] at this; cases this
  have hsd := hi.sound w _ _ hw
  have hsup : wa ≤ t.supply := Nat.le_trans hbal (sumsTo_set hsd.1 u 0).1
  obtain ⟨hamt, _⟩ := convert_uncovers hcv _ _ l4 hsup
  obtain ⟨t2', ht2'⟩ := doTransfer_accepts t2 (hi.sound o _ _ l2) e.self r amount hamt
  let t1 : Token := { bal := setB t.bal u (t.bal u - wa), supply := t.supply - wa, owner := t.owner,
                      allow := set2 t.allow u e.self (t.allow u e.self - wa) }
  have hex1 : exec e.chain b e.self (.burnFrom u wa) t = some t1 := by
    simp only [exec, hmod, spendAllowance, subU, hal, if_true, doBurn, hbal, hsup]
    simp [t1]
  have hc1 : solCall e.chain s.ts e.self w (.burnFrom u wa) = some (upd s.ts w (b, t1)) := by
    unfold solCall; rw [hw]; simp only; rw [hex1]
  have hc2 : solCall e.chain (upd s.ts w (b, t1)) e.self o (.transfer r amount) =
      some (upd (upd s.ts w (b, t1)) o (b2, t2')) := by
    unfold solCall
    have : upd s.ts w (b, t1) o = some (b2, t2) := by simp only [upd]; rw [if_neg hne]; exact l2
    rw [this]; simp only [exec, hr]
    simp [ht2']
  refine ⟨{ s with ts := upd (upd s.ts w (b, t1)) o (b2, t2') }, t1, b2, t2, t2', ?_, ?_, l2, ?_, ?_, ?_, rfl, ?_⟩
  · unfold unwrap; rw [hwo]; simp only; rw [hc1]; simp only; rw [hcv]; simp only; rw [hc2]
  · simp only [upd]; rw [if_neg (fun h => hne h.symm)]; simp
  · simp [upd]
  · simp [t1, setB]
  · intro x hx; simp [t1, setB, hx]
  · exact (doTransfer_spec ht2').2.2.2.2.1

/-- **C49, what a wrap does.** In every reachable state a successful wrap takes exactly `amount` of the origin token from
the user and gives it to the wrapper, mints exactly the converted amount, and changes no other token. -/
theorem C49_wrap (e : Env) (hchain : e.self ≠ e.chain.chainAddr) (s0 s s' : WS) (hs : Start e s0)
    (h : Reach e false s0 s) (user token : Addr) (amount : Nat) (hu : user ≠ e.self) (hn : s.origin token = none)
    (hw : wrap e user token amount s = some s') :
    ∃ w wa b t t' b2 t2 t2', s'.wrapped token = some w ∧ s'.origin w = some token ∧
      convertDecimal amount (s'.dec token) 6 = some wa ∧
      s.ts token = some (b, t) ∧ s'.ts token = some (b, t') ∧
      (∀ x, t'.bal x + (if x = user then amount else 0) = t.bal x + (if x = e.self then amount else 0)) ∧
      t'.supply = t.supply ∧
      (s.ts w = some (b2, t2) ∨ s.ts w = none ∧ b2 = true ∧ t2 = Token.fresh e.self) ∧
      s'.ts w = some (b2, t2') ∧ t2'.supply = t2.supply + wa ∧
      (∀ x, t2'.bal x = t2.bal x + (if x = e.self then wa else 0)) ∧
      (∀ x, x ≠ w → x ≠ token → s'.ts x = s.ts x) ∧
      s'.cbs s'.cbId = some (user, w, wa) := by
  have hi := reach_inv hchain hs h
  have hi' := inv_wrap hi hu hn hw
  unfold wrap at hw
  split at hw
  · cases hw
  · rename_i s1 hen
    obtain ⟨i1, ecb, hn1⟩ := inv_ensure hi hn hen
    split at hw
    · cases hw
    · rename_i ts2 hc1
      split at hw
      · cases hw
      · rename_i wa hwa
        split at hw
        · cases hw
        · rename_i w hwr
          split at hw
          · cases hw
          · rename_i ts3 hc2
            split at hw
            · cases hw
              obtain ⟨b1, t1, t1', k1, k2, rfl⟩ := solCall_some hc1
              obtain ⟨b2, t2, t2', k3, k4, rfl⟩ := solCall_some hc2
              have hwo := i1.fwd _ _ hwr
              have hne : w ≠ token := by rintro rfl; rw [hwo] at hn1; cases hn1
              simp only [upd, if_neg hne] at k3
              -- the ensured state differs only at w
              have hens : (∀ x, x ≠ w → s1.ts x = s.ts x) ∧
                  (s.ts w = some (b2, t2) ∨ s.ts w = none ∧ b2 = true ∧ t2 = Token.fresh e.self) := by
                unfold ensureWrapped at hen
                split at hen
                · cases hen; exact ⟨fun _ _ => rfl, Or.inl k3⟩
                · split at hen
                  · cases hen
                  · split at hen
                    · cases hen
                    · rename_i s2 w2 hcr
                      obtain ⟨_, _, _, e3, e4, _⟩ := inv_create hi hcr
                      cases hen
                      simp only [if_true, Option.some.injEq] at hwr
                      subst hwr
                      refine ⟨fun x hx => ?_, Or.inr ⟨e3, ?_⟩⟩
                      · simp only; rw [e4]; simp only [upd]; rw [if_neg hx]
                      · simp only at k3; rw [e4] at k3; simp only [upd, if_true, Option.some.injEq] at k3
                        cases k3; exact ⟨rfl, rfl⟩
              refine ⟨w, wa, b1, t1, t1', b2, t2, t2', hwr, hwo, hwa, ?_, ?_, ?_, ?_, hens.2, ?_, ?_, ?_, ?_, ?_⟩
              · rw [← hens.1 token (fun h => hne h.symm)]; exact k1
              · simp only [upd]; rw [if_neg (fun h => hne h.symm)]; simp
              · simp only [exec] at k2
                split at k2
                · cases k2
                · split at k2
                  · cases k2
                  · rename_i tm htm
                    obtain ⟨_, q2⟩ := spend_spec htm
                    have hbm : tm.bal = t1.bal := by rw [q2]
                    have := (doTransfer_spec k2).2.2.2.2.1
                    rw [hbm] at this; exact this
              · have := C23_step _ _ _ _ _ _ k2; simpa using this
              · simp [upd]
              · have := C23_step _ _ _ _ _ _ k4; simpa using this
              · simp only [exec] at k4
                split at k4
                · cases k4
                · split at k4
                  · cases k4
                  · obtain ⟨_, _, _, _, e6⟩ := doMint_spec k4
                    intro x; rw [e6]; simp only [setB]
                    split
                    · rename_i g; rw [g]
                    · simp
              · intro x hx1 hx2; simp only [upd]; rw [if_neg hx1, if_neg hx2]; exact hens.1 x hx1
              · simp
            · cases hw

/-- **C49, rounding.** With more than six decimals the remainder modulo the conversion factor stays locked: redeeming
what was minted pays back `amount - amount % factor`. -/
theorem C49_dust (amount d wa back : Nat) (hd : 6 < d) (h1 : convertDecimal amount d 6 = some wa)
    (h2 : convertDecimal wa 6 d = some back) : back = amount - amount % 10 ^ (d - 6) := by
  unfold convertDecimal scale at h1 h2
  rw [if_pos hd] at h1
  rw [if_neg (by omega), if_pos hd] at h2
  unfold pow10 at h1 h2
  by_cases c : 10 ^ (d - 6) < 2 ^ 256
  · rw [if_pos c] at h1 h2
    simp only [Option.map_some] at h1
    split at h1
    · cases h1
    · simp only [Option.some.injEq] at h1
      unfold mulU at h2
      simp only at h2
      by_cases c2 : wa * 10 ^ (d - 6) < 2 ^ 256
      · rw [if_pos c2] at h2
        simp only at h2
        split at h2
        · cases h2
        · cases h2
          rw [← h1]
          have := Nat.div_add_mod amount (10 ^ (d - 6))
          rw [Nat.mul_comm] at this
          omega
      · rw [if_neg c2] at h2; cases h2
  · rw [if_neg c] at h2; cases h2

example : convertDecimal 1234567890123456789 18 6 = some 1234567 ∧
    convertDecimal 1234567 6 18 = some 1234567000000000000 ∧ convertDecimal 999999999999 18 6 = none := by
  decide +kernel

/-- **C49, refund.** The refund of a failed IBC transfer never works: in every reachable state the callback that the
IBC hook makes, as the sender of the packet (the wrapper itself), reverts for every id, since the wrapper has not
approved itself to burn its own tokens. -/
theorem C49_refund_never_partial (e : Env) (hchain : e.self ≠ e.chain.chainAddr) (s0 s : WS) (hs : Start e s0)
    (h : Reach e false s0 s) (id : Nat) : failedTransfer e e.self id s = none := by
  have hi := reach_inv hchain hs h
  unfold failedTransfer
  split
  · rfl
  · rename_i u w wa hcb
    unfold unwrap
    split
    · rfl
    · have : solCall e.chain s.ts e.self w (.burnFrom e.self wa) = none := by
        unfold solCall
        split
        · rfl
        · rename_i b t ht
          have hz := hi.allow w b t e.self ht
          have hwa := hi.cbs id u w wa hcb
          simp only [exec, spendAllowance, subU, hz]
          have : ¬ wa ≤ 0 := by omega
          simp [this]
      rw [this]

/-- The wrapper is 20, the factory's contracts are 30, 31, ... -/
def toyW : Env := ⟨toyChain, Addr.ofNat 20, fun n => Addr.ofNat (30 + n)⟩

/-- A token of 6 decimals at 50 of which 100 (address 100) has 100 units. -/
def ws0 : WS where
  ts := fun k => if k = Addr.ofNat 50 then some (true, toyTok) else none
  dec := fun _ => 6
  wrapped := fun _ => none
  origin := fun _ => none
  cbs := fun _ => none
  cbId := 0
  nonce := 0

theorem ws0_start : Start toyW ws0 where
  wrapped _ := rfl
  origin _ := rfl
  cbs _ := rfl
  allow k b t x h := by
    simp only [ws0] at h
    split at h
    · cases h; rfl
    · cases h
  sound k b t h := by
    simp only [ws0] at h
    split at h
    · cases h
      refine ⟨⟨[alice], by simp, ?_, by decide +kernel⟩, by decide +kernel⟩
      intro a ha
      simp only [toyTok]
      rw [if_neg]
      intro hc; exact ha (by rw [hc]; exact List.mem_singleton.mpr rfl)
    · cases h

/-- Someone else's call, or nothing. -/
def doOther (caller a : Addr) (call : Call) (s : WS) : Option WS :=
  (solCall toyW.chain s.ts caller a call).map fun ts => { s with ts := ts }

theorem doOther_step {caller a : Addr} {call : Call} {s s' : WS} {n : Bool} (hc : caller ≠ toyW.self)
    (hch : caller = toyW.chain.chainAddr → ChainMay toyW s a call) (h : doOther caller a call s = some s') :
    Step toyW n s s' := by
  unfold doOther at h
  cases hh : solCall toyW.chain s.ts caller a call with
  | none => rw [hh] at h; cases h
  | some ts => rw [hh] at h; cases h; exact .other caller a call ts hc hch hh

def runN : Option WS :=
  (doOther alice (Addr.ofNat 50) (.approve (Addr.ofNat 20) 100) ws0).bind (wrap toyW alice (Addr.ofNat 50) 100)

def ws1 : WS := runN.getD ws0

/-- The message is dispatched: the minted tokens go out and come back to bob. -/
def runM : Option WS :=
  (doOther toyChain.chainAddr (Addr.ofNat 30) (.sudoTransfer (Addr.ofNat 20) bob 100) ws1).bind
    (doOther bob (Addr.ofNat 30) (.approve (Addr.ofNat 20) 100))

def ws2 : WS := runM.getD ws1

theorem of_getD {α : Type} {x : Option α} {d : α} (h : x.isSome = true) : x = some (x.getD d) := by
  cases x with
  | none => cases h
  | some v => rfl

theorem ws1_reach (n : Bool) : Reach toyW n ws0 ws1 := by
  have h : runN = some ws1 := of_getD (by decide +kernel)
  unfold runN at h
  cases h1 : doOther alice (Addr.ofNat 50) (.approve (Addr.ofNat 20) 100) ws0 with
  | none => rw [h1] at h; cases h
  | some s' =>
    rw [h1] at h
    have st : Step toyW n ws0 s' := doOther_step (by decide +kernel) (fun h => absurd h (by decide +kernel)) h1
    refine .step s' _ (.step _ _ .init st) (.wrap alice (Addr.ofNat 50) 100 _ (by decide +kernel) ?_ h)
    right
    unfold doOther at h1
    cases h2 : solCall toyW.chain ws0.ts alice (Addr.ofNat 50) (.approve (Addr.ofNat 20) 100) with
    | none => rw [h2] at h1; cases h1
    | some ts => rw [h2] at h1; cases h1; rfl

theorem ws2_reach (n : Bool) : Reach toyW n ws0 ws2 := by
  have h : runM = some ws2 := of_getD (by decide +kernel)
  unfold runM at h
  cases h1 : doOther toyChain.chainAddr (Addr.ofNat 30) (.sudoTransfer (Addr.ofNat 20) bob 100) ws1 with
  | none => rw [h1] at h; cases h
  | some s' =>
    rw [h1] at h
    have hmay : ChainMay toyW ws1 (Addr.ofNat 30) (.sudoTransfer (Addr.ofNat 20) bob 100) := Or.inr (by decide +kernel)
    have st : Step toyW n ws1 s' := doOther_step (by decide +kernel) (fun _ => hmay) h1
    exact .step _ _ (.step _ _ (ws1_reach n) st)
      (doOther_step (by decide +kernel) (fun h => absurd h (by decide +kernel)) h)

/-- The hypotheses of `C49_redeem` are met by a reachable state: bob redeems 60 of his 100 to himself. -/
example : ∃ s' t1 b2 t2 t2', unwrap toyW bob (Addr.ofNat 30) bob 60 ws2 = some s' ∧
    s'.ts (Addr.ofNat 30) = some (true, t1) ∧
      ws2.ts (Addr.ofNat 50) = some (b2, t2) ∧ s'.ts (Addr.ofNat 50) = some (b2, t2') ∧
      t1.bal bob = 40 ∧ t2'.bal bob = t2.bal bob + 60 := by
  have hb : ((ws2.ts (Addr.ofNat 30)).map fun x => (x.1, x.2.bal bob, x.2.allow bob (Addr.ofNat 20))) =
      some (true, 100, 100) := by decide +kernel
  cases ht : ws2.ts (Addr.ofNat 30) with
  | none => rw [ht] at hb; cases hb
  | some v =>
    obtain ⟨b, t⟩ := v
    rw [ht] at hb
    simp only [Option.map_some, Option.some.injEq, Prod.mk.injEq] at hb
    obtain ⟨rfl, hb1, hb2⟩ := hb
    obtain ⟨s', t1, b2, t2, t2', h1, h2, h3, h4, h5, _, _, h6⟩ :=
      C49_redeem toyW (by decide +kernel) ws0 ws2 ws0_start (ws2_reach false) (Addr.ofNat 30) (Addr.ofNat 50) bob bob
        true t 60 60 (by decide +kernel) ht (by rw [hb1]; decide) (by show 60 ≤ t.allow bob (Addr.ofNat 20); rw [hb2]; decide)
        (by decide +kernel) (by decide +kernel) (by decide +kernel)
    refine ⟨s', t1, b2, t2, t2', h1, h2, h3, h4, by rw [h5, hb1], ?_⟩
    have := h6 bob
    rw [if_neg (by decide +kernel), if_pos rfl] at this
    omega

/-- **C49, defect: refund.** There is a history with a wrap whose IBC transfer can fail, and yet its refund reverts,
though the wrapper still holds both the minted tokens and the locked ones. -/
theorem C49_refund_violated : Reach toyW false ws0 ws1 ∧ Start toyW ws0 ∧
    ws1.cbs 1 = some (alice, Addr.ofNat 30, 100) ∧ failedTransfer toyW toyW.self 1 ws1 = none ∧
    ((ws1.ts (Addr.ofNat 30)).map fun x => x.2.bal toyW.self) = some 100 ∧
    ((ws1.ts (Addr.ofNat 50)).map fun x => x.2.bal toyW.self) = some 100 :=
  ⟨ws1_reach false, ws0_start, by decide +kernel, C49_refund_never_partial toyW (by decide +kernel) ws0 ws1 ws0_start
    (ws1_reach false) 1, by decide +kernel, by decide +kernel⟩

/-- **C49, callback.** The callback of a failed transfer is open to everybody, and stays open after it has run: for a
recorded wrap of `user`, any account that holds and has approved the recorded amount of wrapped tokens can run it, and
then the caller's wrapped tokens are burned and the locked tokens are paid to `user`, the account that wrapped them,
whoever calls. -/
theorem C49_callback (e : Env) (hchain : e.self ≠ e.chain.chainAddr) (s0 s : WS) (hs : Start e s0)
    (h : Reach e false s0 s) (w o caller user : Addr) (b : Bool) (t : Token) (wa amount id : Nat)
    (hcb : s.cbs id = some (user, w, wa)) (hwo : s.origin w = some o) (hw : s.ts w = some (b, t))
    (hbal : wa ≤ t.bal caller) (hal : wa ≤ t.allow caller e.self) (hmod : e.chain.isModule caller = false)
    (hr : e.chain.blocked user = false) (hcv : convertDecimal wa 6 (s.dec o) = some amount) :
    ∃ s' t1 b2 t2 t2', failedTransfer e caller id s = some s' ∧ s'.cbs = s.cbs ∧ s'.ts w = some (b, t1) ∧
      s.ts o = some (b2, t2) ∧ s'.ts o = some (b2, t2') ∧
      t1.bal caller = t.bal caller - wa ∧ (∀ x, x ≠ caller → t1.bal x = t.bal x) ∧
      (∀ x, t2'.bal x + (if x = e.self then amount else 0) = t2.bal x + (if x = user then amount else 0)) := by
  obtain ⟨s', t1, b2, t2, t2', h1, h2, h3, h4, h5, h6, _, h8⟩ :=
    C49_redeem e hchain s0 s hs h w o caller user b t wa amount hwo hw hbal hal hmod hr hcv
  have hc : s'.cbs = s.cbs := by
    have h1' := h1
    unfold unwrap at h1'
    rw [hwo] at h1'
    simp only at h1'
    split at h1'
    · cases h1'
    · rw [hcv] at h1'
      simp only at h1'
      split at h1'
      · cases h1'
      · cases h1'; rfl
  refine ⟨s', t1, b2, t2, t2', ?_, hc, h2, h3, h4, h5, h6, h8⟩
  unfold failedTransfer
  rw [hcb]
  exact h1

/-- The hypotheses of `C49_callback` are met: after the transfer arrived and came back to bob, bob runs the callback of
alice's wrap, loses his 100 wrapped tokens, and alice has her 100 again. -/
example : ws2.cbs 1 = some (alice, Addr.ofNat 30, 100) ∧
    ((failedTransfer toyW bob 1 ws2).map fun s =>
      ((s.ts (Addr.ofNat 30)).map fun x => x.2.bal bob, (s.ts (Addr.ofNat 50)).map fun x => [x.2.bal alice, x.2.bal bob]))
      = some (some 0, some [100, 0]) := by
  refine ⟨by decide +kernel, by decide +kernel⟩

/-- bob wraps his wrapped tokens; then a message of a reverted `wrap` is dispatched all the same (C13). -/
def runK : Option WS := wrap toyW bob (Addr.ofNat 30) 100 ws2

def ws3 : WS := runK.getD ws2

def runL : Option WS := doOther toyChain.chainAddr (Addr.ofNat 30) (.sudoTransfer (Addr.ofNat 20) alice 40) ws3

def ws4 : WS := runL.getD ws3

/-- **C49, defect: nesting.** If wrapped tokens may be wrapped again, the wrapper can become insolvent: wrapped tokens
that it has locked are the same as those its own pending messages send out, and a message recorded by a reverted frame
(C13) is dispatched all the same. -/
theorem C49_nested_violated : ∃ s, Reach toyW true ws0 s ∧ Start toyW ws0 ∧ ¬ Solvent toyW s := by
  refine ⟨ws4, ?_, ws0_start, ?_⟩
  · have h3 : runK = some ws3 := of_getD (by decide +kernel)
    have h4 : runL = some ws4 := of_getD (by decide +kernel)
    refine .step _ _ (.step _ _ (ws2_reach true) (.wrap bob (Addr.ofNat 30) 100 _ (by decide +kernel) (Or.inl rfl) h3)) ?_
    have hmay : ChainMay toyW ws3 (Addr.ofNat 30) (.sudoTransfer (Addr.ofNat 20) alice 40) := Or.inr (by decide +kernel)
    exact doOther_step (by decide +kernel) (fun _ => hmay) h4
  · intro hs
    have hw : ((ws4.ts (Addr.ofNat 31)).map fun x => x.2.supply) = some 100 := by decide +kernel
    have ho : ((ws4.ts (Addr.ofNat 30)).map fun x => x.2.bal toyW.self) = some 60 := by decide +kernel
    cases h1 : ws4.ts (Addr.ofNat 31) with
    | none => rw [h1] at hw; cases hw
    | some v =>
      cases h2 : ws4.ts (Addr.ofNat 30) with
      | none => rw [h2] at ho; cases ho
      | some v' =>
        rw [h1] at hw; rw [h2] at ho
        simp only [Option.map_some, Option.some.injEq] at hw ho
        have := hs (Addr.ofNat 31) (Addr.ofNat 30) v.1 v.2 v'.1 v'.2 (by decide +kernel) h1 h2
        have hd : ws4.dec (Addr.ofNat 30) = 6 := by decide +kernel
        rw [hd, hw, ho] at this
        simp [Covers] at this

end Verif.Props.Wrapper
