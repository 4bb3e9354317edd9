import Verif.Model.Tokens
import Verif.Spec.Tokens
/-
C23 (supply is the sum of balances) and C24 (who may move or create tokens).
-/
namespace Verif.Props.Tokens
open Verif Verif.Tokens Verif.Spec.Tokens

/-! ### Sums -/

theorem sum_set_notin (f : Addr → Nat) (a : Addr) (v : Nat) (l : List Addr) (h : a ∉ l) :
    (l.map (setB f a v)).sum = (l.map f).sum := by
  induction l with
  | nil => rfl
  | cons x xs ih =>
    simp only [List.mem_cons, not_or] at h
    simp only [List.map_cons, List.sum_cons]
    rw [ih h.2]
    simp [setB, Ne.symm h.1]

theorem sum_set_mem (f : Addr → Nat) (a : Addr) (v : Nat) (l : List Addr) (hn : l.Nodup) (h : a ∈ l) :
    (l.map (setB f a v)).sum + f a = (l.map f).sum + v := by
  induction l with
  | nil => cases h
  | cons x xs ih =>
    simp only [List.nodup_cons] at hn
    simp only [List.map_cons, List.sum_cons]
    by_cases hx : a = x
    · subst hx
      rw [sum_set_notin f a v xs hn.1]
      simp [setB]; omega
    · have hxs : a ∈ xs := by
        rcases List.mem_cons.mp h with h | h
        · exact absurd h hx
        · exact h
      have := ih hn.2 hxs
      have e : setB f a v x = f x := by simp [setB, Ne.symm hx]
      rw [e]; omega

theorem sumsTo_set {f : Addr → Nat} {n : Nat} (h : SumsTo f n) (a : Addr) (v : Nat) :
    f a ≤ n ∧ SumsTo (setB f a v) (n - f a + v) := by
  obtain ⟨l, hn, hz, hs⟩ := h
  by_cases ha : a ∈ l
  · have e := sum_set_mem f a v l hn ha
    have le : f a ≤ (l.map f).sum := by
      have := sum_set_mem f a 0 l hn ha
      omega
    refine ⟨hs ▸ le, l, hn, ?_, by omega⟩
    intro b hb
    have : b ≠ a := by intro e; subst e; exact hb ha
    simp [setB, this, hz b hb]
  · have h0 := hz a ha
    refine ⟨by omega, a :: l, List.nodup_cons.mpr ⟨ha, hn⟩, ?_, ?_⟩
    · intro b hb
      simp only [List.mem_cons, not_or] at hb
      simp [setB, hb.1, hz b hb.2]
    · simp only [List.map_cons, List.sum_cons]
      rw [sum_set_notin f a v l ha]
      simp [setB, h0, hs]; omega

theorem subU_some {x y v : Nat} (h : subU x y = some v) : y ≤ x ∧ v = x - y := by
  unfold subU at h; split at h
  · cases h; exact ⟨by assumption, rfl⟩
  · cases h

theorem addU_some {x y v : Nat} (h : addU x y = some v) : v = x + y ∧ v < 2 ^ 256 := by
  unfold addU at h; split at h
  · cases h; exact ⟨rfl, by assumption⟩
  · cases h

/-- Effect of `_transfer` on balances, in one formula (self-transfers included). -/
theorem doTransfer_spec {t t' : Token} {s r : Addr} {amt : Nat} (h : doTransfer t s r amt = some t') :
    amt ≤ t.bal s ∧ t'.supply = t.supply ∧ t'.allow = t.allow ∧ t'.owner = t.owner ∧
    (∀ x, t'.bal x + (if x = s then amt else 0) = t.bal x + (if x = r then amt else 0)) ∧
    (∀ x, t'.bal x < 2 ^ 256 ∨ t'.bal x ≤ t.bal x) ∧
    ∃ v w, t'.bal = setB (setB t.bal s v) r w ∧ v = t.bal s - amt ∧ w = setB t.bal s v r + amt := by
  unfold doTransfer at h
  split at h
  · cases h
  · rename_i v hv
    simp only at h
    split at h
    · cases h
    · rename_i w hw
      cases h
      obtain ⟨h1, h2⟩ := subU_some hv
      obtain ⟨h3, h4⟩ := addU_some hw
      refine ⟨h1, rfl, rfl, rfl, ?_, ?_, v, w, rfl, h2, h3⟩
      · intro x
        subst h2; subst h3
        simp only [setB]
        by_cases a1 : x = r
        · subst a1
          by_cases a2 : x = s
          · subst a2; simp
            omega
          · simp [a2]
        · by_cases a2 : x = s
          · subst a2; simp [a1]; omega
          · simp [a1, a2]
      · intro x
        simp only [setB]
        by_cases a1 : x = r
        · subst a1; simp; exact Or.inl h4
        · by_cases a2 : x = s
          · subst a2; simp [a1]; right; omega
          · simp [a1, a2]

theorem doMint_spec {t t' : Token} {to : Addr} {amt : Nat} (h : doMint t to amt = some t') :
    t'.supply = t.supply + amt ∧ t'.supply < 2 ^ 256 ∧ t'.allow = t.allow ∧ t'.owner = t.owner ∧
    t'.bal = setB t.bal to (t.bal to + amt) := by
  unfold doMint at h
  split at h
  · rename_i v s hv hs
    cases h
    obtain ⟨h1, _⟩ := addU_some hv
    obtain ⟨h3, h4⟩ := addU_some hs
    subst h1; subst h3
    exact ⟨rfl, h4, rfl, rfl, rfl⟩
  · cases h

theorem doBurn_spec {t t' : Token} {f : Addr} {amt : Nat} (h : doBurn t f amt = some t') :
    amt ≤ t.bal f ∧ amt ≤ t.supply ∧ t'.supply = t.supply - amt ∧ t'.allow = t.allow ∧ t'.owner = t.owner ∧
    t'.bal = setB t.bal f (t.bal f - amt) := by
  unfold doBurn at h
  split at h
  · rename_i v s hv hs
    cases h
    obtain ⟨h1, h2⟩ := subU_some hv
    obtain ⟨h3, h4⟩ := subU_some hs
    subst h2; subst h4
    exact ⟨h1, h3, rfl, rfl, rfl, rfl⟩
  · cases h

theorem spend_spec {t t' : Token} {f s : Addr} {amt : Nat} (h : spendAllowance t f s amt = some t') :
    amt ≤ t.allow f s ∧ t' = { t with allow := set2 t.allow f s (t.allow f s - amt) } := by
  unfold spendAllowance at h
  split at h
  · cases h
  · rename_i v hv
    cases h
    obtain ⟨h1, h2⟩ := subU_some hv
    subst h2
    exact ⟨h1, rfl⟩

/-- A token is sound: its supply is the sum of its balances and fits in 256 bits. -/
def Sound (t : Token) : Prop := SumsTo t.bal t.supply ∧ t.supply < 2 ^ 256

theorem doTransfer_sound {t t' : Token} {s r : Addr} {amt : Nat} (h : doTransfer t s r amt = some t')
    (ht : Sound t) : Sound t' := by
  obtain ⟨h1, h2, _, _, _, _, v, w, h3, h4, h5⟩ := doTransfer_spec h
  refine ⟨?_, by rw [h2]; exact ht.2⟩
  rw [h3, h2]
  obtain ⟨le1, s1⟩ := sumsTo_set ht.1 s v
  obtain ⟨le2, s2⟩ := sumsTo_set s1 r w
  have : t.supply - t.bal s + v - setB t.bal s v r + w = t.supply := by omega
  rw [this] at s2
  exact s2

theorem doMint_sound {t t' : Token} {to : Addr} {amt : Nat} (h : doMint t to amt = some t')
    (ht : Sound t) : Sound t' := by
  obtain ⟨h1, h2, _, _, h3⟩ := doMint_spec h
  refine ⟨?_, h2⟩
  rw [h1, h3]
  obtain ⟨le1, s1⟩ := sumsTo_set ht.1 to (t.bal to + amt)
  have : t.supply - t.bal to + (t.bal to + amt) = t.supply + amt := by omega
  rw [this] at s1
  exact s1

theorem doBurn_sound {t t' : Token} {f : Addr} {amt : Nat} (h : doBurn t f amt = some t')
    (ht : Sound t) : Sound t' := by
  obtain ⟨h1, h1', h2, _, _, h3⟩ := doBurn_spec h
  have := ht.2
  refine ⟨?_, by omega⟩
  rw [h2, h3]
  obtain ⟨le1, s1⟩ := sumsTo_set ht.1 f (t.bal f - amt)
  have : t.supply - t.bal f + (t.bal f - amt) = t.supply - amt := by omega
  rw [this] at s1
  exact s1

theorem exec_sound (c : Chain) (sudo : Bool) (caller : Addr) (call : Call) (t t' : Token)
    (h : exec c sudo caller call t = some t') (ht : Sound t) : Sound t' := by
  cases call with
  | transfer to amt =>
    simp only [exec] at h; split at h
    · cases h
    · exact doTransfer_sound h ht
  | approve s amt => simp only [exec, Option.some.injEq] at h; subst h; exact ht
  | transferFrom s r amt =>
    simp only [exec] at h; split at h
    · cases h
    · split at h
      · cases h
      · rename_i t1 h1
        obtain ⟨_, e⟩ := spend_spec h1
        subst e
        exact doTransfer_sound h ht
  | mint to amt =>
    simp only [exec] at h; split at h
    · cases h
    · split at h
      · cases h
      · exact doMint_sound h ht
  | burn amt =>
    simp only [exec] at h; split at h
    · cases h
    · exact doBurn_sound h ht
  | burnFrom f amt =>
    simp only [exec] at h; split at h
    · cases h
    · split at h
      · cases h
      · rename_i t1 h1
        obtain ⟨_, e⟩ := spend_spec h1
        subst e
        exact doBurn_sound h ht
  | sudoTransfer s r amt =>
    simp only [exec] at h; split at h
    · cases h
    · exact doTransfer_sound h ht
  | sudoMint to amt =>
    simp only [exec] at h; split at h
    · cases h
    · exact doMint_sound h ht
  | sudoBurn f amt =>
    simp only [exec] at h; split at h
    · cases h
    · exact doBurn_sound h ht
  | transferOwnership n =>
    simp only [exec] at h; split at h
    · cases h
    · split at h
      · cases h
      · cases h; exact ht

theorem fresh_sound (o : Addr) : Sound (Token.fresh o) :=
  ⟨⟨[], List.nodup_nil, fun _ _ => rfl, rfl⟩, Nat.two_pow_pos 256⟩

/-- The history of a token: calls by anyone, in any order; a reverting call changes nothing. -/
def runCalls (c : Chain) (sudo : Bool) : List (Addr × Call) → Token → Token
  | [], t => t
  | (caller, call) :: rest, t => runCalls c sudo rest ((exec c sudo caller call t).getD t)

/-- **C23.** For every token contract, after every history of calls by anyone since deployment (transfers, approvals,
mints, burns, chain-level operations, ownership changes; reverts included), the total supply is the sum of all
balances and fits in 256 bits. Both kinds of contract. -/
theorem C23_supply (c : Chain) (sudo : Bool) (owner : Addr) (calls : List (Addr × Call)) :
    SumsTo (runCalls c sudo calls (Token.fresh owner)).bal (runCalls c sudo calls (Token.fresh owner)).supply ∧
    (runCalls c sudo calls (Token.fresh owner)).supply < 2 ^ 256 := by
  have : ∀ t, Sound t → Sound (runCalls c sudo calls t) := by
    induction calls with
    | nil => intro t h; exact h
    | cons x xs ih =>
      intro t h
      obtain ⟨caller, call⟩ := x
      simp only [runCalls]
      apply ih
      cases he : exec c sudo caller call t with
      | none => simpa using h
      | some t' => simpa using exec_sound c sudo caller call t t' he h
  exact this _ (fresh_sound owner)

/-- What one call may do to the supply: mint and burn by exactly the amount, nothing else. -/
theorem C23_step (c : Chain) (sudo : Bool) (caller : Addr) (call : Call) (t t' : Token)
    (h : exec c sudo caller call t = some t') :
    t'.supply = match call with
      | .mint _ amt => t.supply + amt
      | .sudoMint _ amt => t.supply + amt
      | .burn amt => t.supply - amt
      | .burnFrom _ amt => t.supply - amt
      | .sudoBurn _ amt => t.supply - amt
      | _ => t.supply := by
  cases call with
  | transfer to amt =>
    simp only [exec] at h; split at h
    · cases h
    · exact (doTransfer_spec h).2.1
  | approve s amt => simp only [exec, Option.some.injEq] at h; subst h; rfl
  | transferFrom s r amt =>
    simp only [exec] at h; split at h
    · cases h
    · split at h
      · cases h
      · rename_i t1 h1
        obtain ⟨_, e⟩ := spend_spec h1
        subst e
        exact (doTransfer_spec h).2.1
  | mint to amt =>
    simp only [exec] at h; split at h
    · cases h
    · split at h
      · cases h
      · exact (doMint_spec h).1
  | burn amt =>
    simp only [exec] at h; split at h
    · cases h
    · exact (doBurn_spec h).2.2.1
  | burnFrom f amt =>
    simp only [exec] at h; split at h
    · cases h
    · split at h
      · cases h
      · rename_i t1 h1
        obtain ⟨_, e⟩ := spend_spec h1
        subst e
        exact (doBurn_spec h).2.2.1
  | sudoTransfer s r amt =>
    simp only [exec] at h; split at h
    · cases h
    · exact (doTransfer_spec h).2.1
  | sudoMint to amt =>
    simp only [exec] at h; split at h
    · cases h
    · exact (doMint_spec h).1
  | sudoBurn f amt =>
    simp only [exec] at h; split at h
    · cases h
    · exact (doBurn_spec h).2.2.1
  | transferOwnership n =>
    simp only [exec] at h; split at h
    · cases h
    · split at h
      · cases h
      · cases h; rfl

/-! ### C24 -/

/-- **C24 (spending).** If a call lowers someone's balance, then the caller is that account, or the chain (0x1), or had
been approved by the account for at least the amount taken — and its allowance shrinks by exactly that much. -/
theorem C24_spend (c : Chain) (sudo : Bool) (caller : Addr) (call : Call) (t t' : Token)
    (h : exec c sudo caller call t = some t') (a : Addr) (hdec : t'.bal a < t.bal a) :
    caller = a ∨ caller = c.chainAddr ∨
    (t.bal a - t'.bal a ≤ t.allow a caller ∧
      t'.allow a caller + (t.bal a - t'.bal a) ≤ t.allow a caller) := by
  have tr : ∀ (u u' : Token) (s r : Addr) (amt : Nat), doTransfer u s r amt = some u' → u'.bal a < u.bal a →
      a = s ∧ u.bal a - u'.bal a ≤ amt := by
    intro u u' s r amt hh hd
    have := (doTransfer_spec hh).2.2.2.2.1 a
    by_cases g : a = s
    · refine ⟨g, ?_⟩
      simp only [g, if_true] at this hd ⊢
      split at this <;> omega
    · simp only [g, if_false] at this
      split at this <;> omega
  have bu : ∀ (u u' : Token) (f : Addr) (amt : Nat), doBurn u f amt = some u' → u'.bal a < u.bal a →
      a = f ∧ u.bal a - u'.bal a ≤ amt := by
    intro u u' f amt hh hd
    obtain ⟨h1, _, _, _, _, h3⟩ := doBurn_spec hh
    rw [h3] at hd ⊢
    by_cases g : a = f
    · refine ⟨g, ?_⟩
      simp only [g, setB, if_true] at hd ⊢; omega
    · simp [setB, g] at hd
  have mi : ∀ (u u' : Token) (f : Addr) (amt : Nat), doMint u f amt = some u' → ¬ u'.bal a < u.bal a := by
    intro u u' f amt hh hd
    obtain ⟨_, _, _, _, h3⟩ := doMint_spec hh
    rw [h3] at hd
    by_cases g : a = f
    · subst g; simp [setB] at hd; omega
    · simp [setB, g] at hd
  cases call with
  | transfer to amt =>
    simp only [exec] at h; split at h
    · cases h
    · exact Or.inl (tr _ _ _ _ _ h hdec).1.symm
  | approve s amt => simp only [exec, Option.some.injEq] at h; subst h; exact absurd hdec (Nat.lt_irrefl _)
  | transferFrom s r amt =>
    simp only [exec] at h; split at h
    · cases h
    · split at h
      · cases h
      · rename_i t1 h1
        obtain ⟨hle, e⟩ := spend_spec h1
        subst e
        obtain ⟨hs, hle2⟩ := tr _ _ _ _ _ h hdec
        subst hs
        have hall := (doTransfer_spec h).2.2.1
        right; right
        rw [hall]
        have hle3 : t.bal a - t'.bal a ≤ amt := hle2
        simp only [set2, and_self, if_true]
        omega
  | mint to amt =>
    simp only [exec] at h; split at h
    · cases h
    · split at h
      · cases h
      · exact absurd hdec (mi _ _ _ _ h)
  | burn amt =>
    simp only [exec] at h; split at h
    · cases h
    · exact Or.inl (bu _ _ _ _ h hdec).1.symm
  | burnFrom f amt =>
    simp only [exec] at h; split at h
    · cases h
    · split at h
      · cases h
      · rename_i t1 h1
        obtain ⟨hle, e⟩ := spend_spec h1
        subst e
        obtain ⟨hs, hle2⟩ := bu _ _ _ _ h hdec
        subst hs
        have hall := (doBurn_spec h).2.2.2.1
        right; right
        rw [hall]
        have hle3 : t.bal a - t'.bal a ≤ amt := hle2
        simp only [set2, and_self, if_true]
        omega
  | sudoTransfer s r amt =>
    simp only [exec] at h; split at h
    · cases h
    · rename_i g; right; left; simpa using g
  | sudoMint to amt =>
    simp only [exec] at h; split at h
    · cases h
    · exact absurd hdec (mi _ _ _ _ h)
  | sudoBurn f amt =>
    simp only [exec] at h; split at h
    · cases h
    · rename_i g
      right; left
      simp only [not_or, ne_eq, Decidable.not_not] at g
      exact g.2
  | transferOwnership n =>
    simp only [exec] at h; split at h
    · cases h
    · split at h
      · cases h
      · cases h; exact absurd hdec (Nat.lt_irrefl _)

/-- **C24 (creation).** Only the owner or the chain can increase the supply. -/
theorem C24_mint (c : Chain) (sudo : Bool) (caller : Addr) (call : Call) (t t' : Token)
    (h : exec c sudo caller call t = some t') (hinc : t.supply < t'.supply) :
    caller = t.owner ∨ caller = c.chainAddr := by
  have hs := C23_step c sudo caller call t t' h
  cases call with
  | mint to amt =>
    simp only [exec] at h; split at h
    · cases h
    · split at h
      · cases h
      · rename_i g; left; simpa using g
  | sudoMint to amt =>
    simp only [exec] at h; split at h
    · cases h
    · rename_i g
      right
      simp only [not_or, ne_eq, Decidable.not_not] at g
      exact g.2
  | _ => simp only at hs; omega

/-- **C24 (receiving).** Except by the chain, a blocked address never receives tokens. -/
theorem C24_blocked (c : Chain) (sudo : Bool) (caller : Addr) (call : Call) (t t' : Token)
    (h : exec c sudo caller call t = some t') (a : Addr) (hb : c.blocked a = true)
    (hinc : t.bal a < t'.bal a) : caller = c.chainAddr := by
  have tr : ∀ (u u' : Token) (s r : Addr) (amt : Nat), doTransfer u s r amt = some u' → u.bal a < u'.bal a →
      a = r := by
    intro u u' s r amt hh hd
    have := (doTransfer_spec hh).2.2.2.2.1 a
    by_cases g : a = r
    · exact g
    · simp only [g, if_false] at this
      split at this <;> omega
  have bu : ∀ (u u' : Token) (f : Addr) (amt : Nat), doBurn u f amt = some u' → ¬ u.bal a < u'.bal a := by
    intro u u' f amt hh hd
    obtain ⟨h1, _, _, _, _, h3⟩ := doBurn_spec hh
    rw [h3] at hd
    by_cases g : a = f
    · subst g; simp [setB] at hd; omega
    · simp [setB, g] at hd
  have mi : ∀ (u u' : Token) (f : Addr) (amt : Nat), doMint u f amt = some u' → u.bal a < u'.bal a → a = f := by
    intro u u' f amt hh hd
    obtain ⟨_, _, _, _, h3⟩ := doMint_spec hh
    rw [h3] at hd
    by_cases g : a = f
    · exact g
    · simp [setB, g] at hd
  cases call with
  | transfer to amt =>
    simp only [exec] at h; split at h
    · cases h
    · rename_i g
      have := tr _ _ _ _ _ h hinc
      subst this; exact absurd hb (by simpa using g)
  | approve s amt => simp only [exec, Option.some.injEq] at h; subst h; exact absurd hinc (Nat.lt_irrefl _)
  | transferFrom s r amt =>
    simp only [exec] at h; split at h
    · cases h
    · rename_i g
      split at h
      · cases h
      · rename_i t1 h1
        obtain ⟨hle, e⟩ := spend_spec h1
        subst e
        have := tr _ _ _ _ _ h hinc
        subst this; exact absurd hb (by simpa using g)
  | mint to amt =>
    simp only [exec] at h; split at h
    · cases h
    · rename_i g
      split at h
      · cases h
      · have := mi _ _ _ _ h hinc
        subst this; exact absurd hb (by simpa using g)
  | burn amt =>
    simp only [exec] at h; split at h
    · cases h
    · exact absurd hinc (bu _ _ _ _ h)
  | burnFrom f amt =>
    simp only [exec] at h; split at h
    · cases h
    · split at h
      · cases h
      · rename_i t1 h1
        obtain ⟨hle, e⟩ := spend_spec h1
        subst e
        have hn := bu _ _ _ _ h
        exact absurd hinc hn
  | sudoTransfer s r amt =>
    simp only [exec] at h; split at h
    · cases h
    · rename_i g; simpa using g
  | sudoMint to amt =>
    simp only [exec] at h; split at h
    · cases h
    · rename_i g
      simp only [not_or, ne_eq, Decidable.not_not] at g
      exact g.2
  | sudoBurn f amt =>
    simp only [exec] at h; split at h
    · cases h
    · exact absurd hinc (bu _ _ _ _ h)
  | transferOwnership n =>
    simp only [exec] at h; split at h
    · cases h
    · split at h
      · cases h
      · cases h; exact absurd hinc (Nat.lt_irrefl _)

/-- **C24 (approvals and ownership).** An allowance only grows when its grantor says so; ownership only changes when
the owner says so, and never to the zero address. -/
theorem C24_grants (c : Chain) (sudo : Bool) (caller : Addr) (call : Call) (t t' : Token)
    (h : exec c sudo caller call t = some t') :
    (∀ a s, t.allow a s < t'.allow a s → caller = a ∧ call = .approve s (t'.allow a s)) ∧
    (t'.owner ≠ t.owner → caller = t.owner ∧ t'.owner ≠ c.zero) := by
  have same : t'.allow = t.allow ∧ t'.owner = t.owner → (∀ a s, t.allow a s < t'.allow a s →
      caller = a ∧ call = .approve s (t'.allow a s)) ∧
      (t'.owner ≠ t.owner → caller = t.owner ∧ t'.owner ≠ c.zero) := by
    intro ⟨e1, e2⟩
    refine ⟨?_, ?_⟩
    · intro a s hlt; rw [e1] at hlt; exact absurd hlt (Nat.lt_irrefl _)
    · intro g; exact absurd e2 g
  have spend : ∀ f s amt, t'.allow = set2 t.allow f s (t.allow f s - amt) ∧ t'.owner = t.owner →
      (∀ a s, t.allow a s < t'.allow a s → caller = a ∧ call = .approve s (t'.allow a s)) ∧
      (t'.owner ≠ t.owner → caller = t.owner ∧ t'.owner ≠ c.zero) := by
    intro f s amt ⟨e1, e2⟩
    refine ⟨?_, fun g => absurd e2 g⟩
    intro a s' hlt
    rw [e1] at hlt
    simp only [set2] at hlt
    split at hlt
    · rename_i g; obtain ⟨rfl, rfl⟩ := g; omega
    · exact absurd hlt (Nat.lt_irrefl _)
  cases call with
  | transfer to amt =>
    simp only [exec] at h; split at h
    · cases h
    · have := doTransfer_spec h; exact same ⟨this.2.2.1, this.2.2.2.1⟩
  | approve s amt =>
    simp only [exec, Option.some.injEq] at h; subst h
    refine ⟨?_, fun g => absurd rfl g⟩
    intro a s' hlt
    simp only [set2] at hlt ⊢
    split at hlt
    · rename_i g; obtain ⟨rfl, rfl⟩ := g; simp
    · exact absurd hlt (Nat.lt_irrefl _)
  | transferFrom s r amt =>
    simp only [exec] at h; split at h
    · cases h
    · split at h
      · cases h
      · rename_i t1 h1
        obtain ⟨_, e⟩ := spend_spec h1
        subst e
        have := doTransfer_spec h
        exact spend s caller amt ⟨this.2.2.1, this.2.2.2.1⟩
  | mint to amt =>
    simp only [exec] at h; split at h
    · cases h
    · split at h
      · cases h
      · have := doMint_spec h; exact same ⟨this.2.2.1, this.2.2.2.1⟩
  | burn amt =>
    simp only [exec] at h; split at h
    · cases h
    · have := doBurn_spec h; exact same ⟨this.2.2.2.1, this.2.2.2.2.1⟩
  | burnFrom f amt =>
    simp only [exec] at h; split at h
    · cases h
    · split at h
      · cases h
      · rename_i t1 h1
        obtain ⟨_, e⟩ := spend_spec h1
        subst e
        have := doBurn_spec h
        exact spend f caller amt ⟨this.2.2.2.1, this.2.2.2.2.1⟩
  | sudoTransfer s r amt =>
    simp only [exec] at h; split at h
    · cases h
    · have := doTransfer_spec h; exact same ⟨this.2.2.1, this.2.2.2.1⟩
  | sudoMint to amt =>
    simp only [exec] at h; split at h
    · cases h
    · have := doMint_spec h; exact same ⟨this.2.2.1, this.2.2.2.1⟩
  | sudoBurn f amt =>
    simp only [exec] at h; split at h
    · cases h
    · have := doBurn_spec h; exact same ⟨this.2.2.2.1, this.2.2.2.2.1⟩
  | transferOwnership n =>
    simp only [exec] at h; split at h
    · cases h
    · rename_i g
      split at h
      · cases h
      · rename_i g2
        cases h
        refine ⟨?_, ?_⟩
        · intro a s hlt; exact absurd hlt (Nat.lt_irrefl _)
        · intro _; exact ⟨by simpa using g, g2⟩

/-- A small chain: 0x1 is the chain, 3 is blocked. -/
def toyChain : Chain := ⟨fun a => a == Addr.ofNat 3, fun _ => false, Addr.ofNat 1, Addr.zero⟩

/-- A history with a mint, an approval, a transferFrom, a refused transfer to a blocked address and a burn: 100 minted,
10 burned. -/
def toyCalls : List (Addr × Call) :=
  [(Addr.ofNat 7, .mint (Addr.ofNat 8) 100), (Addr.ofNat 8, .approve (Addr.ofNat 9) 30),
   (Addr.ofNat 9, .transferFrom (Addr.ofNat 8) (Addr.ofNat 10) 25), (Addr.ofNat 8, .transfer (Addr.ofNat 3) 5),
   (Addr.ofNat 10, .burn 10), (Addr.ofNat 8, .mint (Addr.ofNat 8) 1000)]

example : (runCalls toyChain true toyCalls (Token.fresh (Addr.ofNat 7))).supply = 90 ∧
    (runCalls toyChain true toyCalls (Token.fresh (Addr.ofNat 7))).bal (Addr.ofNat 8) = 75 ∧
    (runCalls toyChain true toyCalls (Token.fresh (Addr.ofNat 7))).bal (Addr.ofNat 10) = 15 ∧
    (runCalls toyChain true toyCalls (Token.fresh (Addr.ofNat 7))).bal (Addr.ofNat 3) = 0 ∧
    (runCalls toyChain true toyCalls (Token.fresh (Addr.ofNat 7))).allow (Addr.ofNat 8) (Addr.ofNat 9) = 5 := by
  decide +kernel

/-- The hypotheses of the C24 theorems are met by a successful `transferFrom`. -/
example : ∃ t', exec toyChain true (Addr.ofNat 9) (.transferFrom (Addr.ofNat 8) (Addr.ofNat 10) 25)
    (runCalls toyChain true (toyCalls.take 2) (Token.fresh (Addr.ofNat 7))) = some t' ∧
    t'.bal (Addr.ofNat 8) = 75 := by
  cases h : exec toyChain true (Addr.ofNat 9) (.transferFrom (Addr.ofNat 8) (Addr.ofNat 10) 25)
    (runCalls toyChain true (toyCalls.take 2) (Token.fresh (Addr.ofNat 7))) with
  | none =>
    have : (exec toyChain true (Addr.ofNat 9) (.transferFrom (Addr.ofNat 8) (Addr.ofNat 10) 25)
      (runCalls toyChain true (toyCalls.take 2) (Token.fresh (Addr.ofNat 7)))).isSome = true := by decide +kernel
    rw [h] at this; cases this
  | some t' =>
    refine ⟨t', rfl, ?_⟩
    have : (exec toyChain true (Addr.ofNat 9) (.transferFrom (Addr.ofNat 8) (Addr.ofNat 10) 25)
      (runCalls toyChain true (toyCalls.take 2) (Token.fresh (Addr.ofNat 7)))).map (·.bal (Addr.ofNat 8)) =
        some 75 := by decide +kernel
    rw [h] at this; simpa using this

end Verif.Props.Tokens
