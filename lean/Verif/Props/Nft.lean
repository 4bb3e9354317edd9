import Verif.Props.Denom
import Verif.Spec.Nft
/-
C48: NFT classes, tokens, and operations on lists of tokens.
-/
namespace Verif.Props.Nft
open Verif Verif.Text Verif.Denom Verif.Nft Verif.Spec.Nft

theorem put_same {K V : Type} [DecidableEq K] (f : K → V) (k : K) (v : V) : put f k v k = v := if_pos rfl

theorem put_other {K V : Type} [DecidableEq K] (f : K → V) (k : K) (v : V) (x : K) (h : x ≠ k) : put f k v x = f x :=
  if_neg h

/-! ### One contract -/

theorem writeOwner_owners (c : Nft) (to : Addr) (id : Nat) : (writeOwner c to id).owners = put c.owners id to := by
  unfold writeOwner
  simp only
  split <;> split <;> rfl

theorem writeOwner_meta (c : Nft) (to : Addr) (id : Nat) :
    (writeOwner c to id).tokenUris = c.tokenUris ∧ (writeOwner c to id).tokenOriginIds = c.tokenOriginIds ∧
    (writeOwner c to id).operatorApprovals = c.operatorApprovals ∧ (writeOwner c to id).owner = c.owner := by
  unfold writeOwner
  simp only
  split <;> split <;> exact ⟨rfl, rfl, rfl, rfl⟩

theorem writeOwner_appr (c : Nft) (to : Addr) (id : Nat) :
    (writeOwner c to id).tokenApprovals =
      if c.owners id ≠ Addr.zero then put c.tokenApprovals id Addr.zero else c.tokenApprovals := by
  unfold writeOwner
  simp only
  split <;> split <;> rfl

theorem writeOwner_bal (c : Nft) (to : Addr) (id : Nat) (a : Addr) (ha : a ≠ Addr.zero) :
    (writeOwner c to id).balances a =
      (let b := if c.owners id = a then dec (c.balances a) else c.balances a
       if to = a then inc b else b) := by
  unfold writeOwner
  simp only
  by_cases h1 : c.owners id = Addr.zero
  · have h1' : c.owners id ≠ a := by rw [h1]; exact fun h => ha h.symm
    rw [if_neg (not_not_intro h1), if_neg h1']
    by_cases h2 : to = Addr.zero
    · have : to ≠ a := by rw [h2]; exact fun h => ha h.symm
      rw [if_neg (not_not_intro h2), if_neg this]
    · rw [if_pos h2]
      by_cases h3 : to = a
      · subst h3; simp [put]
      · rw [if_neg h3]; exact put_other _ _ _ _ (fun h => h3 h.symm)
  · rw [if_pos h1]
    have hb : (put c.balances (c.owners id) (dec (c.balances (c.owners id)))) a =
        if c.owners id = a then dec (c.balances a) else c.balances a := by
      by_cases h4 : c.owners id = a
      · rw [if_pos h4, h4, put_same]
      · rw [if_neg h4]; exact put_other _ _ _ _ (fun h => h4 h.symm)
    by_cases h2 : to = Addr.zero
    · have : to ≠ a := by rw [h2]; exact fun h => ha h.symm
      rw [if_neg (not_not_intro h2), if_neg this]
      exact hb
    · rw [if_pos h2]
      by_cases h3 : to = a
      · subst h3
        rw [if_pos rfl]
        simp only [put_same]
        rw [hb]
      · rw [if_neg h3]
        simp only
        rw [put_other _ _ _ _ (fun h => h3 h.symm)]
        exact hb

theorem update_some {c c' : Nft} {to auth : Addr} {id : Nat} (h : update c to id auth = some c') :
    c' = writeOwner c to id ∧ (auth ≠ Addr.zero → isAuthorized c (c.owners id) auth id = true) := by
  unfold update at h
  split at h
  · cases h
  · rename_i hn
    cases h
    refine ⟨rfl, fun ha => ?_⟩
    cases hh : isAuthorized c (c.owners id) auth id with
    | true => rfl
    | false => exact absurd ⟨ha, hh⟩ hn

theorem transferFrom_some {c c' : Nft} {x f t : Addr} {id : Nat} (h : transferFrom c x f t id = some c') :
    t ≠ Addr.zero ∧ c.owners id = f ∧ c' = writeOwner c t id ∧
    (x ≠ Addr.zero → isAuthorized c (c.owners id) x id = true) := by
  unfold transferFrom at h
  split at h
  · cases h
  · rename_i ht
    split at h
    · cases h
    · rename_i c1 hu
      split at h
      · cases h
      · rename_i ho
        cases h
        obtain ⟨e1, e2⟩ := update_some hu
        exact ⟨ht, Classical.not_not.mp ho, e1, e2⟩

theorem mintTok_some {c c' : Nft} {t : Addr} {id : Nat} (h : mintTok c t id = some c') :
    t ≠ Addr.zero ∧ c.owners id = Addr.zero ∧ c' = writeOwner c t id := by
  unfold mintTok at h
  split at h
  · cases h
  · rename_i ht
    split at h
    · cases h
    · rename_i c1 hu
      split at h
      · cases h
      · rename_i ho
        cases h
        exact ⟨ht, Classical.not_not.mp ho, (update_some hu).1⟩

theorem may_of_authorized {c : Nft} {x : Addr} {id : Nat} (h : isAuthorized c (c.owners id) x id = true) :
    x ≠ Addr.zero ∧ May c x id := by
  unfold isAuthorized at h
  simp only [Bool.and_eq_true, bne_iff_ne, ne_eq, Bool.or_eq_true, beq_iff_eq] at h
  obtain ⟨h1, h2⟩ := h
  refine ⟨h1, ?_⟩
  rcases h2 with (h2 | h2) | h2
  · exact Or.inl h2
  · exact Or.inr (Or.inl h2)
  · exact Or.inr (Or.inr h2)

theorem authorized_of_owner {c : Nft} {x : Addr} {id : Nat} (hx : x ≠ Addr.zero) (h : c.owners id = x) :
    isAuthorized c (c.owners id) x id = true := by
  unfold isAuthorized
  rw [h]; simp [hx]

/-- What one successful call does: nothing to ownership, a disposal by someone authorised, or a mint by the owner of the
contract. -/
theorem exec_cases {accepts : Addr → Bool} {x : Addr} {call : Call} {c c' : Nft}
    (h : exec accepts x call c = some c') :
    (c'.owners = c.owners ∧ c'.balances = c.balances ∧ c'.tokenUris = c.tokenUris ∧
      c'.tokenOriginIds = c.tokenOriginIds) ∨
    (∃ id to, c' = writeOwner c to id ∧ (x ≠ Addr.zero → isAuthorized c (c.owners id) x id = true)) ∨
    (∃ id to u o, call = .mint to id u o ∧ x = c.owner ∧ c.owners id = Addr.zero ∧ to ≠ Addr.zero ∧
      c' = { writeOwner c to id with
        tokenUris := put c.tokenUris id u, tokenOriginIds := put c.tokenOriginIds id o }) := by
  cases call with
  | approve to id =>
    simp only [exec] at h
    split at h
    · cases h
    · split at h
      · cases h
      · cases h; exact Or.inl ⟨rfl, rfl, rfl, rfl⟩
  | setApprovalForAll op b =>
    simp only [exec] at h
    split at h
    · cases h
    · cases h; exact Or.inl ⟨rfl, rfl, rfl, rfl⟩
  | transferFrom f t id =>
    simp only [exec] at h
    obtain ⟨_, _, h3, h4⟩ := transferFrom_some h
    exact Or.inr (Or.inl ⟨id, t, h3, h4⟩)
  | safeTransferFrom f t id =>
    simp only [exec] at h
    split at h
    · cases h
    · rename_i c1 hc1
      split at h
      · cases h
        obtain ⟨_, _, h3, h4⟩ := transferFrom_some hc1
        exact Or.inr (Or.inl ⟨id, t, h3, h4⟩)
      · cases h
  | burn id =>
    simp only [exec] at h
    split at h
    · cases h
    · split at h
      · cases h
      · rename_i ha
        exact Or.inr (Or.inl ⟨id, Addr.zero, (update_some h).1, fun _ => by simpa using ha⟩)
  | mint to id u o =>
    simp only [exec] at h
    split at h
    · cases h
    · rename_i hx
      split at h
      · cases h
      · rename_i c1 hc1
        split at h
        · cases h
          obtain ⟨h1, h2, h3⟩ := mintTok_some hc1
          refine Or.inr (Or.inr ⟨id, to, u, o, rfl, Classical.not_not.mp hx, h2, h1, ?_⟩)
          obtain ⟨m1, m2, _, _⟩ := writeOwner_meta c to id
          rw [h3, m1, m2]
        · cases h
  | transferOwnership n =>
    simp only [exec] at h
    split at h
    · cases h
    · split at h
      · cases h
      · cases h; exact Or.inl ⟨rfl, rfl, rfl, rfl⟩

theorem execMint_some {accepts : Addr → Bool} {x to : Addr} {id : Nat} {u o : Str} {c c' : Nft}
    (h : exec accepts x (.mint to id u o) c = some c') :
    x = c.owner ∧ c.owners id = Addr.zero ∧ to ≠ Addr.zero ∧
      c' = { writeOwner c to id with
        tokenUris := put c.tokenUris id u, tokenOriginIds := put c.tokenOriginIds id o } := by
  simp only [exec] at h
  split at h
  · cases h
  · rename_i hx
    split at h
    · cases h
    · rename_i c1 hc1
      split at h
      · cases h
        obtain ⟨h1, h2, h3⟩ := mintTok_some hc1
        refine ⟨Classical.not_not.mp hx, h2, h1, ?_⟩
        obtain ⟨m1, m2, _, _⟩ := writeOwner_meta c to id
        rw [h3, m1, m2]
      · cases h

/-! ### Counting tokens -/

theorem length_filter_ne (l : List Nat) (hn : l.Nodup) (id : Nat) :
    (l.filter fun i => decide (i ≠ id)).length + (if id ∈ l then 1 else 0) = l.length := by
  induction l with
  | nil => simp
  | cons y ys ih =>
    obtain ⟨h1, h2⟩ := List.nodup_cons.mp hn
    have := ih h2
    by_cases hy : y = id
    · subst hy
      rw [if_neg h1] at this
      rw [List.filter_cons_of_neg (by simp), if_pos List.mem_cons_self, List.length_cons]
      omega
    · have e1 : (if id ∈ y :: ys then 1 else 0) = (if id ∈ ys then 1 else 0) := by
        simp [List.mem_cons, show id ≠ y from fun h => hy h.symm]
      rw [e1]
      simp only [List.filter_cons, ne_eq, hy, not_false_eq_true, decide_true, if_true, List.length_cons]
      simp only [ne_eq] at this
      omega

/-- Counts after token `id` gets the owner `to`. -/
theorem owns_put {owners : Nat → Addr} {a to : Addr} {n id : Nat} (h : Owns owners a n) :
    ∃ m, Owns (put owners id to) a m ∧
      m + (if owners id = a then 1 else 0) = n + (if to = a then 1 else 0) := by
  obtain ⟨l, hn, hm, hl⟩ := h
  have hlen := length_filter_ne l hn id
  have hid : (if id ∈ l then 1 else 0) = (if owners id = a then 1 else 0) := by simp only [hm]
  rw [hid, hl] at hlen
  have hfn : (l.filter fun i => decide (i ≠ id)).Nodup := hn.sublist List.filter_sublist
  by_cases ht : to = a
  · refine ⟨(l.filter fun i => decide (i ≠ id)).length + 1,
      ⟨id :: l.filter (fun i => decide (i ≠ id)), ?_, ?_, rfl⟩, ?_⟩
    · rw [List.nodup_cons]; exact ⟨by simp, hfn⟩
    · intro i
      simp only [List.mem_cons, List.mem_filter, decide_eq_true_eq, put]
      by_cases hi : i = id
      · simp [hi, ht]
      · simp [hi, hm]
    · rw [if_pos ht]; omega
  · refine ⟨(l.filter fun i => decide (i ≠ id)).length, ⟨l.filter (fun i => decide (i ≠ id)), hfn, ?_, rfl⟩, ?_⟩
    · intro i
      simp only [List.mem_filter, decide_eq_true_eq, put]
      by_cases hi : i = id
      · simp [hi, ht]
      · simp [hi, hm]
    · rw [if_neg ht]; omega

/-- The invariant of one contract. -/
structure Inv (c : Nft) : Prop where
  appr : ∀ i, c.owners i = Addr.zero → c.tokenApprovals i = Addr.zero
  oper : ∀ y, c.operatorApprovals Addr.zero y = false
  count : ∀ a, a ≠ Addr.zero → ∃ n, Owns c.owners a n ∧ c.balances a = n % 2 ^ 256

theorem count_write {c : Nft} (hi : Inv c) (to : Addr) (id : Nat) (a : Addr) (ha : a ≠ Addr.zero) :
    ∃ n, Owns (writeOwner c to id).owners a n ∧ (writeOwner c to id).balances a = n % 2 ^ 256 := by
  obtain ⟨n, h1, h2⟩ := hi.count a ha
  obtain ⟨m, h3, h4⟩ := owns_put (to := to) (id := id) h1
  refine ⟨m, by rw [writeOwner_owners]; exact h3, ?_⟩
  rw [writeOwner_bal c to id a ha]
  have hpos : c.owners id = a → 0 < n := by
    intro h
    obtain ⟨l, _, hm, hl⟩ := h1
    have := List.length_pos_of_mem ((hm id).mpr h)
    omega
  unfold inc dec
  by_cases c1 : c.owners id = a
  · have := hpos c1
    by_cases c2 : to = a
    · simp only [if_pos c1, if_pos c2] at h4 ⊢; omega
    · simp only [if_pos c1, if_neg c2] at h4 ⊢; omega
  · by_cases c2 : to = a
    · simp only [if_neg c1, if_pos c2] at h4 ⊢; omega
    · simp only [if_neg c1, if_neg c2] at h4 ⊢; omega

theorem inv_write {c : Nft} (hi : Inv c) (to : Addr) (id : Nat) : Inv (writeOwner c to id) := by
  refine ⟨?_, ?_, fun a ha => count_write hi to id a ha⟩
  · intro i h
    rw [writeOwner_owners] at h
    rw [writeOwner_appr]
    by_cases hid : i = id
    · subst hid
      by_cases h0 : c.owners i = Addr.zero
      · rw [if_neg (not_not_intro h0)]; exact hi.appr i h0
      · rw [if_pos h0, put_same]
    · rw [put_other _ _ _ _ hid] at h
      have := hi.appr i h
      split
      · rw [put_other _ _ _ _ hid]; exact this
      · exact this
  · rw [(writeOwner_meta c to id).2.2.1]; exact hi.oper

theorem exec_inv {accepts : Addr → Bool} {x : Addr} {call : Call} {c c' : Nft} (hx : x ≠ Addr.zero) (hi : Inv c)
    (h : exec accepts x call c = some c') : Inv c' := by
  rcases exec_cases h with ⟨e1, e2, e3, e4⟩ | ⟨id, to, e1, _⟩ | ⟨id, to, u, o, _, _, _, _, e1⟩
  · refine ⟨?_, ?_, fun a ha => by rw [e1, e2]; exact hi.count a ha⟩
    · intro i hi0
      rw [e1] at hi0
      cases call with
      | approve to id =>
        simp only [exec] at h
        split at h
        · cases h
        · rename_i hz
          split at h
          · cases h
          · cases h
            have : i ≠ id := by rintro rfl; exact hz hi0
            simp only; rw [put_other _ _ _ _ this]; exact hi.appr i hi0
      | setApprovalForAll op b =>
        simp only [exec] at h
        split at h
        · cases h
        · cases h; exact hi.appr i hi0
      | transferFrom f t id =>
        simp only [exec] at h
        obtain ⟨_, _, h3, _⟩ := transferFrom_some h
        rw [h3]; exact (inv_write hi t id).appr i (by rw [← h3, e1]; exact hi0)
      | safeTransferFrom f t id =>
        simp only [exec] at h
        split at h
        · cases h
        · rename_i c1 hc1
          split at h
          · cases h
            obtain ⟨_, _, h3, _⟩ := transferFrom_some hc1
            rw [h3]; exact (inv_write hi t id).appr i (by rw [← h3, e1]; exact hi0)
          · cases h
      | burn id =>
        simp only [exec] at h
        split at h
        · cases h
        · split at h
          · cases h
          · have h3 := (update_some h).1
            rw [h3]; exact (inv_write hi Addr.zero id).appr i (by rw [← h3, e1]; exact hi0)
      | mint to id u o =>
        simp only [exec] at h
        split at h
        · cases h
        · split at h
          · cases h
          · rename_i c1 hc1
            split at h
            · cases h
              obtain ⟨_, _, h3⟩ := mintTok_some hc1
              simp only at e1 ⊢
              rw [h3]; exact (inv_write hi to id).appr i (by rw [← h3, e1]; exact hi0)
            · cases h
      | transferOwnership n =>
        simp only [exec] at h
        split at h
        · cases h
        · split at h
          · cases h
          · cases h; exact hi.appr i hi0
    · intro y
      cases call with
      | approve to id =>
        simp only [exec] at h
        split at h
        · cases h
        · split at h
          · cases h
          · cases h; exact hi.oper y
      | setApprovalForAll op b =>
        simp only [exec] at h
        split at h
        · cases h
        · cases h
          simp only
          rw [if_neg (fun hh => hx hh.1.symm)]
          exact hi.oper y
      | transferFrom f t id =>
        simp only [exec] at h
        obtain ⟨_, _, h3, _⟩ := transferFrom_some h
        rw [h3]; exact (inv_write hi t id).oper y
      | safeTransferFrom f t id =>
        simp only [exec] at h
        split at h
        · cases h
        · rename_i c1 hc1
          split at h
          · cases h
            obtain ⟨_, _, h3, _⟩ := transferFrom_some hc1
            rw [h3]; exact (inv_write hi t id).oper y
          · cases h
      | burn id =>
        simp only [exec] at h
        split at h
        · cases h
        · split at h
          · cases h
          · rw [(update_some h).1]; exact (inv_write hi Addr.zero id).oper y
      | mint to id u o =>
        simp only [exec] at h
        split at h
        · cases h
        · split at h
          · cases h
          · rename_i c1 hc1
            split at h
            · cases h
              obtain ⟨_, _, h3⟩ := mintTok_some hc1
              simp only
              rw [h3]; exact (inv_write hi to id).oper y
            · cases h
      | transferOwnership n =>
        simp only [exec] at h
        split at h
        · cases h
        · split at h
          · cases h
          · cases h; exact hi.oper y
  · rw [e1]; exact inv_write hi to id
  · rw [e1]
    have := inv_write hi to id
    exact ⟨this.appr, this.oper, this.count⟩

theorem fresh_inv (o : Addr) : Inv (Nft.fresh o) where
  appr _ _ := rfl
  oper _ := rfl
  count a ha := ⟨0, ⟨[], List.nodup_nil, fun i => by simp [Nft.fresh]; exact fun h => ha h.symm, rfl⟩, rfl⟩

theorem run_inv (accepts : Addr → Bool) (calls : List (Addr × Call)) (hx : ∀ p ∈ calls, p.1 ≠ Addr.zero) :
    ∀ c, Inv c → Inv (runCalls accepts calls c) := by
  induction calls with
  | nil => intro c h; exact h
  | cons p r ih =>
    intro c h
    obtain ⟨x, call⟩ := p
    apply ih (fun q hq => hx q (List.mem_cons_of_mem _ hq))
    cases hh : exec accepts x call c with
    | none => exact h
    | some c' => exact exec_inv (hx _ List.mem_cons_self) h hh

/-- **C48, balances.** For every contract and after every history of calls by anyone (reverts included), the balance of
every account is the number of tokens it owns (as a 256-bit number). -/
theorem C48_balances (accepts : Addr → Bool) (o : Addr) (calls : List (Addr × Call))
    (hx : ∀ p ∈ calls, p.1 ≠ Addr.zero) (a : Addr) (ha : a ≠ Addr.zero) :
    ∃ n, Owns (runCalls accepts calls (Nft.fresh o)).owners a n ∧
      (runCalls accepts calls (Nft.fresh o)).balances a = n % 2 ^ 256 :=
  (run_inv accepts calls hx _ (fresh_inv o)).count a ha

/-- **C48, authority.** After every history, a call changes the owner of a token only if the token exists and the caller
is its owner, an operator of the owner, or approved for the token; or if the token does not exist, the caller owns the
contract, and the call mints it. In particular nobody else can bring a token into existence. -/
theorem C48_authority (accepts : Addr → Bool) (o : Addr) (calls : List (Addr × Call))
    (hx : ∀ p ∈ calls, p.1 ≠ Addr.zero) (c c' : Nft) (hc : c = runCalls accepts calls (Nft.fresh o))
    (x : Addr) (hx' : x ≠ Addr.zero) (call : Call) (h : exec accepts x call c = some c') (i : Nat)
    (hne : c'.owners i ≠ c.owners i) :
    (c.owners i ≠ Addr.zero ∧ May c x i) ∨
    (c.owners i = Addr.zero ∧ x = c.owner ∧ ∃ to u og, call = .mint to i u og ∧ c'.owners i = to) := by
  have hi : Inv c := hc ▸ run_inv accepts calls hx _ (fresh_inv o)
  rcases exec_cases h with ⟨e1, _⟩ | ⟨id, to, e1, e2⟩ | ⟨id, to, u, og, e0, e2, e3, _, e1⟩
  · rw [e1] at hne; exact absurd rfl hne
  · rw [e1, writeOwner_owners] at hne
    have hid : i = id := by
      by_cases hid : i = id
      · exact hid
      · rw [put_other _ _ _ _ hid] at hne; exact absurd rfl hne
    subst hid
    have hm := may_of_authorized (e2 hx')
    left
    refine ⟨?_, hm.2⟩
    intro hz
    rcases hm.2 with k | k | k
    · rw [hz] at k; exact hx' k.symm
    · rw [hz, hi.oper] at k; cases k
    · rw [hi.appr i hz] at k; exact hx' k.symm
  · have ho : c'.owners = put c.owners id to := by rw [e1]; exact writeOwner_owners c to id
    rw [ho] at hne
    have hid : i = id := by
      by_cases hid : i = id
      · exact hid
      · rw [put_other _ _ _ _ hid] at hne; exact absurd rfl hne
    subst hid
    exact Or.inr ⟨e3, e2, to, u, og, e0, by rw [ho, put_same]⟩

/-- **C48, permissions.** A call changes who is an operator of an account only if the account itself makes the call that says so, and
never in favour of the zero address; it gives someone permission for a token only by the call that says so, made by the token's
owner or one of its operators. -/
theorem C48_permissions (accepts : Addr → Bool) (c c' : Nft) (x : Addr) (hx : x ≠ Addr.zero) (call : Call) (h : exec accepts x call c = some c') :
    (∀ a op, c'.operatorApprovals a op ≠ c.operatorApprovals a op →
      a = x ∧ op ≠ Addr.zero ∧ call = .setApprovalForAll op (c'.operatorApprovals a op)) ∧
    (∀ id, c'.tokenApprovals id ≠ c.tokenApprovals id → c'.tokenApprovals id ≠ Addr.zero →
      call = .approve (c'.tokenApprovals id) id ∧ (c.owners id = x ∨ c.operatorApprovals (c.owners id) x = true)) := by
  have hw : ∀ to id, (writeOwner c to id).operatorApprovals = c.operatorApprovals ∧
      ∀ i, (writeOwner c to id).tokenApprovals i = c.tokenApprovals i ∨ (writeOwner c to id).tokenApprovals i = Addr.zero := by
    intro to id
    unfold writeOwner
    dsimp only
    constructor
    · split <;> split <;> rfl
    · intro i
      by_cases hi : i = id
      · subst hi; split <;> split <;> simp [put_same]
      · split <;> split <;> simp [put_other _ _ _ _ hi]
  have hu : ∀ to id auth c1, update c to id auth = some c1 → c1 = writeOwner c to id := by
    intro to id auth c1 h1
    unfold update at h1
    split at h1
    · cases h1
    · exact (Option.some.inj h1).symm
  have htf : ∀ f t id c1, transferFrom c x f t id = some c1 → c1 = writeOwner c t id := by
    intro f t id c1 h1
    unfold transferFrom at h1
    split at h1
    · cases h1
    · split at h1
      · cases h1
      · next c2 h2 =>
        split at h1
        · cases h1
        · cases h1; exact hu _ _ _ _ h2
  have hmt : ∀ t id c1, mintTok c t id = some c1 → c1 = writeOwner c t id := by
    intro t id c1 h1
    unfold mintTok at h1
    split at h1
    · cases h1
    · split at h1
      · cases h1
      · next c2 h2 =>
        split at h1
        · cases h1
        · cases h1; exact hu _ _ _ _ h2
  have key : ∀ c1 : Nft, c1.operatorApprovals = c.operatorApprovals →
      (∀ i, c1.tokenApprovals i = c.tokenApprovals i ∨ c1.tokenApprovals i = Addr.zero) →
      (∀ a op, c1.operatorApprovals a op ≠ c.operatorApprovals a op →
        a = x ∧ op ≠ Addr.zero ∧ call = .setApprovalForAll op (c1.operatorApprovals a op)) ∧
      (∀ id, c1.tokenApprovals id ≠ c.tokenApprovals id → c1.tokenApprovals id ≠ Addr.zero →
        call = .approve (c1.tokenApprovals id) id ∧ (c.owners id = x ∨ c.operatorApprovals (c.owners id) x = true)) := by
    intro c1 e1 e2
    refine ⟨fun a op hne => absurd (by rw [e1]) hne, fun id hne hz => ?_⟩
    rcases e2 id with k | k
    · exact absurd k hne
    · exact absurd k hz
  cases call with
  | approve to id =>
    simp only [exec] at h
    split at h
    · cases h
    · split at h
      · cases h
      · next hc =>
        cases h
        refine ⟨fun a op hne => absurd rfl hne, fun i hne hz => ?_⟩
        by_cases hi : i = id
        · subst hi
          dsimp only
          rw [put_same]
          refine ⟨rfl, ?_⟩
          by_cases g : c.owners i = x
          · exact Or.inl g
          · right
            cases ho : c.operatorApprovals (c.owners i) x with
            | true => rfl
            | false => exact absurd ⟨hx, g, ho⟩ hc
        · dsimp only at hne
          rw [put_other _ _ _ _ hi] at hne
          exact absurd rfl hne
  | setApprovalForAll op b =>
    simp only [exec] at h
    split at h
    · cases h
    · next hop =>
      cases h
      refine ⟨fun a op' hne => ?_, fun i hne => absurd rfl hne⟩
      dsimp only at hne ⊢
      by_cases g : a = x ∧ op' = op
      · obtain ⟨rfl, rfl⟩ := g
        exact ⟨rfl, hop, by simp⟩
      · rw [if_neg g] at hne
        exact absurd rfl hne
  | transferFrom f t id =>
    simp only [exec] at h
    rw [htf _ _ _ _ h]
    exact key _ (hw t id).1 (hw t id).2
  | safeTransferFrom f t id =>
    simp only [exec] at h
    split at h
    · cases h
    · next c1 h1 =>
      split at h
      · cases h
        rw [htf _ _ _ _ h1]
        exact key _ (hw t id).1 (hw t id).2
      · cases h
  | burn id =>
    simp only [exec] at h
    split at h
    · cases h
    · split at h
      · cases h
      · rw [hu _ _ _ _ h]
        exact key _ (hw Addr.zero id).1 (hw Addr.zero id).2
  | mint to id uri origin =>
    simp only [exec] at h
    split at h
    · cases h
    · split at h
      · cases h
      · next c1 h1 =>
        split at h
        · cases h
          have := hmt _ _ _ h1
          subst this
          exact key _ (hw to id).1 (hw to id).2
        · cases h
  | transferOwnership n =>
    simp only [exec] at h
    split at h
    · cases h
    · split at h
      · cases h
      · cases h; exact key _ rfl (fun i => Or.inl rfl)

example : ((exec (fun _ => true) (Addr.ofNat 5) (.setApprovalForAll (Addr.ofNat 6) true) (Nft.fresh (Addr.ofNat 1))).map
    (fun c => (c.operatorApprovals (Addr.ofNat 5) (Addr.ofNat 6), c.operatorApprovals (Addr.ofNat 6) (Addr.ofNat 5)))) = some (true, false) := by
  decide +kernel

/-! ### Operations on lists of tokens -/

/-- `w'` differs from `w` at most in the contract at `a`, which is now `c'`. -/
def OnlyAt (w w' : NW) (a : Addr) (c' : Nft) : Prop :=
  w'.maps = w.maps ∧ w'.uris = w.uris ∧ w'.nonce = w.nonce ∧ w'.nfts a = some c' ∧ ∀ x, x ≠ a → w'.nfts x = w.nfts x

theorem onlyAt_trans {w w1 w2 : NW} {a : Addr} {c1 c2 : Nft} (h1 : OnlyAt w w1 a c1) (h2 : OnlyAt w1 w2 a c2) :
    OnlyAt w w2 a c2 := by
  obtain ⟨a1, a2, a3, _, a5⟩ := h1
  obtain ⟨b1, b2, b3, b4, b5⟩ := h2
  exact ⟨b1.trans a1, b2.trans a2, b3.trans a3, b4, fun x hx => (b5 x hx).trans (a5 x hx)⟩

theorem callNft_some {e : Env} {w w' : NW} {x a : Addr} {call : Call} {c : Nft} (hc : w.nfts a = some c)
    (h : callNft e w x a call = some w') : ∃ c', exec e.accepts x call c = some c' ∧ OnlyAt w w' a c' := by
  unfold callNft at h
  rw [hc] at h
  simp only at h
  cases hh : exec e.accepts x call c with
  | none => rw [hh] at h; cases h
  | some c' =>
    rw [hh] at h
    cases h
    exact ⟨c', rfl, rfl, rfl, rfl, put_same _ _ _, fun x hx => put_other _ _ _ _ hx⟩

theorem callNft_exec {e : Env} {w : NW} {x a : Addr} {call : Call} {c c' : Nft} (hc : w.nfts a = some c)
    (h : exec e.accepts x call c = some c') : ∃ w', callNft e w x a call = some w' ∧ OnlyAt w w' a c' := by
  unfold callNft
  rw [hc]
  simp only
  rw [h]
  exact ⟨_, rfl, rfl, rfl, rfl, put_same _ _ _, fun x hx => put_other _ _ _ _ hx⟩

theorem transferLoop_some {e : Env} {s r a : Addr} {cls : Str} (ids : List Str) :
    ∀ {w w' : NW} {c : Nft}, w.nfts a = some c → transferLoop e s r cls a ids w = some w' →
    ∃ (ns : List Nat) (c' : Nft), ids.map (tokenNumber e.sha cls) = ns.map some ∧ OnlyAt w w' a c' ∧
      (∀ i, c'.owners i = if i ∈ ns then r else c.owners i) ∧ (∀ n ∈ ns, c.owners n = s) ∧
      (ns ≠ [] → r ≠ Addr.zero) ∧ c'.tokenUris = c.tokenUris ∧ c'.tokenOriginIds = c.tokenOriginIds := by
  induction ids with
  | nil =>
    intro w w' c hc h
    cases h
    exact ⟨[], c, rfl, ⟨rfl, rfl, rfl, hc, fun _ _ => rfl⟩, fun i => by simp, fun n hn => by simp at hn,
      fun h => absurd rfl h, rfl, rfl⟩
  | cons t ts ih =>
    intro w w' c hc h
    unfold transferLoop at h
    split at h
    · cases h
    · rename_i n hn
      split at h
      · cases h
      · rename_i w1 hw1
        obtain ⟨c1, he, ho⟩ := callNft_some hc hw1
        obtain ⟨ns, c2, k1, k2, k3, k4, _, k5, k6⟩ := ih ho.2.2.2.1 h
        simp only [exec] at he
        split at he
        · cases he
        · rename_i c1' hc1'
          split at he
          · cases he
            obtain ⟨t1, t2, t3, _⟩ := transferFrom_some hc1'
            have hown : c1.owners = put c.owners n r := by rw [t3, writeOwner_owners]
            obtain ⟨m1, m2, _, _⟩ := writeOwner_meta c r n
            refine ⟨n :: ns, c2, by simp [hn, k1], onlyAt_trans ho k2, ?_, ?_, fun _ => t1, ?_, ?_⟩
            · intro i
              rw [k3, hown]
              by_cases h1 : i ∈ ns
              · simp [h1]
              · by_cases h2 : i = n
                · subst h2; simp [put_same]
                · rw [if_neg h1, put_other _ _ _ _ h2, if_neg (by simp [h1, h2])]
            · intro m hm
              by_cases h2 : m = n
              · rw [h2]; exact t2
              · have : m ∈ ns := by simpa [h2] using hm
                have := k4 m this
                rw [hown, put_other _ _ _ _ h2] at this; exact this
            · rw [k5, t3, m1]
            · rw [k6, t3, m2]
          · cases he

theorem transferLoop_ok {e : Env} {s r a : Addr} {cls : Str} (hs : s ≠ Addr.zero) (hr : r ≠ Addr.zero)
    (hacc : e.accepts r = true) (ids : List Str) :
    ∀ {w : NW} {c : Nft} {ns : List Nat}, w.nfts a = some c → ids.map (tokenNumber e.sha cls) = ns.map some →
      ns.Nodup → (∀ n ∈ ns, c.owners n = s) → ∃ w', transferLoop e s r cls a ids w = some w' := by
  induction ids with
  | nil => intro w c ns _ _ _ _; exact ⟨w, rfl⟩
  | cons t ts ih =>
    intro w c ns hc hm hn ho
    cases ns with
    | nil => simp at hm
    | cons n ns =>
      simp only [List.map_cons, List.cons.injEq] at hm
      obtain ⟨hn1, hn2⟩ := List.nodup_cons.mp hn
      have ho1 := ho n List.mem_cons_self
      have hex : exec e.accepts s (.safeTransferFrom s r n) c = some (writeOwner c r n) := by
        simp only [exec, transferFrom, update]
        rw [if_neg hr, if_neg (by rw [authorized_of_owner hs ho1]; simp)]
        simp [ho1, hacc]
      obtain ⟨w1, h1, h2⟩ := callNft_exec hc hex
      obtain ⟨w', hw'⟩ := ih (ns := ns) h2.2.2.2.1 hm.2 hn2 (by
        intro m hm'
        rw [writeOwner_owners, put_other _ _ _ _ (by rintro rfl; exact hn1 hm')]
        exact ho m (List.mem_cons_of_mem _ hm'))
      refine ⟨w', ?_⟩
      unfold transferLoop
      rw [hm.1]; simp only
      rw [h1]; exact hw'

theorem burnLoop_some {e : Env} {o a : Addr} {cls : Str} (ids : List Str) :
    ∀ {w w' : NW} {c : Nft}, w.nfts a = some c → burnLoop e o cls a ids w = some w' →
    ∃ (ns : List Nat) (c' : Nft), ids.map (tokenNumber e.sha cls) = ns.map some ∧ OnlyAt w w' a c' ∧ ns.Nodup ∧
      (∀ i, c'.owners i = if i ∈ ns then Addr.zero else c.owners i) ∧
      (∀ n ∈ ns, c.owners n ≠ Addr.zero ∧ May c o n) ∧
      c'.tokenUris = c.tokenUris ∧ c'.tokenOriginIds = c.tokenOriginIds := by
  induction ids with
  | nil =>
    intro w w' c hc h
    cases h
    exact ⟨[], c, rfl, ⟨rfl, rfl, rfl, hc, fun _ _ => rfl⟩, List.nodup_nil, fun i => by simp, fun n hn => by simp at hn,
      rfl, rfl⟩
  | cons t ts ih =>
    intro w w' c hc h
    unfold burnLoop at h
    split at h
    · cases h
    · rename_i n hn
      split at h
      · cases h
      · rename_i w1 hw1
        obtain ⟨c1, he, ho⟩ := callNft_some hc hw1
        obtain ⟨ns, c2, k1, k2, kn, k3, k4, k5, k6⟩ := ih ho.2.2.2.1 h
        simp only [exec] at he
        split at he
        · cases he
        · rename_i hz
          split at he
          · cases he
          · rename_i hau
            have t3 := (update_some he).1
            have hown : c1.owners = put c.owners n Addr.zero := by rw [t3, writeOwner_owners]
            obtain ⟨m1, m2, m3, _⟩ := writeOwner_meta c Addr.zero n
            have happr : c1.tokenApprovals = put c.tokenApprovals n Addr.zero := by
              rw [t3, writeOwner_appr, if_pos hz]
            have hnn : n ∉ ns := by
              intro hm
              have := (k4 n hm).1
              rw [hown, put_same] at this; exact this rfl
            refine ⟨n :: ns, c2, by simp [hn, k1], onlyAt_trans ho k2, List.nodup_cons.mpr ⟨hnn, kn⟩, ?_, ?_, ?_, ?_⟩
            · intro i
              rw [k3, hown]
              by_cases h1 : i ∈ ns
              · simp [h1]
              · by_cases h2 : i = n
                · subst h2; simp [put_same]
                · rw [if_neg h1, put_other _ _ _ _ h2, if_neg (by simp [h1, h2])]
            · intro m hm
              by_cases h2 : m = n
              · rw [h2]
                have hau' : isAuthorized c (c.owners n) o n = true := by simpa using hau
                exact ⟨hz, (may_of_authorized hau').2⟩
              · have hm' : m ∈ ns := by simpa [h2] using hm
                have := k4 m hm'
                unfold May at this ⊢
                rw [hown, put_other _ _ _ _ h2, happr, put_other _ _ _ _ h2, t3, m3] at this
                exact this
            · rw [k5, t3, m1]
            · rw [k6, t3, m2]

theorem burnLoop_ok {e : Env} {o a : Addr} {cls : Str} (hs : o ≠ Addr.zero) (ids : List Str) :
    ∀ {w : NW} {c : Nft} {ns : List Nat}, w.nfts a = some c → ids.map (tokenNumber e.sha cls) = ns.map some →
      ns.Nodup → (∀ n ∈ ns, c.owners n = o) → ∃ w', burnLoop e o cls a ids w = some w' := by
  induction ids with
  | nil => intro w c ns _ _ _ _; exact ⟨w, rfl⟩
  | cons t ts ih =>
    intro w c ns hc hm hn ho
    cases ns with
    | nil => simp at hm
    | cons n ns =>
      simp only [List.map_cons, List.cons.injEq] at hm
      obtain ⟨hn1, hn2⟩ := List.nodup_cons.mp hn
      have ho1 := ho n List.mem_cons_self
      have hex : exec e.accepts o (.burn n) c = some (writeOwner c Addr.zero n) := by
        simp only [exec, update]
        rw [if_neg (by rw [ho1]; exact hs), if_neg (by rw [authorized_of_owner hs ho1]; simp), if_neg (fun h => h.1 rfl)]
      obtain ⟨w1, h1, h2⟩ := callNft_exec hc hex
      obtain ⟨w', hw'⟩ := ih (ns := ns) h2.2.2.2.1 hm.2 hn2 (by
        intro m hm'
        rw [writeOwner_owners, put_other _ _ _ _ (by rintro rfl; exact hn1 hm')]
        exact ho m (List.mem_cons_of_mem _ hm'))
      refine ⟨w', ?_⟩
      unfold burnLoop
      rw [hm.1]; simp only
      rw [h1]; exact hw'

theorem mintLoop_some {e : Env} {r a : Addr} {cls : Str} (ids : List Str) :
    ∀ {us : List Str} {w w' : NW} {c : Nft}, w.nfts a = some c → mintLoop e r cls a ids us w = some w' →
    ∃ (ns : List Nat) (c' : Nft), ids.map (tokenNumber e.sha cls) = ns.map some ∧ OnlyAt w w' a c' ∧ ns.Nodup ∧
      (∀ i, c'.owners i = if i ∈ ns then r else c.owners i) ∧
      (∀ n ∈ ns, c.owners n = Addr.zero) ∧ (ns ≠ [] → r ≠ Addr.zero ∧ c.owner = e.std) ∧
      ids.length ≤ us.length ∧ ns.map c'.tokenUris = us.take ids.length ∧ ns.map c'.tokenOriginIds = ids ∧
      (∀ i, i ∉ ns → c'.tokenUris i = c.tokenUris i ∧ c'.tokenOriginIds i = c.tokenOriginIds i) ∧
      c'.owner = c.owner := by
  induction ids with
  | nil =>
    intro us w w' c hc h
    simp only [mintLoop, Option.some.injEq] at h
    subst h
    exact ⟨[], c, rfl, ⟨rfl, rfl, rfl, hc, fun _ _ => rfl⟩, List.nodup_nil, fun i => by simp, fun n hn => by simp at hn,
      fun h => absurd rfl h, Nat.zero_le _, rfl, rfl, fun _ _ => ⟨rfl, rfl⟩, rfl⟩
  | cons t ts ih =>
    intro us w w' c hc h
    cases us with
    | nil => simp [mintLoop] at h
    | cons u us =>
      unfold mintLoop at h
      split at h
      · cases h
      · rename_i n hn
        split at h
        · cases h
        · rename_i w1 hw1
          obtain ⟨c1, he, ho⟩ := callNft_some hc hw1
          obtain ⟨ns, c2, k1, k2, kn, k3, k4, k5, k6, k7, k8, k9, k10⟩ := ih ho.2.2.2.1 h
          obtain ⟨e2, e3, e4, e1⟩ := execMint_some he
          have hown : c1.owners = put c.owners n r := by rw [e1]; exact writeOwner_owners c r n
          have hnn : n ∉ ns := by
            intro hm
            have := k4 n hm
            rw [hown, put_same] at this; exact e4 this
          refine ⟨n :: ns, c2, by simp [hn, k1], onlyAt_trans ho k2, List.nodup_cons.mpr ⟨hnn, kn⟩, ?_, ?_,
            fun _ => ⟨e4, e2.symm⟩, by simp; exact k6, ?_, ?_, ?_, ?_⟩
          · intro i
            rw [k3, hown]
            by_cases h1 : i ∈ ns
            · simp [h1]
            · by_cases h2 : i = n
              · subst h2; simp [put_same]
              · rw [if_neg h1, put_other _ _ _ _ h2, if_neg (by simp [h1, h2])]
          · intro m hm
            by_cases h2 : m = n
            · rw [h2]; exact e3
            · have hm' : m ∈ ns := by simpa [h2] using hm
              have := k4 m hm'
              rw [hown, put_other _ _ _ _ h2] at this; exact this
          · simp only [List.map_cons, List.length_cons, List.take_succ_cons, k7]
            rw [(k9 n hnn).1, e1]; simp only [put_same]
          · simp only [List.map_cons, k8]
            rw [(k9 n hnn).2, e1]; simp only [put_same]
          · intro i hi
            simp only [List.mem_cons, not_or] at hi
            obtain ⟨g1, g2⟩ := k9 i hi.2
            rw [g1, g2, e1]
            exact ⟨put_other _ _ _ _ hi.1, put_other _ _ _ _ hi.1⟩
          · rw [k10, e1]; exact (writeOwner_meta c r n).2.2.2

theorem mintLoop_ok {e : Env} {r a : Addr} {cls : Str} (hr : r ≠ Addr.zero) (hacc : e.accepts r = true)
    (ids : List Str) :
    ∀ {us : List Str} {w : NW} {c : Nft} {ns : List Nat}, w.nfts a = some c → c.owner = e.std →
      ids.map (tokenNumber e.sha cls) = ns.map some → ids.length ≤ us.length →
      ns.Nodup → (∀ n ∈ ns, c.owners n = Addr.zero) → ∃ w', mintLoop e r cls a ids us w = some w' := by
  induction ids with
  | nil => intro us w c ns _ _ _ _ _ _; exact ⟨w, by simp [mintLoop]⟩
  | cons t ts ih =>
    intro us w c ns hc hstd hm hl hn ho
    cases ns with
    | nil => simp at hm
    | cons n ns =>
      cases us with
      | nil => simp at hl
      | cons u us =>
        simp only [List.map_cons, List.cons.injEq] at hm
        obtain ⟨hn1, hn2⟩ := List.nodup_cons.mp hn
        have ho1 := ho n List.mem_cons_self
        obtain ⟨c', hex⟩ : ∃ c', exec e.accepts e.std (.mint r n u t) c = some c' := by
          simp only [exec, mintTok, update]
          simp [hstd, hr, ho1, hacc]
        obtain ⟨_, _, _, hc'⟩ := execMint_some hex
        obtain ⟨w1, h1, h2⟩ := callNft_exec hc hex
        have hown : c'.owners = put c.owners n r := by rw [hc']; exact writeOwner_owners c r n
        obtain ⟨w', hw'⟩ := ih (us := us) (ns := ns) h2.2.2.2.1
          (by rw [hc']; exact (writeOwner_meta c r n).2.2.2.trans hstd) hm.2 (by simpa using hl) hn2 (by
          intro m hm'
          rw [hown, put_other _ _ _ _ (by rintro rfl; exact hn1 hm')]
          exact ho m (List.mem_cons_of_mem _ hm'))
        refine ⟨w', ?_⟩
        unfold mintLoop
        rw [hm.1]; simp only
        rw [h1]; exact hw'

theorem num_fwd {f : Str → Option Nat} {ids : List Str} {ns : List Nat} (h : ids.map f = ns.map some) {t : Str}
    (ht : t ∈ ids) : ∃ n ∈ ns, f t = some n := by
  have : f t ∈ ids.map f := List.mem_map_of_mem ht
  rw [h, List.mem_map] at this
  obtain ⟨n, hn, he⟩ := this
  exact ⟨n, hn, he.symm⟩

theorem num_bwd {f : Str → Option Nat} {ids : List Str} {ns : List Nat} (h : ids.map f = ns.map some) {n : Nat}
    (hn : n ∈ ns) : ∃ t ∈ ids, f t = some n := by
  have : some n ∈ ns.map some := List.mem_map_of_mem hn
  rw [← h, List.mem_map] at this
  exact this

theorem distinct_nums {e : Env} {cls : Str} {ids : List Str} (h : Distinct e cls ids) :
    ∃ ns : List Nat, ids.map (tokenNumber e.sha cls) = ns.map some ∧ ns.Nodup := by
  obtain ⟨h1, h2⟩ := h
  have : ∃ ns : List Nat, ids.map (tokenNumber e.sha cls) = ns.map some := by
    clear h1
    induction ids with
    | nil => exact ⟨[], rfl⟩
    | cons t ts ih =>
      obtain ⟨ns, hns⟩ := ih (fun x hx => h2 x (List.mem_cons_of_mem _ hx))
      cases hh : tokenNumber e.sha cls t with
      | none => have := h2 t List.mem_cons_self; rw [hh] at this; cases this
      | some n => exact ⟨n :: ns, by simp [hh, hns]⟩
  obtain ⟨ns, hns⟩ := this
  refine ⟨ns, hns, ?_⟩
  rw [hns] at h1
  exact List.Pairwise.of_map some (fun x y h e => h (congrArg some e)) h1

theorem classTo_maps {w w' : NW} (h : w'.maps = w.maps) (c : Str) : classToContract w' c = classToContract w c := by
  unfold classToContract; rw [h]

/-- **C48 (classes).** A class id names a contract in exactly two ways: `evm/`, an optional `0x` and the forty digits of its address, in
either case; or, if it does not start with `evm/`, as the name recorded for the contract. -/
theorem C48_class (w : NW) (cls : Str) (a : Addr) :
    classToContract w cls = some a ↔
      (∃ s, cls = "evm/".toList ++ s ∧ SameDigits (strip0x s) (hexEnc a.bytes)) ∨
      ((¬ ∃ s, cls = "evm/".toList ++ s) ∧ w.maps.toAddr cls = some a) := by
  have hp : "evm/".toList = evmPrefix := by decide
  have hx : (∃ s, cls = "evm/".toList ++ s) ↔ evmPrefix.isPrefixOf cls = true := by
    rw [hp, List.isPrefixOf_iff_prefix]
    exact ⟨fun ⟨s, h⟩ => ⟨s, h.symm⟩, fun ⟨s, h⟩ => ⟨s, h.symm⟩⟩
  by_cases c : evmPrefix.isPrefixOf cls = true
  · have e : classToContract w cls = denomToContract w.maps cls := by
      unfold classToContract denomToContract isERC20Denom; rfl
    constructor
    · intro h
      obtain ⟨t, rfl⟩ := List.isPrefixOf_iff_prefix.mp c
      unfold classToContract at h
      rw [if_pos c] at h
      simp only at h
      split at h
      · rename_i hh
        refine .inl ⟨t, by rw [hp], ?_⟩
        have := isHexAddress_digits _ hh
        rw [Option.some.inj h] at this
        simpa [evmPrefix] using this
      · cases h
    · rintro (⟨s, rfl, hs⟩ | ⟨h, _⟩)
      · rw [e, hp]; exact Verif.Props.Denom.evm_resolves w.maps s a hs
      · exact absurd (hx.mpr c) h
  · have e : classToContract w cls = w.maps.toAddr cls := by
      unfold classToContract; rw [if_neg c]
    rw [e]
    constructor
    · intro h; exact .inr ⟨fun g => c (hx.mp g), h⟩
    · rintro (⟨s, hs, _⟩ | ⟨_, h⟩)
      · exact absurd (hx.mp ⟨s, hs⟩) c
      · exact h

theorem ownerOf_at {e : Env} {w : NW} {cls t : Str} {a : Addr} {n : Nat} {c : Nft} (h1 : classToContract w cls = some a)
    (h2 : tokenNumber e.sha cls t = some n) (h3 : w.nfts a = some c) :
    ownerOf e w cls t = if c.owners n = Addr.zero then none else some (c.owners n) := by
  unfold ownerOf; rw [h1]; simp only; rw [h2]; simp only; rw [h3]

theorem ownerOf_changed {e : Env} {w w' : NW} {a : Addr} {c c' : Nft} {ns : List Nat} (h : OnlyAt w w' a c')
    (hc : w.nfts a = some c) (ho : ∀ i, i ∉ ns → c'.owners i = c.owners i) {cls' t' : Str}
    (hne : ownerOf e w' cls' t' ≠ ownerOf e w cls' t') :
    classToContract w cls' = some a ∧ ∃ n ∈ ns, tokenNumber e.sha cls' t' = some n := by
  unfold ownerOf at hne
  rw [classTo_maps h.1] at hne
  cases hk : classToContract w cls' with
  | none => rw [hk] at hne; exact absurd rfl hne
  | some k =>
    rw [hk] at hne
    simp only at hne
    cases hn : tokenNumber e.sha cls' t' with
    | none => rw [hn] at hne; exact absurd rfl hne
    | some n =>
      rw [hn] at hne
      simp only at hne
      by_cases hka : k = a
      · subst hka
        rw [hc, h.2.2.2.1] at hne
        simp only at hne
        refine ⟨rfl, n, ?_, rfl⟩
        by_cases hm : n ∈ ns
        · exact hm
        · rw [ho n hm] at hne; exact absurd rfl hne
      · rw [h.2.2.2.2 k hka] at hne; exact absurd rfl hne

/-- **C48, transfers.** A successful transfer of a list of tokens of a class with a contract moves exactly the listed
tokens, each from the sender to the receiver, and no other token of any class. -/
theorem C48_transfers (e : Env) (w w' : NW) (s r : Addr) (cls : Str) (ids : List Str) (hs : s ≠ Addr.zero)
    (hcode : HasCode w cls) (h : transfers e s r cls ids w = some w') :
    (∀ t ∈ ids, ownerOf e w cls t = some s ∧ ownerOf e w' cls t = some r) ∧
    (∀ cls' t', ownerOf e w' cls' t' ≠ ownerOf e w cls' t' → ∃ t ∈ ids, SameToken e w cls' t' cls t) := by
  obtain ⟨a, c, ha, hc⟩ := hcode
  unfold transfers at h
  rw [ha] at h
  simp only at h
  obtain ⟨ns, c', k1, k2, k3, k4, k5, _⟩ := transferLoop_some ids hc h
  refine ⟨?_, ?_⟩
  · intro t ht
    obtain ⟨n, hn, hf⟩ := num_fwd k1 ht
    have hr : r ≠ Addr.zero := k5 (by rintro rfl; cases hn)
    refine ⟨?_, ?_⟩
    · rw [ownerOf_at ha hf hc, k4 n hn, if_neg hs]
    · rw [ownerOf_at (by rw [classTo_maps k2.1]; exact ha) hf k2.2.2.2.1, k3, if_pos hn, if_neg hr]
  · intro cls' t' hne
    obtain ⟨g1, n, g2, g3⟩ := ownerOf_changed k2 hc (ns := ns) (fun i hi => by rw [k3, if_neg hi]) hne
    obtain ⟨t, ht, hf⟩ := num_bwd k1 g2
    exact ⟨t, ht, a, n, g1, ha, g3, hf⟩

/-- **C48, transfers happen.** A transfer of pairwise different tokens, all owned by the sender, to an account that
accepts them succeeds. -/
theorem C48_transfers_ok (e : Env) (w : NW) (s r : Addr) (cls : Str) (ids : List Str) (hs : s ≠ Addr.zero)
    (hr : r ≠ Addr.zero) (hacc : e.accepts r = true) (hcode : HasCode w cls) (hd : Distinct e cls ids)
    (ho : ∀ t ∈ ids, ownerOf e w cls t = some s) : ∃ w', transfers e s r cls ids w = some w' := by
  obtain ⟨a, c, ha, hc⟩ := hcode
  obtain ⟨ns, h1, h2⟩ := distinct_nums hd
  obtain ⟨w', hw'⟩ := transferLoop_ok hs hr hacc ids hc h1 h2 (by
    intro n hn
    obtain ⟨t, ht, hf⟩ := num_bwd h1 hn
    have := ho t ht
    rw [ownerOf_at ha hf hc] at this
    split at this
    · cases this
    · cases this; rfl)
  refine ⟨w', ?_⟩
  unfold transfers; rw [ha]; exact hw'

/-- **C48, burns.** A successful burn destroys exactly the listed tokens, which are pairwise different and existed, each
owned by or approved to the account given as owner; no other token of any class changes hands. -/
theorem C48_burns (e : Env) (w w' : NW) (o : Addr) (cls : Str) (ids : List Str) (hcode : HasCode w cls)
    (h : burns e o cls ids w = some w') :
    Distinct e cls ids ∧
    (∀ t ∈ ids, (ownerOf e w cls t).isSome = true ∧ ownerOf e w' cls t = none ∧
      ∃ a c n, classToContract w cls = some a ∧ w.nfts a = some c ∧ tokenNumber e.sha cls t = some n ∧ May c o n) ∧
    (∀ cls' t', ownerOf e w' cls' t' ≠ ownerOf e w cls' t' → ∃ t ∈ ids, SameToken e w cls' t' cls t) := by
  obtain ⟨a, c, ha, hc⟩ := hcode
  unfold burns at h
  rw [ha] at h
  simp only at h
  obtain ⟨ns, c', k1, k2, kn, k3, k4, _⟩ := burnLoop_some ids hc h
  refine ⟨⟨?_, ?_⟩, ?_, ?_⟩
  · rw [k1]; exact List.Pairwise.map _ (fun x y h e => h (Option.some.inj e)) kn
  · intro t ht
    obtain ⟨n, _, hf⟩ := num_fwd k1 ht
    rw [hf]; rfl
  · intro t ht
    obtain ⟨n, hn, hf⟩ := num_fwd k1 ht
    obtain ⟨m1, m2⟩ := k4 n hn
    refine ⟨?_, ?_, a, c, n, ha, hc, hf, m2⟩
    · rw [ownerOf_at ha hf hc, if_neg m1]; rfl
    · rw [ownerOf_at (by rw [classTo_maps k2.1]; exact ha) hf k2.2.2.2.1, k3, if_pos hn, if_pos rfl]
  · intro cls' t' hne
    obtain ⟨g1, n, g2, g3⟩ := ownerOf_changed k2 hc (ns := ns) (fun i hi => by rw [k3, if_neg hi]) hne
    obtain ⟨t, ht, hf⟩ := num_bwd k1 g2
    exact ⟨t, ht, a, n, g1, ha, g3, hf⟩

/-- **C48, burns happen.** -/
theorem C48_burns_ok (e : Env) (w : NW) (o : Addr) (cls : Str) (ids : List Str) (hs : o ≠ Addr.zero)
    (hcode : HasCode w cls) (hd : Distinct e cls ids)
    (ho : ∀ t ∈ ids, ownerOf e w cls t = some o) : ∃ w', burns e o cls ids w = some w' := by
  obtain ⟨a, c, ha, hc⟩ := hcode
  obtain ⟨ns, h1, h2⟩ := distinct_nums hd
  obtain ⟨w', hw'⟩ := burnLoop_ok hs ids hc h1 h2 (by
    intro n hn
    obtain ⟨t, ht, hf⟩ := num_bwd h1 hn
    have := ho t ht
    rw [ownerOf_at ha hf hc] at this
    split at this
    · cases this
    · cases this; rfl)
  refine ⟨w', ?_⟩
  unfold burns; rw [ha]; exact hw'

theorem mapM_some_map {α β : Type} (f : α → Option β) (g : List β) :
    ∀ l : List α, l.map f = g.map some → l.mapM f = some g := by
  intro l
  induction l generalizing g with
  | nil =>
    intro h
    cases g with
    | nil => rfl
    | cons _ _ => simp at h
  | cons x xs ih =>
    intro h
    cases g with
    | nil => simp at h
    | cons y ys =>
      simp only [List.map_cons, List.cons.injEq] at h
      rw [List.mapM_cons, h.1, ih ys h.2]; rfl

theorem infos_list {f : Str → Option Nat} {m : Nft} :
    ∀ (ids : List Str) (ns : List Nat), ids.map f = ns.map some →
    ids.map (fun t => match f t with | none => none | some n => some (m.tokenUris n)) =
      (ns.map m.tokenUris).map some := by
  intro ids
  induction ids with
  | nil => intro ns h; cases ns with
    | nil => rfl
    | cons _ _ => simp at h
  | cons t ts ih =>
    intro ns h
    cases ns with
    | nil => simp at h
    | cons n ns =>
      simp only [List.map_cons, List.cons.injEq] at h ⊢
      exact ⟨by rw [h.1], ih ns h.2⟩

/-- **C48, mints.** A successful mint creates exactly the listed tokens, pairwise different and none of which existed, all
owned by the receiver; their URIs and original ids are the given ones; no other token of any class changes hands. -/
theorem C48_mints (e : Env) (w w' : NW) (r : Addr) (cls : Str) (ids us : List Str) (hcode : HasCode w cls)
    (h : mints e r cls ids us w = some w') :
    Distinct e cls ids ∧
    (∀ t ∈ ids, ownerOf e w cls t = none ∧ ownerOf e w' cls t = some r) ∧
    (∀ cls' t', ownerOf e w' cls' t' ≠ ownerOf e w cls' t' → ∃ t ∈ ids, SameToken e w cls' t' cls t) ∧
    tokenInfos e w' cls ids = some (us.take ids.length) ∧ ids.length ≤ us.length ∧
    (∀ t ∈ ids, ∃ a c n, classToContract w' cls = some a ∧ w'.nfts a = some c ∧ tokenNumber e.sha cls t = some n ∧
      c.tokenOriginIds n = t) := by
  obtain ⟨a, c, ha, hc⟩ := hcode
  unfold mints at h
  rw [ha] at h
  simp only at h
  obtain ⟨ns, c', k1, k2, kn, k3, k4, k5, k6, k7, k8, _, _⟩ := mintLoop_some ids hc h
  have ha' : classToContract w' cls = some a := by rw [classTo_maps k2.1]; exact ha
  refine ⟨⟨?_, ?_⟩, ?_, ?_, ?_, k6, ?_⟩
  · rw [k1]; exact List.Pairwise.map _ (fun x y h e => h (Option.some.inj e)) kn
  · intro t ht
    obtain ⟨n, _, hf⟩ := num_fwd k1 ht
    rw [hf]; rfl
  · intro t ht
    obtain ⟨n, hn, hf⟩ := num_fwd k1 ht
    have hr := (k5 (by rintro rfl; cases hn)).1
    refine ⟨?_, ?_⟩
    · rw [ownerOf_at ha hf hc, k4 n hn, if_pos rfl]
    · rw [ownerOf_at ha' hf k2.2.2.2.1, k3, if_pos hn, if_neg hr]
  · intro cls' t' hne
    obtain ⟨g1, n, g2, g3⟩ := ownerOf_changed k2 hc (ns := ns) (fun i hi => by rw [k3, if_neg hi]) hne
    obtain ⟨t, ht, hf⟩ := num_bwd k1 g2
    exact ⟨t, ht, a, n, g1, ha, g3, hf⟩
  · unfold tokenInfos
    rw [ha']
    simp only
    rw [k2.2.2.2.1]
    apply mapM_some_map
    rw [← k7]
    exact infos_list ids ns k1
  · have hor : ∀ (ids : List Str) (ns : List Nat), ids.map (tokenNumber e.sha cls) = ns.map some →
        ns.map c'.tokenOriginIds = ids → ∀ t ∈ ids, ∃ n, tokenNumber e.sha cls t = some n ∧ c'.tokenOriginIds n = t := by
      intro ids
      induction ids with
      | nil => intro ns _ _ t ht; cases ht
      | cons y ys ih =>
        intro ns h1 h2 t ht
        cases ns with
        | nil => simp at h1
        | cons n ns =>
          simp only [List.map_cons, List.cons.injEq] at h1 h2
          rcases List.mem_cons.mp ht with rfl | ht
          · exact ⟨n, h1.1, h2.1⟩
          · exact ih ns h1.2 h2.2 t ht
    intro t ht
    obtain ⟨n, hn, hon⟩ := hor ids ns k1 k8 t ht
    exact ⟨a, c', n, ha', k2.2.2.2.1, hn, hon⟩

/-- **C48, mints happen.** -/
theorem C48_mints_ok (e : Env) (w : NW) (r : Addr) (cls : Str) (ids us : List Str)
    (hr : r ≠ Addr.zero) (hacc : e.accepts r = true)
    (hcode : ∃ a c, classToContract w cls = some a ∧ w.nfts a = some c ∧ c.owner = e.std)
    (hd : Distinct e cls ids) (hl : ids.length ≤ us.length)
    (ho : ∀ t ∈ ids, ownerOf e w cls t = none) : ∃ w', mints e r cls ids us w = some w' := by
  obtain ⟨a, c, ha, hc, hstd⟩ := hcode
  obtain ⟨ns, h1, h2⟩ := distinct_nums hd
  obtain ⟨w', hw'⟩ := mintLoop_ok hr hacc ids hc hstd h1 hl h2 (by
    intro n hn
    obtain ⟨t, ht, hf⟩ := num_bwd h1 hn
    have := ho t ht
    rw [ownerOf_at ha hf hc] at this
    split at this
    · assumption
    · cases this)
  refine ⟨w', ?_⟩
  unfold mints; rw [ha]; exact hw'

/-! ### Classes -/

/-- The class maps stay, and every contract keeps its owner. -/
def Keeps (w w' : NW) : Prop :=
  w'.maps = w.maps ∧ (∀ k, w.nfts k = none → w'.nfts k = none) ∧
  ∀ k c, w.nfts k = some c → ∃ c', w'.nfts k = some c' ∧ c'.owner = c.owner

theorem keeps_refl (w : NW) : Keeps w w := ⟨rfl, fun _ h => h, fun _ c h => ⟨c, h, rfl⟩⟩

theorem keeps_trans {a b c : NW} (h1 : Keeps a b) (h2 : Keeps b c) : Keeps a c := by
  refine ⟨h2.1.trans h1.1, fun k h => h2.2.1 k (h1.2.1 k h), ?_⟩
  intro k x hx
  obtain ⟨y, hy, e1⟩ := h1.2.2 k x hx
  obtain ⟨z, hz, e2⟩ := h2.2.2 k y hy
  exact ⟨z, hz, e2.trans e1⟩

theorem exec_owner {accepts : Addr → Bool} {x : Addr} {call : Call} {c c' : Nft}
    (h : exec accepts x call c = some c') (hn : (∀ n, call ≠ .transferOwnership n) ∨ x ≠ c.owner) :
    c'.owner = c.owner := by
  rcases exec_cases h with ⟨_, _⟩ | ⟨id, to, e1, _⟩ | ⟨id, to, u, o, _, _, _, _, e1⟩
  · cases call with
    | approve to id =>
      simp only [exec] at h
      split at h
      · cases h
      · split at h
        · cases h
        · cases h; rfl
    | setApprovalForAll op b =>
      simp only [exec] at h
      split at h
      · cases h
      · cases h; rfl
    | transferFrom f t id =>
      simp only [exec] at h
      rw [(transferFrom_some h).2.2.1]; exact (writeOwner_meta c t id).2.2.2
    | safeTransferFrom f t id =>
      simp only [exec] at h
      split at h
      · cases h
      · rename_i c1 hc1
        split at h
        · cases h; rw [(transferFrom_some hc1).2.2.1]; exact (writeOwner_meta c t id).2.2.2
        · cases h
    | burn id =>
      simp only [exec] at h
      split at h
      · cases h
      · split at h
        · cases h
        · rw [(update_some h).1]; exact (writeOwner_meta c _ id).2.2.2
    | mint to id u o =>
      rw [(execMint_some h).2.2.2]; exact (writeOwner_meta c _ id).2.2.2
    | transferOwnership n =>
      rcases hn with hn | hn
      · exact absurd rfl (hn n)
      · simp only [exec] at h
        rw [if_pos hn] at h; cases h
  · rw [e1]; exact (writeOwner_meta c _ id).2.2.2
  · rw [e1]; exact (writeOwner_meta c _ id).2.2.2

theorem callNft_keeps {e : Env} {w w' : NW} {x a : Addr} {call : Call} (h : callNft e w x a call = some w')
    (hn : (∀ n, call ≠ .transferOwnership n) ∨ ∀ c, w.nfts a = some c → x ≠ c.owner) : Keeps w w' := by
  cases hc : w.nfts a with
  | none => unfold callNft at h; rw [hc] at h; cases h; exact keeps_refl w
  | some c =>
    obtain ⟨c', he, h1, _, _, h4, h5⟩ := callNft_some hc h
    have ho : c'.owner = c.owner := exec_owner he (by
      rcases hn with hn | hn
      · exact Or.inl hn
      · exact Or.inr (hn c hc))
    refine ⟨h1, ?_, ?_⟩
    · intro k hk
      by_cases hka : k = a
      · subst hka; rw [hc] at hk; cases hk
      · rw [h5 k hka]; exact hk
    · intro k ck hk
      by_cases hka : k = a
      · subst hka; rw [hc] at hk; cases hk; exact ⟨c', h4, ho⟩
      · exact ⟨ck, by rw [h5 k hka]; exact hk, rfl⟩

theorem transfers_keeps {e : Env} {w w' : NW} {s r : Addr} {cls : Str} {ids : List Str}
    (h : transfers e s r cls ids w = some w') : Keeps w w' := by
  unfold transfers at h
  split at h
  · cases h
  · rename_i a _
    induction ids generalizing w with
    | nil => cases h; exact keeps_refl _
    | cons t ts ih =>
      unfold transferLoop at h
      split at h
      · cases h
      · split at h
        · cases h
        · rename_i w1 hw1
          have k1 := callNft_keeps hw1 (Or.inl (by intro n; simp))
          exact keeps_trans k1 (ih (by rw [classTo_maps k1.1]; assumption) h)

theorem burns_keeps {e : Env} {w w' : NW} {o : Addr} {cls : Str} {ids : List Str}
    (h : burns e o cls ids w = some w') : Keeps w w' := by
  unfold burns at h
  split at h
  · cases h
  · rename_i a _
    induction ids generalizing w with
    | nil => cases h; exact keeps_refl _
    | cons t ts ih =>
      unfold burnLoop at h
      split at h
      · cases h
      · split at h
        · cases h
        · rename_i w1 hw1
          have k1 := callNft_keeps hw1 (Or.inl (by intro n; simp))
          exact keeps_trans k1 (ih (by rw [classTo_maps k1.1]; assumption) h)

theorem mints_keeps {e : Env} {w w' : NW} {r : Addr} {cls : Str} {ids us : List Str}
    (h : mints e r cls ids us w = some w') : Keeps w w' := by
  unfold mints at h
  split at h
  · cases h
  · rename_i a _
    induction ids generalizing w us with
    | nil => simp only [mintLoop, Option.some.injEq] at h; subst h; exact keeps_refl _
    | cons t ts ih =>
      cases us with
      | nil => simp [mintLoop] at h
      | cons u us =>
        unfold mintLoop at h
        split at h
        · cases h
        · split at h
          · cases h
          · rename_i w1 hw1
            have k1 := callNft_keeps hw1 (Or.inl (by intro n; simp))
            exact keeps_trans k1 (ih (by rw [classTo_maps k1.1]; assumption) h)

/-- The invariant of the class maps. -/
structure CInv (e : Env) (w : NW) : Prop where
  bij : ∀ c a, w.maps.toAddr c = some a ↔ w.maps.toDenom a = some c
  noevm : ∀ c a, w.maps.toAddr c = some a → evmPrefix.isPrefixOf c = false
  live : ∀ c a, w.maps.toAddr c = some a → ∃ n, w.nfts a = some n ∧ n.owner = e.std

theorem cinv_keeps {e : Env} {w w' : NW} (hi : CInv e w) (hk : Keeps w w') : CInv e w' := by
  refine ⟨?_, ?_, ?_⟩
  · rw [hk.1]; exact hi.bij
  · rw [hk.1]; exact hi.noevm
  · intro c a h
    rw [hk.1] at h
    obtain ⟨n, h1, h2⟩ := hi.live c a h
    obtain ⟨n', h3, h4⟩ := hk.2.2 a n h1
    exact ⟨n', h3, h4.trans h2⟩

theorem deploy_some {e : Env} {w w1 : NW} {cls : Str} (hi : CInv e w) (hc : evmPrefix.isPrefixOf cls = false)
    (hn : w.maps.toAddr cls = none) (h : deployClass e w cls = some w1) :
    CInv e w1 ∧ w1.maps.toAddr cls = some (e.deployed w.nonce) ∧
    (∀ c a, w.maps.toAddr c = some a → w1.maps.toAddr c = some a) ∧ w.nfts (e.deployed w.nonce) = none ∧
    w1.nfts (e.deployed w.nonce) = some (Nft.fresh e.std) ∧
    (∀ k, k ≠ e.deployed w.nonce → w1.nfts k = w.nfts k) := by
  unfold deployClass at h
  simp only at h
  split at h
  · cases h
  · rename_i hcode
    cases h
    have hd : w.maps.toDenom (e.deployed w.nonce) = none := by
      cases hh : w.maps.toDenom (e.deployed w.nonce) with
      | none => rfl
      | some c =>
        obtain ⟨n, h1, _⟩ := hi.live c _ ((hi.bij c _).mpr hh)
        rw [hcode] at h1; cases h1
    refine ⟨⟨?_, ?_, ?_⟩, if_pos rfl, ?_, hcode, put_same _ _ _, fun k hk => put_other _ _ _ _ hk⟩
    · exact Verif.Props.Denom.create_bij w.maps cls (e.deployed w.nonce) hi.bij hn hd
    · intro c a h
      simp only at h
      split at h
      · rename_i g; rw [g]; exact hc
      · exact hi.noevm c a h
    · intro c a h
      simp only at h ⊢
      split at h
      · cases h; exact ⟨_, put_same _ _ _, rfl⟩
      · obtain ⟨n, h1, h2⟩ := hi.live c a h
        have : a ≠ e.deployed w.nonce := by rintro rfl; rw [hcode] at h1; cases h1
        exact ⟨n, by rw [put_other _ _ _ _ this]; exact h1, h2⟩
    · intro c a h
      have : c ≠ cls := by rintro rfl; rw [hn] at h; cases h
      simp only [if_neg this]; exact h

theorem class_some {e : Env} {w w' : NW} {cls u : Str} (hi : CInv e w) (hc : evmPrefix.isPrefixOf cls = false)
    (h : createOrUpdateClass e cls u w = some w') :
    CInv e w' ∧ (∀ c a, w.maps.toAddr c = some a → w'.maps.toAddr c = some a) ∧
    (∃ a, w'.maps.toAddr cls = some a ∧ w'.uris a = some u ∧ (∀ k, k ≠ a → w'.uris k = w.uris k) ∧
      ∀ k, (w.nfts k).isSome = true → w'.nfts k = w.nfts k) := by
  have hu0 : ∀ w1, deployClass e w cls = some w1 → w1.uris = w.uris := by
    intro w1 h1
    unfold deployClass at h1
    simp only at h1
    split at h1
    · cases h1
    · cases h1; rfl
  unfold createOrUpdateClass at h
  split at h
  · cases h
  · rename_i w1 hw1
    split at h
    · cases h
    · rename_i a ha
      have hmap : classToContract w1 cls = w1.maps.toAddr cls := by unfold classToContract; rw [hc]; rfl
      rw [hmap] at ha
      cases h
      by_cases hs : (w.maps.toAddr cls).isSome = true
      · rw [if_pos hs] at hw1
        cases hw1
        exact ⟨⟨hi.bij, hi.noevm, hi.live⟩, fun _ _ h => h, a, ha, put_same _ _ _, fun k hk => put_other _ _ _ _ hk,
          fun _ _ => rfl⟩
      · rw [if_neg hs] at hw1
        have hn : w.maps.toAddr cls = none := by simpa using hs
        obtain ⟨i1, h1, h2, h3, h4, h5⟩ := deploy_some hi hc hn hw1
        have hu := hu0 w1 hw1
        refine ⟨⟨i1.bij, i1.noevm, i1.live⟩, h2, a, ha, put_same _ _ _, fun k hk => ?_, ?_⟩
        · simp only; rw [put_other _ _ _ _ hk, hu]
        · intro k hk
          refine h5 k ?_
          rintro rfl; rw [h3] at hk; cases hk

theorem step_cinv {e : Env} {w w' : NW} (hi : CInv e w) (h : Step e w w') :
    CInv e w' ∧ ∀ c a, w.maps.toAddr c = some a → w'.maps.toAddr c = some a := by
  have kp : ∀ {w'}, Keeps w w' → CInv e w' ∧ ∀ c a, w.maps.toAddr c = some a → w'.maps.toAddr c = some a :=
    fun k => ⟨cinv_keeps hi k, fun c a h => by rw [k.1]; exact h⟩
  cases h with
  | newClass c u _ hc h => exact ⟨(class_some hi hc h).1, (class_some hi hc h).2.1⟩
  | transfers s r c ids _ h => exact kp (transfers_keeps h)
  | burns o c ids _ h => exact kp (burns_keeps h)
  | mints r c ids us _ h => exact kp (mints_keeps h)
  | call x a call _ hx h =>
    cases hm : w.maps.toDenom a with
    | some c =>
      refine kp (callNft_keeps h (Or.inr ?_))
      intro n hn
      obtain ⟨n', h1, h2⟩ := hi.live c a ((hi.bij c a).mpr hm)
      rw [hn] at h1; cases h1; rw [h2]; exact hx
    | none =>
      -- not a class contract
      cases hc : w.nfts a with
      | none => unfold callNft at h; rw [hc] at h; cases h; exact ⟨hi, fun _ _ h => h⟩
      | some n =>
        obtain ⟨c', _, h1, _, _, h4, h5⟩ := callNft_some hc h
        refine ⟨⟨by rw [h1]; exact hi.bij, by rw [h1]; exact hi.noevm, ?_⟩, fun c a h => by rw [h1]; exact h⟩
        intro c k hk
        rw [h1] at hk
        obtain ⟨n', g1, g2⟩ := hi.live c k hk
        have : k ≠ a := by rintro rfl; rw [(hi.bij c k).mp hk] at hm; cases hm
        exact ⟨n', by rw [h5 k this]; exact g1, g2⟩
  | user a x hn =>
    refine ⟨⟨hi.bij, hi.noevm, ?_⟩, fun _ _ h => h⟩
    intro c k hk
    obtain ⟨n', g1, g2⟩ := hi.live c k hk
    have : k ≠ a := by rintro rfl; rw [hn] at g1; cases g1
    exact ⟨n', by simp only; rw [put_other _ _ _ _ this]; exact g1, g2⟩

theorem reach_cinv {e : Env} {w : NW} (h : Reach e w) : CInv e w := by
  induction h with
  | init w h1 h2 =>
    refine ⟨fun c a => (by rw [h1, h2]; simp), fun c a h => (by rw [h1] at h; cases h),
      fun c a h => (by rw [h1] at h; cases h)⟩
  | step w w' _ hst ih => exact (step_cinv ih hst).1

/-- **C48, classes (one to one).** In every reachable state: two created classes never share a contract; the contract of a
class is named by that class and by no other; and its code belongs to the chain, so that only the keeper mints. -/
theorem C48_classes (e : Env) (w : NW) (h : Reach e w) :
    (∀ c a, evmPrefix.isPrefixOf c = false → (classToContract w c = some a ↔ w.maps.toDenom a = some c)) ∧
    (∀ c a, evmPrefix.isPrefixOf c = false → classToContract w c = some a →
      contractToClass e w a = c ∧ ∃ n, w.nfts a = some n ∧ n.owner = e.std) ∧
    (∀ c c' a, evmPrefix.isPrefixOf c = false → evmPrefix.isPrefixOf c' = false → classToContract w c = some a →
      classToContract w c' = some a → c = c') := by
  have hi := reach_cinv h
  have hm : ∀ c, evmPrefix.isPrefixOf c = false → classToContract w c = w.maps.toAddr c := by
    intro c hc; unfold classToContract; rw [hc]; rfl
  refine ⟨?_, ?_, ?_⟩
  · intro c a hc; rw [hm c hc]; exact hi.bij c a
  · intro c a hc h
    rw [hm c hc] at h
    refine ⟨?_, hi.live c a h⟩
    unfold contractToClass; rw [(hi.bij c a).mp h]
  · intro c c' a hc hc' h1 h2
    rw [hm c hc] at h1
    rw [hm c' hc'] at h2
    have := (hi.bij c a).mp h1
    rw [(hi.bij c' a).mp h2] at this
    cases this; rfl

/-- **C48, classes (for ever).** A class keeps its contract through every later event. -/
theorem C48_class_stable (e : Env) (w w' : NW) (h : Reach e w) (hs : Step e w w') (c : Str) (a : Addr)
    (hc : evmPrefix.isPrefixOf c = false) (ha : classToContract w c = some a) : classToContract w' c = some a := by
  have hm : ∀ w c, evmPrefix.isPrefixOf c = false → classToContract w c = w.maps.toAddr c := by
    intro w c hc; unfold classToContract; rw [hc]; rfl
  rw [hm w c hc] at ha
  rw [hm w' c hc]
  exact (step_cinv (reach_cinv h) hs).2 c a ha

/-- **C48, creating a class.** Creating or updating a class gives it a contract, sets its URI, and changes no existing
contract, no other class and no other URI. -/
theorem C48_class_create (e : Env) (w w' : NW) (h : Reach e w) (cls u : Str) (hc : evmPrefix.isPrefixOf cls = false)
    (hs : createOrUpdateClass e cls u w = some w') :
    (∃ a, classToContract w' cls = some a ∧ w'.uris a = some u ∧ ∀ k, k ≠ a → w'.uris k = w.uris k) ∧
    (∀ k, (w.nfts k).isSome = true → w'.nfts k = w.nfts k) ∧
    (∀ c a, evmPrefix.isPrefixOf c = false → classToContract w c = some a → classToContract w' c = some a) := by
  obtain ⟨_, _, a, h1, h2, h3, h4⟩ := class_some (reach_cinv h) hc hs
  refine ⟨⟨a, ?_, h2, h3⟩, h4, fun c a hc' ha => C48_class_stable e w w' h (.newClass cls u w' hc hs) c a hc' ha⟩
  unfold classToContract; rw [hc]; exact h1

/-! ### Token ids -/

theorem packU256_nat (n : Nat) (h : n < 2 ^ 256) : packU256 (Int.ofNat n) = n := by
  unfold packU256
  have : (Int.ofNat n) % (2 ^ 256 : Int) = Int.ofNat n := Int.emod_eq_of_lt (Int.natCast_nonneg n) (by
    have : (n : Int) < ((2 ^ 256 : Nat) : Int) := Int.ofNat_lt.mpr h
    simpa using this)
  rw [this]; rfl

theorem parseInt_natStr (n : Nat) : parseInt (natStr n) = some (Int.ofNat n) := parseInt_intStr (Int.ofNat n)

/-- **C48, ids.** In a class that is not an IBC class, the decimal string of a 256-bit number denotes that number, so that
different canonical ids are different tokens; in an IBC class an id denotes its hash, so that ids with different hashes
are different tokens. -/
theorem C48_ids_partial (sha : Str → Nat) (cls : Str) :
    ("ibc/".toList.isPrefixOf cls = false → ∀ n, n < 2 ^ 256 → tokenNumber sha cls (natStr n) = some n) ∧
    ("ibc/".toList.isPrefixOf cls = false → ∀ n m, n < 2 ^ 256 → m < 2 ^ 256 →
      tokenNumber sha cls (natStr n) = tokenNumber sha cls (natStr m) → n = m) ∧
    ("ibc/".toList.isPrefixOf cls = true → (∀ t, sha t < 2 ^ 256) → ∀ t t', sha t ≠ sha t' →
      tokenNumber sha cls t = some (sha t) ∧ tokenNumber sha cls t ≠ tokenNumber sha cls t') := by
  have h1 : "ibc/".toList.isPrefixOf cls = false → ∀ n, n < 2 ^ 256 → tokenNumber sha cls (natStr n) = some n := by
    intro hc n hn
    unfold tokenNumber tokenIdToBigInt
    rw [show ibcPrefix = "ibc/".toList from rfl, hc, if_neg (by decide), parseInt_natStr, Option.map_some, packU256_nat n hn]
  refine ⟨h1, ?_, ?_⟩
  · intro hc n m hn hm he
    rw [h1 hc n hn, h1 hc m hm] at he
    exact Option.some.inj he
  · intro hc hsha t t' hne
    have hx : ∀ t, tokenNumber sha cls t = some (sha t) := by
      intro t
      unfold tokenNumber tokenIdToBigInt
      rw [show ibcPrefix = "ibc/".toList from rfl, hc, if_pos rfl, Option.map_some, packU256_nat _ (hsha t)]
    refine ⟨hx t, ?_⟩
    rw [hx t, hx t']
    intro h; exact hne (Option.some.inj h)

/-- **C48, queries.** Whatever was called on the contract of a class: asked for the balance of an account, the module answers the
number of tokens the account owns (modulo 2^256; the zero address has none), and asked for the owner of a token it answers that owner,
by the same table. A class without code has no answers. -/
theorem C48_query (e : Env) (w : NW) (cls : Str) (k o : Addr) (calls : List (Addr × Call)) (hk : classToContract w cls = some k)
    (hc : w.nfts k = some (runCalls e.accepts calls (Nft.fresh o))) (hx : ∀ p ∈ calls, p.1 ≠ Addr.zero) :
    (∀ a, a ≠ Addr.zero → ∃ n, Owns (runCalls e.accepts calls (Nft.fresh o)).owners a n ∧ balanceOf w a cls = some (n % 2 ^ 256)) ∧
    balanceOf w Addr.zero cls = none ∧
    (∀ t n a, tokenNumber e.sha cls t = some n → a ≠ Addr.zero →
      (ownerOf e w cls t = some a ↔ (runCalls e.accepts calls (Nft.fresh o)).owners n = a)) := by
  refine ⟨?_, ?_, ?_⟩
  · intro a ha
    obtain ⟨n, h1, h2⟩ := C48_balances e.accepts o calls hx a ha
    refine ⟨n, h1, ?_⟩
    unfold balanceOf
    simp only [hk, hc, if_neg ha, h2]
  · unfold balanceOf; simp only [hk, hc, if_true]
  · intro t n a ht ha
    unfold ownerOf
    simp only [hk, hc, ht]
    split
    · rename_i h; rw [h]; exact ⟨fun x => (by cases x), fun x => absurd x.symm ha⟩
    · exact ⟨Option.some.inj, congrArg some⟩

/-- **C48, defect: ids.** Token ids are not one-to-one with tokens: signs, leading zeros, multiples of 2^256 and negative
numbers give other names for the same token. -/
theorem C48_ids_violated (sha : Str → Nat) :
    let cls := "collection".toList
    tokenNumber sha cls "5".toList = some 5 ∧ tokenNumber sha cls "+5".toList = some 5 ∧
    tokenNumber sha cls "005".toList = some 5 ∧
    tokenNumber sha cls "115792089237316195423570985008687907853269984665640564039457584007913129639941".toList = some 5 ∧
    tokenNumber sha cls "-1".toList = some (2 ^ 256 - 1) := by
  refine ⟨by rfl, by rfl, by rfl, by rfl, by rfl⟩

/-! ### Examples and refutations -/

/-- The chain address is 1, classes are deployed at 30, 31, ...; a "hash" that adds up code points; address 9 refuses. -/
def toyN : Env where
  sha := fun t => (t.map Char.toNat).sum
  accepts := fun a => a != Addr.ofNat 9
  deployed := fun n => Addr.ofNat (30 + n)
  std := Addr.ofNat 1
  mask := fun _ => []

def nw0 : NW := ⟨Maps.empty, fun _ => none, fun _ => none, 0⟩

def punks : Str := "ibc/punks".toList
def cats : Str := "cats".toList
def al : Addr := Addr.ofNat 100
def bo : Addr := Addr.ofNat 101

def nw1 : NW := ((createOrUpdateClass toyN punks "u".toList nw0).bind (createOrUpdateClass toyN cats "v".toList)).getD nw0
def nw2 : NW := (mints toyN al cats ["7".toList, "8".toList] ["a".toList, "b".toList] nw1).getD nw1

theorem getD_some {α : Type} {x : Option α} {d : α} (h : x.isSome = true) : x = some (x.getD d) := by
  cases x with
  | none => cases h
  | some v => rfl

theorem nw1_reach : Reach toyN nw1 := by
  have h : (createOrUpdateClass toyN punks "u".toList nw0).bind (createOrUpdateClass toyN cats "v".toList) = some nw1 :=
    getD_some (by decide +kernel)
  cases h1 : createOrUpdateClass toyN punks "u".toList nw0 with
  | none => rw [h1] at h; cases h
  | some w =>
    rw [h1] at h
    exact .step _ _ (.step _ _ (.init nw0 (fun _ => rfl) (fun _ => rfl)) (.newClass punks _ w (by decide) h1))
      (.newClass cats _ _ (by decide) h)

theorem nw2_mints : mints toyN al cats ["7".toList, "8".toList] ["a".toList, "b".toList] nw1 = some nw2 :=
  getD_some (by decide +kernel)

theorem nw2_reach : Reach toyN nw2 := .step _ _ nw1_reach (.mints _ _ _ _ _ nw2_mints)

theorem hasCode_of {w : NW} {cls : Str} {a : Addr} (h1 : classToContract w cls = some a)
    (h2 : (w.nfts a).isSome = true) : HasCode w cls := by
  cases h : w.nfts a with
  | none => rw [h] at h2; cases h2
  | some c => exact ⟨a, c, h1, h⟩

theorem nw1_code : HasCode nw1 cats := hasCode_of (a := Addr.ofNat 31) (by decide +kernel) (by decide +kernel)

theorem nw2_code : HasCode nw2 cats := hasCode_of (a := Addr.ofNat 31) (by decide +kernel) (by decide +kernel)

/-- Minting two tokens gives them, their URIs and nothing else (hypotheses of `C48_mints` met). -/
example : ownerOf toyN nw2 cats "7".toList = some al ∧ tokenInfos toyN nw2 cats ["7".toList, "8".toList] =
    some ["a".toList, "b".toList] := by
  obtain ⟨_, h2, _, h4, _⟩ := C48_mints toyN nw1 nw2 al cats ["7".toList, "8".toList] ["a".toList, "b".toList] nw1_code
    nw2_mints
  exact ⟨(h2 "7".toList (by decide)).2, h4⟩

/-- al sends token 8 to bo (hypotheses of `C48_transfers_ok` and `C48_transfers` met); bo's balance is one. -/
example : ∃ w', transfers toyN al bo cats ["8".toList] nw2 = some w' ∧ ownerOf toyN w' cats "8".toList = some bo ∧
    ownerOf toyN w' cats "7".toList = some al := by
  obtain ⟨w', h⟩ := C48_transfers_ok toyN nw2 al bo cats ["8".toList] (by decide +kernel) (by decide +kernel)
    (by decide +kernel) nw2_code ⟨by decide +kernel, by decide +kernel⟩ (by decide +kernel)
  obtain ⟨h1, h2⟩ := C48_transfers toyN nw2 w' al bo cats ["8".toList] (by decide +kernel) nw2_code h
  refine ⟨w', h, (h1 _ List.mem_cons_self).2, ?_⟩
  by_cases hh : ownerOf toyN w' cats "7".toList = ownerOf toyN nw2 cats "7".toList
  · rw [hh]; decide +kernel
  · obtain ⟨t, ht, a, n, _, _, g3, g4⟩ := h2 _ _ hh
    rw [List.mem_singleton] at ht
    subst ht
    have : tokenNumber toyN.sha cats "7".toList = some 7 := by decide +kernel
    rw [this] at g3; cases g3
    exact absurd g4 (by decide +kernel)

/-- Both ways of naming a contract (`C48_class`), and two that name none. -/
example : classToContract nw2 cats = some (Addr.ofNat 31) ∧
    classToContract nw2 "evm/0x00000000000000000000000000000000000000Ff".toList = some (Addr.ofNat 255) ∧
    classToContract nw2 "evm/ff".toList = none ∧ classToContract nw2 "none".toList = none := by decide +kernel

/-- Refused: tokens of others, tokens twice, a receiver that does not accept, a token that exists. -/
example : (transfers toyN bo al cats ["8".toList] nw2).isNone = true ∧
    (transfers toyN al bo cats ["8".toList, "08".toList] nw2).isNone = true ∧
    (transfers toyN al (Addr.ofNat 9) cats ["8".toList] nw2).isNone = true ∧
    (mints toyN bo cats ["9".toList, "7".toList] ["x".toList, "y".toList] nw2).isNone = true ∧
    (burns toyN bo cats ["7".toList] nw2).isNone = true ∧
    (burns toyN al cats ["7".toList, "8".toList] nw2).isSome = true ∧
    (balanceOf nw2 al cats = some 2) := by decide +kernel

/-- A history of one contract: a mint, an approval, a transfer by the approved, a refused transfer. -/
def toyCalls : List (Addr × Call) :=
  [(Addr.ofNat 1, .mint al 7 [] []), (al, .approve bo 7), (bo, .transferFrom al bo 7), (al, .transferFrom bo al 7)]

example : (∀ p ∈ toyCalls, p.1 ≠ Addr.zero) ∧
    (runCalls toyN.accepts toyCalls (Nft.fresh (Addr.ofNat 1))).owners 7 = bo ∧
    (runCalls toyN.accepts toyCalls (Nft.fresh (Addr.ofNat 1))).balances bo = 1 ∧
    (runCalls toyN.accepts toyCalls (Nft.fresh (Addr.ofNat 1))).balances al = 0 := by decide +kernel

/-- **C48, defect: no contract.** "changes ownership of exactly those tokens or fails" is false for a class id `evm/…` of an
address without a contract: mints, transfers and burns succeed and do nothing. -/
theorem C48_nocode_violated (e : Env) (w : NW) (cls : Str) (a : Addr) (s r : Addr) (n : Nat)
    (h1 : classToContract w cls = some a) (h2 : w.nfts a = none) (hn : tokenNumber e.sha cls (natStr n) = some n) :
    transfers e s r cls [natStr n] w = some w ∧ burns e s cls [natStr n] w = some w ∧
    mints e r cls [natStr n] [[]] w = some w ∧ ownerOf e w cls (natStr n) = none := by
  refine ⟨?_, ?_, ?_, ?_⟩
  · unfold transfers; rw [h1]; simp only [transferLoop, hn, callNft, h2]
  · unfold burns; rw [h1]; simp only [burnLoop, hn, callNft, h2]
  · unfold mints; rw [h1]; simp only [mintLoop, hn, callNft, h2]
  · unfold ownerOf; rw [h1]; simp only [hn, h2]

example : ∃ a, classToContract nw2 "evm/00000000000000000000000000000000000000ff".toList = some a ∧ nw2.nfts a = none ∧
    tokenNumber toyN.sha "evm/00000000000000000000000000000000000000ff".toList (natStr 7) = some 7 :=
  ⟨Addr.ofNat 255, by decide +kernel, by
    have : ((nw2.nfts (Addr.ofNat 255)).isSome = false) := by decide +kernel
    simpa using this, by decide +kernel⟩

/-- **C48, defect: `evm/` classes.** Creating a class whose id has the form `evm/…` deploys a contract that the id does not
name, puts the URI on a foreign address, and makes the export of the chain's state panic. -/
theorem C48_evm_class_violated :
    let cls := "evm/00000000000000000000000000000000000000ff".toList
    ∃ w', createOrUpdateClass toyN cls "u".toList nw0 = some w' ∧
      w'.maps.toAddr cls = some (Addr.ofNat 30) ∧ classToContract w' cls = some (Addr.ofNat 255) ∧
      w'.uris (Addr.ofNat 30) = none ∧ exportClasses w' [cls] = none := by
  refine ⟨(createOrUpdateClass toyN "evm/00000000000000000000000000000000000000ff".toList "u".toList nw0).getD nw0,
    getD_some (by decide +kernel), by decide +kernel, by decide +kernel, by decide +kernel, by decide +kernel⟩

/-- **C48, defect: other names.** A class has further names: every spelling of `evm/` and the address of its contract
resolves to the same contract, so that one token can be handled under two class ids. -/
theorem C48_alias_violated : classToContract nw2 cats = some (Addr.ofNat 31) ∧
    classToContract nw2 "evm/000000000000000000000000000000000000001f".toList = some (Addr.ofNat 31) ∧
    classToContract nw2 "evm/0x000000000000000000000000000000000000001F".toList = some (Addr.ofNat 31) ∧
    ownerOf toyN nw2 "evm/000000000000000000000000000000000000001f".toList "7".toList = some al := by
  decide +kernel

end Verif.Props.Nft
