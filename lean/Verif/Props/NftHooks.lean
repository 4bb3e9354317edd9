import Verif.Model.NftHooks
import Verif.Props.Nft
/-
C106: what receivers of NFTs do while they are being called gives them nothing they could not have had by calling afterwards.
-/
namespace Verif.Props.NftHooks
open Verif Verif.Text Verif.Nft Verif.Spec.Nft Verif.NftHooks Verif.Props.Nft

/-- The two contracts agree on everything but the texts of the tokens. -/
structure Same (c d : Nft) : Prop where
  owners : c.owners = d.owners
  balances : c.balances = d.balances
  tokenApprovals : c.tokenApprovals = d.tokenApprovals
  operatorApprovals : c.operatorApprovals = d.operatorApprovals
  owner : c.owner = d.owner

theorem Same.rfl {c : Nft} : Same c c := ⟨.refl _, .refl _, .refl _, .refl _, .refl _⟩

theorem Same.symm {c d : Nft} (h : Same c d) : Same d c := ⟨h.1.symm, h.2.symm, h.3.symm, h.4.symm, h.5.symm⟩

theorem Same.trans {c d e : Nft} (h : Same c d) (g : Same d e) : Same c e :=
  ⟨h.1.trans g.1, h.2.trans g.2, h.3.trans g.3, h.4.trans g.4, h.5.trans g.5⟩

theorem write_same {c d : Nft} (h : Same c d) (t : Addr) (id : Nat) : Same (writeOwner c t id) (writeOwner d t id) := by
  obtain ⟨o, b, ta, oa, u, g, w⟩ := c
  obtain ⟨o', b', ta', oa', u', g', w'⟩ := d
  obtain ⟨h1, h2, h3, h4, h5⟩ := h
  simp only at h1 h2 h3 h4 h5
  subst h1 h2 h3 h4 h5
  unfold writeOwner
  dsimp only
  by_cases h1 : o id ≠ Addr.zero <;> by_cases h2 : t ≠ Addr.zero <;> simp only [h1, h2, if_true, if_false, not_false_eq_true, not_true_eq_false, ne_eq] <;>
    exact ⟨.refl _, .refl _, .refl _, .refl _, .refl _⟩

theorem auth_same {c d : Nft} (h : Same c d) (o s : Addr) (id : Nat) : isAuthorized c o s id = isAuthorized d o s id := by
  unfold isAuthorized; rw [h.tokenApprovals, h.operatorApprovals]

theorem update_same {c d c1 : Nft} (h : Same c d) {t : Addr} {id : Nat} {x : Addr} (e : update c t id x = some c1) :
    ∃ d1, update d t id x = some d1 ∧ Same c1 d1 := by
  unfold update at e ⊢
  rw [auth_same h, h.owners] at e
  split at e
  · cases e
  · next hn =>
    injection e with e; subst e
    exact ⟨_, if_neg hn, write_same h t id⟩

theorem transfer_same {c d c1 : Nft} (h : Same c d) {x f t : Addr} {id : Nat} (e : transferFrom c x f t id = some c1) :
    ∃ d1, transferFrom d x f t id = some d1 ∧ Same c1 d1 := by
  unfold transferFrom at e ⊢
  split at e
  · cases e
  · next ht =>
    rw [if_neg ht]
    split at e
    · cases e
    · next c2 e2 =>
      obtain ⟨d2, e3, hs⟩ := update_same h e2
      rw [e3]
      rw [h.owners] at e
      split at e
      · cases e
      · next hf => injection e with e; subst e; exact ⟨d2, if_neg hf, hs⟩

theorem mint_same {c d c1 : Nft} (h : Same c d) {t : Addr} {id : Nat} (e : mintTok c t id = some c1) :
    ∃ d1, mintTok d t id = some d1 ∧ Same c1 d1 := by
  unfold mintTok at e ⊢
  split at e
  · cases e
  · next ht =>
    rw [if_neg ht]
    split at e
    · cases e
    · next c2 e2 =>
      obtain ⟨d2, e3, hs⟩ := update_same h e2
      rw [e3]
      rw [h.owners] at e
      split at e
      · cases e
      · next hf => injection e with e; subst e; exact ⟨d2, if_neg hf, hs⟩

/-- What a call does before its hook, it does too if its receiver just accepts. -/
theorem before_same {c d c1 : Nft} (h : Same c d) {x : Addr} {call : Call} (e : before x call c = some c1) :
    ∃ d1, exec (fun _ => true) x call d = some d1 ∧ Same c1 d1 := by
  cases call with
  | approve to id =>
    simp only [before, exec] at e ⊢
    rw [h.owners, h.operatorApprovals] at e
    split at e
    · cases e
    · next h1 =>
      split at e
      · cases e
      · next h2 =>
        injection e with e; subst e
        rw [if_neg h1, if_neg h2]
        exact ⟨_, rfl, ⟨.refl _, h.balances, by simp only [h.tokenApprovals], .refl _, h.owner⟩⟩
  | setApprovalForAll op b =>
    simp only [before, exec] at e ⊢
    split at e
    · cases e
    · next h1 =>
      injection e with e; subst e
      rw [if_neg h1]
      exact ⟨_, rfl, ⟨h.owners, h.balances, h.tokenApprovals, by simp only [h.operatorApprovals], h.owner⟩⟩
  | transferFrom f t id => exact transfer_same h e
  | safeTransferFrom f t id =>
    obtain ⟨d1, h1, h2⟩ := transfer_same h e
    exact ⟨d1, by simp only [exec, h1, if_true], h2⟩
  | burn id =>
    simp only [before, exec] at e ⊢
    rw [auth_same h, h.owners] at e
    split at e
    · cases e
    · next h1 =>
      split at e
      · cases e
      · next h2 =>
        obtain ⟨d1, h3, h4⟩ := update_same h e
        exact ⟨d1, by rw [if_neg h1, if_neg h2]; exact h3, h4⟩
  | mint to id u g =>
    simp only [before, exec] at e ⊢
    rw [h.owner] at e
    split at e
    · cases e
    · next h1 =>
      obtain ⟨d1, h3, h4⟩ := mint_same h e
      rw [if_neg h1, h3]
      simp only [if_true]
      exact ⟨_, rfl, ⟨h4.1, h4.2, h4.3, h4.4, h4.5⟩⟩
  | transferOwnership n =>
    simp only [before, exec] at e ⊢
    rw [h.owner] at e
    split at e
    · cases e
    · next h1 =>
      split at e
      · cases e
      · next h2 =>
        injection e with e; subst e
        rw [if_neg h1, if_neg h2]
        exact ⟨_, rfl, ⟨h.owners, h.balances, h.tokenApprovals, h.operatorApprovals, .refl _⟩⟩

theorem after_same (call : Call) (c : Nft) : Same (after call c) c := by
  cases call <;> exact ⟨.refl _, .refl _, .refl _, .refl _, .refl _⟩

theorem runCalls_append (f : Addr → Bool) : ∀ (l m : List (Addr × Call)) (c : Nft), runCalls f (l ++ m) c = runCalls f m (runCalls f l c)
  | [], _, _ => rfl
  | (x, k) :: l, m, c => runCalls_append f l m _

mutual
theorem run_flat : ∀ (o : Op) (c d c' : Nft), Same c d → run o c = some c' →
    ∃ l, l.Sublist (calls o) ∧ Same c' (runCalls (fun _ => true) l d)
  | .mk x call hook acc, c, d, c', h, e => by
    rw [run] at e
    cases hb : before x call c with
    | none => rw [hb] at e; cases e
    | some c1 =>
      rw [hb] at e
      simp only at e
      obtain ⟨d1, h1, h2⟩ := before_same h hb
      split at e
      · split at e
        · injection e with e; subst e
          obtain ⟨l, h3, h4⟩ := runAll_flat hook c1 d1 h2
          refine ⟨(x, call) :: l, ?_, ?_⟩
          · rw [calls]; exact h3.cons_cons _
          · rw [runCalls, h1, Option.getD_some]
            exact (after_same call _).trans h4
        · cases e
      · injection e with e; subst e
        refine ⟨[(x, call)], ?_, ?_⟩
        · rw [calls]; exact (List.nil_sublist _).cons_cons _
        · rw [runCalls, h1]; exact h2
theorem runAll_flat : ∀ (os : List Op) (c d : Nft), Same c d →
    ∃ l, l.Sublist (callsAll os) ∧ Same (runAll os c) (runCalls (fun _ => true) l d)
  | [], c, d, h => ⟨[], List.nil_sublist _, by rw [runAll]; exact h⟩
  | o :: r, c, d, h => by
    rw [runAll, callsAll]
    cases ho : run o c with
    | none =>
      obtain ⟨l, h1, h2⟩ := runAll_flat r c d h
      exact ⟨l, h1.trans (List.sublist_append_right _ _), h2⟩
    | some c1 =>
      obtain ⟨l, h1, h2⟩ := run_flat o c d c1 h ho
      obtain ⟨m, h3, h4⟩ := runAll_flat r c1 _ h2
      exact ⟨l ++ m, h1.append h3, by rw [runCalls_append]; exact h4⟩
end

/-- **C106** (hooks give nothing): for every contract and every history of calls whose receivers do anything at all while they are
being called — call again, have others call, to any depth, accept or refuse — there is a history of some of the same calls, by the same
callers and in the order in which they began, whose receivers do nothing, with the same owners, balances, approvals, operators and
contract owner in the end. -/
theorem C106_nothing_gained (ops : List Op) (c : Nft) :
    ∃ l, l.Sublist (callsAll ops) ∧ Same (runAll ops c) (runCalls (fun _ => true) l c) := runAll_flat ops c c Same.rfl

theorem inv_same {c d : Nft} (h : Same c d) (hi : Inv d) : Inv c :=
  ⟨by rw [h.owners, h.tokenApprovals]; exact hi.appr, by rw [h.operatorApprovals]; exact hi.oper,
   by rw [h.owners, h.balances]; exact hi.count⟩

theorem runAll_inv {ops : List Op} (hx : ∀ p ∈ callsAll ops, p.1 ≠ Addr.zero) {c : Nft} (hc : Inv c) : Inv (runAll ops c) := by
  obtain ⟨l, h1, h2⟩ := C106_nothing_gained ops c
  exact inv_same h2 (run_inv _ l (fun p hp => hx p (h1.subset hp)) c hc)

/-- **C106** (balances): after every such history the balance of every account is the number of tokens it owns. -/
theorem C106_balances (o : Addr) (ops : List Op) (hx : ∀ p ∈ callsAll ops, p.1 ≠ Addr.zero) (a : Addr) (ha : a ≠ Addr.zero) :
    ∃ n, Owns (runAll ops (Nft.fresh o)).owners a n ∧ (runAll ops (Nft.fresh o)).balances a = n % 2 ^ 256 :=
  (runAll_inv hx (fresh_inv o)).count a ha

/-- nobody in `l` may dispose of token `i` -/
def Out (l : List (Addr × Call)) (c : Nft) (i : Nat) : Prop :=
  ∀ p ∈ l, c.owners i ≠ p.1 ∧ c.operatorApprovals (c.owners i) p.1 = false ∧ c.tokenApprovals i ≠ p.1

theorem flat_safe : ∀ (l m : List (Addr × Call)) (c : Nft) (i : Nat), (∀ p ∈ l, p ∈ m) → (∀ p ∈ m, p.1 ≠ Addr.zero) → c.owners i ≠ Addr.zero →
    Out m c i → (runCalls (fun _ => true) l c).owners i = c.owners i
  | [], _, _, _, _, _, _, _ => rfl
  | (x, call) :: l, m, c, i, hl, hm, hz, ho => by
    rw [runCalls]
    have hx : x ≠ Addr.zero := hm _ (hl _ List.mem_cons_self)
    have hox := ho _ (hl _ List.mem_cons_self)
    cases he : exec (fun _ => true) x call c with
    | none => exact flat_safe l m c i (fun p hp => hl p (List.mem_cons_of_mem _ hp)) hm hz ho
    | some c1 =>
      rw [Option.getD_some]
      have hown : c1.owners i = c.owners i := by
        rcases exec_cases he with ⟨e1, _⟩ | ⟨id, to, e1, e2⟩ | ⟨id, to, u, og, _, _, e3, _, e1⟩
        · rw [e1]
        · rw [e1, writeOwner_owners]
          by_cases hid : i = id
          · subst hid
            rcases (may_of_authorized (e2 hx)).2 with k | k | k
            · exact absurd k hox.1
            · rw [hox.2.1] at k; cases k
            · exact absurd k hox.2.2
          · exact put_other _ _ _ _ hid
        · have : c1.owners = put c.owners id to := by rw [e1]; exact writeOwner_owners c to id
          rw [this]
          by_cases hid : i = id
          · subst hid; exact absurd e3 hz
          · exact put_other _ _ _ _ hid
      obtain ⟨hp1, hp2⟩ := C48_permissions (fun _ => true) c c1 x hx call he
      have hout : Out m c1 i := by
        intro p hp
        have hop := ho p hp
        rw [hown]
        refine ⟨hop.1, ?_, ?_⟩
        · cases hk : c1.operatorApprovals (c.owners i) p.1 with
          | false => rfl
          | true => exact absurd (hp1 (c.owners i) p.1 (by rw [hk, hop.2.1]; decide)).1 hox.1
        · intro hk
          by_cases hsame : c1.tokenApprovals i = c.tokenApprovals i
          · exact hop.2.2 (hsame ▸ hk)
          · rcases (hp2 i hsame (by rw [hk]; exact hm p hp)).2 with k | k
            · exact hox.1 k
            · rw [hox.2.1] at k; cases k
      rw [flat_safe l m c1 i (fun p hp => hl p (List.mem_cons_of_mem _ hp)) hm (by rw [hown]; exact hz) hout, hown]

/-- **C106** (nobody's token is taken): a token stays where it is through every call — with whatever its receivers do, and whatever they
make others do — as long as none of those who call is its owner, an operator of the owner or approved for it. -/
theorem C106_stays (ops : List Op) (c : Nft) (i : Nat) (hx : ∀ p ∈ callsAll ops, p.1 ≠ Addr.zero) (hz : c.owners i ≠ Addr.zero)
    (ho : ∀ p ∈ callsAll ops, ¬ May c p.1 i) : (runAll ops c).owners i = c.owners i := by
  obtain ⟨l, h1, h2⟩ := C106_nothing_gained ops c
  rw [h2.owners]
  refine flat_safe l (callsAll ops) c i (fun p hp => h1.subset hp) hx hz (fun p hp => ?_)
  have := ho p hp
  unfold May at this
  refine ⟨fun e => this (.inl e), ?_, fun e => this (.inr (.inr e))⟩
  cases hk : c.operatorApprovals (c.owners i) p.1 with
  | false => rfl
  | true => exact absurd (.inr (.inl hk)) this

theorem mint_parts {c c1 : Nft} {x to : Addr} {id : Nat} {u g : Str} (h : before x (.mint to id u g) c = some c1) :
    x = c.owner ∧ to ≠ Addr.zero ∧ c.owners id = Addr.zero ∧ c1 = writeOwner c to id := by
  simp only [before] at h
  split at h
  · cases h
  · next h0 =>
    unfold mintTok at h
    split at h
    · cases h
    · next h1 =>
      split at h
      · cases h
      · next c2 h2 =>
        split at h
        · cases h
        · next h3 =>
          injection h with h; subst h
          unfold update at h2
          split at h2
          · cases h2
          · injection h2 with h2
            exact ⟨Decidable.of_not_not h0, h1, Decidable.of_not_not h3, h2.symm⟩

/-- **C106** (minting): a mint that succeeds was made by the contract's owner for a token that did not exist; when it returns the token has
exactly the texts it was minted with, whatever the receiver did; and it belongs to the receiver unless the receiver, or an operator of
the receiver, made a call while it was being called. -/
theorem C106_minted (o : Addr) (past : List Op) (hp : ∀ p ∈ callsAll past, p.1 ≠ Addr.zero) (c : Nft) (hc : c = runAll past (Nft.fresh o))
    (x to : Addr) (id : Nat) (uri origin : Str) (hook : List Op) (acc : Bool) (c' : Nft)
    (hx : ∀ p ∈ callsAll hook, p.1 ≠ Addr.zero) (h : run (.mk x (.mint to id uri origin) hook acc) c = some c') :
    x = c.owner ∧ c.owners id = Addr.zero ∧ c'.tokenUris id = uri ∧ c'.tokenOriginIds id = origin ∧
    ((∀ p ∈ callsAll hook, p.1 ≠ to ∧ c.operatorApprovals to p.1 = false) → c'.owners id = to) := by
  have hi : Inv c := hc ▸ runAll_inv hp (fresh_inv o)
  rw [run] at h
  cases hb : before x (.mint to id uri origin) c with
  | none => rw [hb] at h; cases h
  | some c1 =>
    rw [hb] at h
    obtain ⟨h1, h2, h3, h4⟩ := mint_parts hb
    simp only [hooked, if_true] at h
    split at h
    · injection h with h; subst h
      refine ⟨h1, h3, by simp [after, put_same], by simp [after, put_same], fun hq => ?_⟩
      have ho1 : c1.owners id = to := by rw [h4, writeOwner_owners, put_same]
      have := C106_stays hook c1 id hx (by rw [ho1]; exact h2) (fun p hpm => by
        rintro (k | k | k)
        · exact (hq p hpm).1 (by rw [← k, ho1])
        · rw [ho1, h4, (writeOwner_meta c to id).2.2.1, (hq p hpm).2] at k; cases k
        · rw [h4, writeOwner_appr, if_neg (not_not_intro h3), hi.appr id h3] at k
          exact hx p hpm k.symm)
      show (runAll hook c1).owners id = to
      rw [this, ho1]
    · cases h

/-- **C107 is false of the code as it is:** while the receiver of a new token is being called, the token has not the texts it is minted
with but those of the token that had its number before, or none: they are written afterwards. -/
theorem C107_early_violated (c : Nft) (to : Addr) (id : Nat) (uri origin : Str) (ht : to ≠ Addr.zero) (h0 : c.owners id = Addr.zero)
    (hu : uri ≠ c.tokenUris id) :
    ∃ c1, before c.owner (.mint to id uri origin) c = some c1 ∧ c1.owners id = to ∧ c1.tokenUris id = c.tokenUris id ∧ c1.tokenUris id ≠ uri := by
  refine ⟨writeOwner c to id, ?_, by rw [writeOwner_owners, put_same], by rw [(writeOwner_meta c to id).1],
    by rw [(writeOwner_meta c to id).1]; exact fun e => hu e.symm⟩
  simp [before, mintTok, ht, update, h0]

/-- **C107 is false of the code as it is:** a receiver that burns the token while it is being called leaves a token that does not exist
but has texts; so does every burn: texts are never removed, and whoever gets the number next shows them until its own are written. -/
theorem C107_ghost_violated (c : Nft) (to : Addr) (id : Nat) (uri origin : Str) (ht : to ≠ Addr.zero) (h0 : c.owners id = Addr.zero) :
    (∃ c', run (.mk c.owner (.mint to id uri origin) [.mk to (.burn id) [] true] true) c = some c' ∧
      c'.owners id = Addr.zero ∧ c'.tokenUris id = uri) ∧
    (∀ d d' x, run (.mk x (.burn id) [] true) d = some d' → d'.owners id = Addr.zero ∧ d'.tokenUris id = d.tokenUris id) := by
  constructor
  · have hb : before c.owner (.mint to id uri origin) c = some (writeOwner c to id) := by
      simp [before, mintTok, ht, update, h0]
    have ho : (writeOwner c to id).owners id = to := by rw [writeOwner_owners, put_same]
    have hburn : run (.mk to (.burn id) [] true) (writeOwner c to id) = some (writeOwner (writeOwner c to id) Addr.zero id) := by
      rw [run]
      simp [before, exec, ho, ht, isAuthorized, update, hooked]
    rw [run, hb]
    simp only [hooked, if_true]
    rw [runAll, hburn, Option.getD_some, runAll]
    exact ⟨_, rfl, by simp [after, writeOwner_owners, put_same], by simp [after, put_same]⟩
  · intro d d' x h
    rw [run] at h
    cases hb : before x (.burn id) d with
    | none => rw [hb] at h; cases h
    | some d1 =>
      rw [hb] at h
      simp only [hooked, Bool.false_eq_true, if_false, Option.some.injEq] at h
      subst h
      simp only [before, exec] at hb
      split at hb
      · cases hb
      · split at hb
        · cases hb
        · unfold update at hb
          split at hb
          · cases hb
          · injection hb with hb; subst hb
            exact ⟨by rw [writeOwner_owners, put_same], by rw [(writeOwner_meta d _ id).1]⟩

/-! A receiver (5) that, while token 7 is minted to it, passes it on to 6, whose hook sends it back, refuses a second one, and tries to take
token 1 of 9. -/

def chain1 : Addr := Addr.ofNat 1
def five : Addr := Addr.ofNat 5
def six : Addr := Addr.ofNat 6
def nine : Addr := Addr.ofNat 9

def busy : List Op :=
  [.mk chain1 (.mint nine 1 "one".toList []) [] true,
   .mk chain1 (.mint five 7 "seven".toList "7".toList)
     [.mk five (.safeTransferFrom five six 7) [.mk six (.safeTransferFrom six five 7) [] true] true,
      .mk five (.safeTransferFrom nine five 1) [] true,
      .mk five (.safeTransferFrom five six 7) [.mk six (.burn 7) [] true] false] true]

example : ((runAll busy (Nft.fresh chain1)).owners 7, (runAll busy (Nft.fresh chain1)).owners 1, (runAll busy (Nft.fresh chain1)).balances five,
    (runAll busy (Nft.fresh chain1)).balances six, (runAll busy (Nft.fresh chain1)).tokenUris 7) = (five, nine, 1, 0, "seven".toList) := by
  decide +kernel

example : (∀ p ∈ callsAll busy, p.1 ≠ Addr.zero) ∧ (callsAll busy).length = 7 := by decide +kernel

/-- The hypotheses of `C106_stays` hold for token 1 of 9 after it is minted. -/
example : ∀ p ∈ callsAll (busy.drop 1), p.1 ≠ nine ∧ p.1 ≠ Addr.zero := by decide +kernel

end Verif.Props.NftHooks
