import Verif.Model.Refunds
import Verif.Lemmas.CacheStack
/-
C163: storage writes and the gas refund counter.  The counter covers every slot cleared so far, so undoing
a clearing never takes it below zero.
-/
namespace Verif.Props.Refunds
open Verif.Refunds
open Verif.CacheStack (View Delta DB overlay readAt readAt_congr overlay_over)

/-! ### Specification -/

/-- How many of the slots in `L` held something at the start of the execution (`was`) and are empty now. -/
def cleared (was now : Nat → Nat) (L : List Nat) : Nat :=
  (L.filter fun s => decide (was s ≠ 0 ∧ now s = 0)).length

mutual
/-- The storage writes an action prices. -/
def writes : Act → Nat
  | .sstore _ _ => 1
  | .other _ => 0
  | .call body how => writesAll body + (match how with | .outOfGas _ _ => 1 | _ => 0)
def writesAll : List Act → Nat
  | [] => 0
  | a :: as => writes a + writesAll as
end

/-! ### Lemmas -/

theorem bind_ok {α β : Type} (a : α) (f : α → Res β) : Res.bind (.ok a) f = f a := rfl

theorem readAt_put_top {base : Sto} {heap : Nat → Delta Key Nat} {l : Nat} {c : List Nat} (hl : l ∉ c)
    (d : Delta Key Nat) :
    readAt base (fun j => if j = l then d.over (heap l) else heap j) c = readAt base heap c := by
  apply readAt_congr
  intro m hm
  have : m ≠ l := fun e => hl (e ▸ hm)
  simp [this]

theorem put_view {db : Db} (hn : db.ctx.Nodup) (d : Delta Key Nat) :
    (db.put d).view = overlay d db.view := by
  unfold DB.view DB.put
  rcases hc : db.ctx with _ | ⟨l, c⟩
  · simp only [hc, readAt]
  · simp only [hc, readAt, if_true]
    rw [hc] at hn
    rw [readAt_put_top (List.nodup_cons.mp hn).1, overlay_over]

theorem put_ctx (db : Db) (d : Delta Key Nat) : (db.put d).ctx = db.ctx := by
  unfold DB.put; rcases hc : db.ctx with _ | ⟨l, c⟩ <;> simp [hc]
theorem put_snaps (db : Db) (d : Delta Key Nat) : (db.put d).snaps = db.snaps := by
  unfold DB.put; rcases hc : db.ctx with _ | ⟨l, c⟩ <;> simp
theorem put_next (db : Db) (d : Delta Key Nat) : (db.put d).next = db.next := by
  unfold DB.put; rcases hc : db.ctx with _ | ⟨l, c⟩ <;> simp

/-- A write through the current context leaves every context below it as it was. -/
theorem put_below {db : Db} (hn : db.ctx.Nodup) (d : Delta Key Nat) {c : List Nat} (hs : c <:+ db.ctx)
    (hne : c ≠ db.ctx) : readAt (db.put d).base (db.put d).heap c = readAt db.base db.heap c ∧
      (db.put d).base = db.base := by
  rcases hc : db.ctx with _ | ⟨l, r⟩
  · rw [hc] at hs hne; exact absurd (List.suffix_nil.mp hs) hne
  · rw [hc] at hs hne hn
    have hp : db.put d = { db with heap := fun j => if j = l then d.over (db.heap l) else db.heap j } := by
      simp [DB.put, hc]
    rw [hp]
    refine ⟨?_, rfl⟩
    rcases List.suffix_cons_iff.mp hs with h | h
    · exact absurd h hne
    · exact readAt_put_top (fun hm => (List.nodup_cons.mp hn).1 (h.subset hm)) d

/-- The counter of `v` covers the slots cleared since `base`, and is at most `B`. -/
def Covers (base v : Sto) (B : Nat) : Prop :=
  (∀ L : List Nat, L.Nodup → 4800 * cleared (getState base) (getState v) L ≤ getRefund v) ∧ getRefund v ≤ B

theorem cleared_same (f : Nat → Nat) (L : List Nat) : cleared f f L = 0 := by
  unfold cleared
  have : (L.filter fun s => decide (f s ≠ 0 ∧ f s = 0)) = [] := by
    apply List.filter_eq_nil_iff.mpr
    intro a _; simp
  rw [this]; rfl

theorem Covers.mono {base v : Sto} {B B' : Nat} (h : Covers base v B) (hb : B ≤ B') : Covers base v B' :=
  ⟨h.1, Nat.le_trans h.2 hb⟩

theorem covers_self {v : Sto} {B : Nat} (h : getRefund v ≤ B) : Covers v v B :=
  ⟨fun L _ => by rw [cleared_same]; omega, h⟩

/-- What pricing does to the counter, as arithmetic. -/
def net (original current v r : Nat) : Option Nat :=
  if current = v then some r
  else if original = current then some (if original ≠ 0 ∧ v = 0 then r + 4800 else r)
  else if original ≠ 0 ∧ current = 0 then
    if 4800 ≤ r then some (if original = v then r - 4800 + 2800 else r - 4800) else none
  else if original ≠ 0 ∧ v = 0 then some (r + 4800)
  else if original = v then some (if original = 0 then r + 19900 else r + 2800)
  else some r

theorem net_le {o c v r r' : Nat} (h : net o c v r = some r') : r' ≤ r + 20000 := by
  unfold net at h
  split at h
  · cases h; omega
  · split at h
    · cases h; split <;> omega
    · split at h
      · split at h
        · cases h; split <;> omega
        · cases h
      · split at h
        · cases h; omega
        · split at h
          · cases h; split <;> omega
          · cases h; omega

/-- `db'` differs from `db` only in what has been written through the current context. -/
structure Upd (db db' : Db) : Prop where
  ctx : db'.ctx = db.ctx
  snaps : db'.snaps = db.snaps
  next : db'.next = db.next
  below : ∀ c, c <:+ db.ctx → c ≠ db.ctx →
    readAt db'.base db'.heap c = readAt db.base db.heap c ∧ db'.base = db.base

theorem Upd.rfl' (db : Db) : Upd db db := ⟨rfl, rfl, rfl, fun _ _ _ => ⟨rfl, rfl⟩⟩

theorem Upd.trans {a b c : Db} (h : Upd a b) (h' : Upd b c) : Upd a c := by
  refine ⟨h'.ctx.trans h.ctx, h'.snaps.trans h.snaps, h'.next.trans h.next, fun x hx hne => ?_⟩
  have h1 := h.below x hx hne
  have h2 := h'.below x (h.ctx ▸ hx) (h.ctx ▸ hne)
  exact ⟨h2.1.trans h1.1, h2.2.trans h1.2⟩

theorem upd_put {db : Db} (hn : db.ctx.Nodup) (d : Delta Key Nat) : Upd db (db.put d) :=
  ⟨put_ctx db d, put_snaps db d, put_next db d, fun _ hs hne => put_below hn d hs hne⟩

theorem refund_one (v : Sto) (n : Nat) : getRefund (overlay (one .refund n) v) = n := by
  simp [getRefund, overlay, one]
theorem key_one (v : Sto) (n : Nat) (k : Key) (hk : k ≠ .refund) : overlay (one .refund n) v k = v k := by
  simp [overlay, one, hk]

/-- The counter was set to `r`, nothing else changed. -/
structure Moved (db db' : Db) (r : Nat) : Prop where
  upd : Upd db db'
  refund : getRefund db'.view = r
  rest : ∀ k, k ≠ .refund → db'.view k = db.view k

theorem moved_put {db : Db} (hn : db.ctx.Nodup) (r : Nat) : Moved db (db.put (one .refund r)) r :=
  ⟨upd_put hn _, by rw [put_view hn, refund_one], fun k hk => by rw [put_view hn, key_one _ _ _ hk]⟩

theorem moved_add {db : Db} (hn : db.ctx.Nodup) (g : Nat)
    (hw : getRefund db.view + g < 18446744073709551616) :
    Moved db (addRefund db g) (getRefund db.view + g) := by
  unfold addRefund; rw [Nat.mod_eq_of_lt hw]; exact moved_put hn _

theorem Moved.trans {a b c : Db} {r r' : Nat} (h : Moved a b r) (h' : Moved b c r') : Moved a c r' :=
  ⟨h.upd.trans h'.upd, h'.refund, fun k hk => (h'.rest k hk).trans (h.rest k hk)⟩

/-- Pricing moves the counter as `net` says, and panics exactly when `net` has no answer. -/
theorem charge_net {db : Db} (hn : db.ctx.Nodup) (s v : Nat)
    (hw : getRefund db.view + 20000 < 18446744073709551616) :
    match net (getState db.base s) (getState db.view s) v (getRefund db.view) with
    | some r => ∃ db', charge db s v = .ok db' ∧ Moved db db' r
    | none => charge db s v = .underflow := by
  have e : getCommitted db s = getState db.base s := rfl
  have hself : Moved db db (getRefund db.view) := ⟨Upd.rfl' db, rfl, fun _ _ => rfl⟩
  unfold net charge
  simp only [e]
  generalize getState db.base s = o
  generalize getState db.view s = c
  by_cases h1 : c = v
  · simp only [h1, if_true]; exact ⟨db, rfl, hself⟩
  · simp only [h1, if_false]
    by_cases h2 : o = c
    · simp only [h2, if_true]
      refine ⟨_, rfl, ?_⟩
      split
      · exact moved_add hn _ (by omega)
      · exact hself
    · simp only [h2, if_false]
      by_cases h3 : o = 0
      · simp only [h3, ne_eq, not_true_eq_false, false_and, if_false, bind_ok, if_true]
        by_cases h4 : 0 = v
        · simp only [h4, if_true]
          exact ⟨_, rfl, moved_add hn _ (by omega)⟩
        · simp only [h4, if_false]
          exact ⟨_, rfl, hself⟩
      · simp only [h3, ne_eq, not_false_eq_true, true_and, if_true, if_false]
        by_cases h4 : c = 0
        · simp only [h4, if_true]
          by_cases h5 : 4800 ≤ getRefund db.view
          · simp only [h5, if_true]
            unfold subRefund
            rw [if_neg (by omega), bind_ok]
            have m1 := moved_put hn (getRefund db.view - 4800)
            by_cases h6 : o = v
            · simp only [h6, if_true]
              refine ⟨_, rfl, ?_⟩
              have m2 := moved_add (db := db.put (one .refund (getRefund db.view - 4800)))
                (by rw [put_ctx]; exact hn) 2800 (by rw [m1.refund]; omega)
              rw [m1.refund] at m2
              exact m1.trans m2
            · simp only [h6, if_false]
              exact ⟨_, rfl, m1⟩
          · simp only [h5, if_false]
            unfold subRefund
            rw [if_pos (by omega)]; rfl
        · simp only [h4, if_false]
          by_cases h5 : v = 0
          · have h6 : o ≠ v := by omega
            simp only [h5, if_true, bind_ok, h3, if_false]
            exact ⟨_, rfl, moved_add hn _ (by omega)⟩
          · simp only [h5, if_false, bind_ok]
            by_cases h6 : o = v
            · simp only [h6, if_true]
              exact ⟨_, rfl, moved_add hn _ (by omega)⟩
            · simp only [h6, if_false]
              exact ⟨_, rfl, hself⟩

theorem cleared_split (was now : Nat → Nat) (s : Nat) (L : List Nat) (hL : L.Nodup) :
    cleared was now L ≤ cleared was now (L.filter (· ≠ s)) + (if was s ≠ 0 ∧ now s = 0 then 1 else 0) := by
  induction L with
  | nil => simp [cleared]
  | cons a L ih =>
    have hL' := (List.nodup_cons.mp hL)
    have ih := ih hL'.2
    by_cases ha : a = s
    · subst ha
      have hf : L.filter (fun x => decide (x ≠ a)) = L := by
        apply List.filter_eq_self.mpr
        intro x hx
        have : x ≠ a := fun e => hL'.1 (e ▸ hx)
        simp [this]
      have hf' : (a :: L).filter (fun x => decide (x ≠ a)) = L := by
        rw [List.filter_cons_of_neg (by simp), hf]
      rw [hf']
      unfold cleared
      by_cases hp : was a ≠ 0 ∧ now a = 0
      · rw [List.filter_cons_of_pos (by simpa using hp), if_pos hp, List.length_cons]; omega
      · rw [List.filter_cons_of_neg (by simpa using hp), if_neg hp]; omega
    · have hf' : (a :: L).filter (fun x => decide (x ≠ s)) = a :: L.filter (fun x => decide (x ≠ s)) :=
        List.filter_cons_of_pos (by simpa using ha)
      rw [hf']
      unfold cleared at ih ⊢
      by_cases hp : was a ≠ 0 ∧ now a = 0
      · rw [List.filter_cons_of_pos (by simpa using hp), List.filter_cons_of_pos (by simpa using hp),
          List.length_cons, List.length_cons]; omega
      · rw [List.filter_cons_of_neg (by simpa using hp), List.filter_cons_of_neg (by simpa using hp)]
        exact ih

theorem cleared_congr (was now now' : Nat → Nat) (L : List Nat) (h : ∀ x ∈ L, now x = now' x) :
    cleared was now L = cleared was now' L := by
  unfold cleared
  congr 1
  apply List.filter_congr
  intro x hx; rw [h x hx]

/-- The counter that covers the cleared slots pays for undoing one, and goes on covering them. -/
theorem net_covers {base v v' : Sto} {B s x : Nat} (h : Covers base v B) :
    (∃ r, net (getState base s) (getState v s) x (getRefund v) = some r) ∧
    ∀ r, net (getState base s) (getState v s) x (getRefund v) = some r →
      getRefund v' = r → getState v' s = x → (∀ t, t ≠ s → getState v' t = getState v t) →
      Covers base v' (B + 20000) := by
  have key : ∀ L : List Nat, L.Nodup → 4800 * (cleared (getState base) (getState v) (L.filter (· ≠ s)) +
      (if getState base s ≠ 0 ∧ getState v s = 0 then 1 else 0)) ≤ getRefund v := by
    intro L hL
    have := h.1 (s :: L.filter (· ≠ s)) (List.nodup_cons.mpr ⟨by simp, hL.filter _⟩)
    unfold cleared at this ⊢
    by_cases hp : getState base s ≠ 0 ∧ getState v s = 0
    · rw [if_pos hp]
      rw [List.filter_cons_of_pos (by simpa using hp), List.length_cons] at this
      exact this
    · rw [if_neg hp]
      rw [List.filter_cons_of_neg (by simpa using hp)] at this
      exact this
  refine ⟨?_, ?_⟩
  · have k := key [] List.nodup_nil
    unfold net
    split
    · exact ⟨_, rfl⟩
    · split
      · exact ⟨_, rfl⟩
      · split
        · rename_i hp
          rw [if_pos hp] at k
          rw [if_pos (by omega)]; exact ⟨_, rfl⟩
        · split
          · exact ⟨_, rfl⟩
          · split <;> exact ⟨_, rfl⟩
  · intro r hr hr' hs ht
    refine ⟨fun L hL => ?_, by rw [hr']; have := net_le hr; have := h.2; omega⟩
    have k := key L hL
    have c := cleared_split (getState base) (getState v') s L hL
    rw [cleared_congr (getState base) (getState v') (getState v) (L.filter (· ≠ s))
      (fun y hy => ht y (by simpa using (List.mem_filter.mp hy).2)), hs] at c
    rw [hr']
    generalize cleared (getState base) (getState v) (L.filter (· ≠ s)) = m at k c
    generalize cleared (getState base) (getState v') L = m' at c ⊢
    generalize getState base s = o at *
    generalize getState v s = cur at *
    generalize getRefund v = q at *
    clear key ht hs hr' h
    unfold net at hr
    by_cases h1 : cur = x
    · subst h1; simp only [if_true, Option.some.injEq] at hr; subst hr; omega
    · simp only [h1, if_false] at hr
      by_cases h2 : o = cur
      · subst h2
        simp only [if_true, Option.some.injEq] at hr
        by_cases h3 : o ≠ 0 ∧ x = 0
        · rw [if_pos h3] at c hr
          rw [if_neg (by omega)] at k; omega
        · rw [if_neg h3] at c hr
          rw [if_neg (by omega)] at k; omega
      · simp only [h2, if_false] at hr
        by_cases h3 : o ≠ 0 ∧ cur = 0
        · rw [if_pos h3] at hr k
          rw [if_neg (by omega)] at c
          split at hr
          · split at hr <;> (simp only [Option.some.injEq] at hr; omega)
          · cases hr
        · rw [if_neg h3] at hr k
          by_cases h4 : o ≠ 0 ∧ x = 0
          · rw [if_pos h4] at hr c
            simp only [Option.some.injEq] at hr; omega
          · rw [if_neg h4] at hr c
            split at hr
            · split at hr <;> (simp only [Option.some.injEq] at hr; omega)
            · simp only [Option.some.injEq] at hr; omega

/-- The shape of the context stack, and the counter covers the cleared slots in every context below the
current one. -/
structure Shape (db : Db) (B : Nat) : Prop where
  nodup : db.ctx.Nodup
  lt : ∀ l ∈ db.ctx, l < db.next
  snaps : ∀ c ∈ db.snaps, c <:+ db.ctx
  order : db.snaps.Pairwise (fun c c' => c <:+ c')
  below : ∀ c, c <:+ db.ctx → c ≠ db.ctx → Covers db.base (readAt db.base db.heap c) B

theorem Shape.upd {db db' : Db} {B B' : Nat} (h : Shape db B) (u : Upd db db') (hb : B ≤ B') :
    Shape db' B' := by
  refine ⟨u.ctx ▸ h.nodup, ?_, ?_, u.snaps ▸ h.order, ?_⟩
  · intro l hl; rw [u.next]; exact h.lt l (u.ctx ▸ hl)
  · intro c hc; rw [u.ctx]; exact h.snaps c (u.snaps ▸ hc)
  · intro c hc hne
    rw [u.ctx] at hc hne
    have := u.below c hc hne
    rw [this.1, this.2]
    exact (h.below c hc hne).mono hb

/-- The whole invariant. -/
def Sound (db : Db) (B : Nat) : Prop := Shape db B ∧ Covers db.base db.view B

/-- Over the initial context the counter covers whatever there is; otherwise the starting point of the
execution is untouched. -/
theorem upd_covers {db db' : Db} {B : Nat} (u : Upd db db') (hr : getRefund db'.view ≤ B)
    (h : Covers db.base db'.view B) : Covers db'.base db'.view B := by
  rcases hc : db.ctx with _ | ⟨l, c⟩
  · have hv : db'.view = db'.base := by unfold DB.view; rw [u.ctx, hc]; rfl
    rw [hv] at hr ⊢; exact covers_self hr
  · have := u.below [] (List.nil_suffix) (by rw [hc]; simp)
    rw [this.2]; exact h

theorem sstore_sound {db : Db} {B : Nat} (h : Sound db B) (s x : Nat)
    (hw : B + 20000 < 18446744073709551616) :
    ∃ db', sstore db s x = .ok db' ∧ Sound db' (B + 20000) ∧ Upd db db' := by
  have hn := h.1.nodup
  have hB := h.2.2
  have hc := charge_net hn s x (by omega)
  obtain ⟨⟨r, hr⟩, hcov⟩ := net_covers (v' := (db.view : Sto)) (s := s) (x := x) h.2
  rw [hr] at hc
  obtain ⟨db1, e1, m1⟩ := hc
  have hn1 : db1.ctx.Nodup := by rw [m1.upd.ctx]; exact hn
  have u2 := m1.upd.trans (upd_put hn1 (one (.slot s) x))
  have hv := put_view hn1 (one (.slot s) x)
  have hrf : getRefund (db1.put (one (.slot s) x)).view = r := by
    rw [hv, ← m1.refund]; simp [getRefund, overlay, one]
  have hcv : Covers db.base (db1.put (one (.slot s) x)).view (B + 20000) := by
    refine (net_covers h.2).2 r hr hrf ?_ ?_
    · rw [hv]; simp [getState, overlay, one]
    · intro t ht
      rw [hv]
      have : db1.view (.slot t) = db.view (.slot t) := m1.rest _ (by simp)
      simp [getState, overlay, one, ht, this]
  refine ⟨_, by unfold sstore; rw [e1]; rfl, ⟨h.1.upd u2 (by omega), ?_⟩, u2⟩
  exact upd_covers u2 hcv.2 hcv

theorem charge_sound {db : Db} {B : Nat} (h : Sound db B) (s x : Nat)
    (hw : B + 20000 < 18446744073709551616) :
    ∃ db', charge db s x = .ok db' ∧ Shape db' (B + 20000) ∧ Upd db db' ∧
      getRefund db'.view ≤ B + 20000 := by
  have hB := h.2.2
  have hc := charge_net h.1.nodup s x (by omega)
  obtain ⟨⟨r, hr⟩, -⟩ := net_covers (v' := (db.view : Sto)) (s := s) (x := x) h.2
  rw [hr] at hc
  obtain ⟨db1, e1, m1⟩ := hc
  refine ⟨db1, e1, h.1.upd m1.upd (by omega), m1.upd, ?_⟩
  rw [m1.refund]; have := net_le hr; omega

theorem other_sound {db : Db} {B : Nat} (h : Sound db B) (f : Sto → Nat → Option (Option Nat)) :
    Sound (db.put (others f db.view)) B ∧ Upd db (db.put (others f db.view)) := by
  have hn := h.1.nodup
  have u := upd_put hn (others f db.view)
  have hv := put_view hn (others f db.view)
  have e1 : getRefund (db.put (others f db.view)).view = getRefund db.view := by
    rw [hv]; rfl
  have e2 : getState (db.put (others f db.view)).view = getState db.view := by
    rw [hv]; rfl
  have hc : Covers db.base (db.put (others f db.view)).view B :=
    ⟨fun L hL => by rw [e1, e2]; exact h.2.1 L hL, by rw [e1]; exact h.2.2⟩
  exact ⟨⟨h.1.upd u (Nat.le_refl _), upd_covers u hc.2 hc⟩, u⟩

theorem fresh_read {db : Db} (lt : ∀ l ∈ db.ctx, l < db.next) {c : List Nat} (hc : c <:+ db.ctx) :
    readAt db.base (fun j => if j = db.next then Delta.empty else db.heap j) c
      = readAt db.base db.heap c := by
  apply readAt_congr
  intro l hl
  have := lt l (hc.subset hl)
  have : l ≠ db.next := by omega
  simp [this]

theorem snapshot_view {db : Db} (lt : ∀ l ∈ db.ctx, l < db.next) : db.snapshot.1.view = db.view := by
  unfold DB.view
  simp only [DB.snapshot, readAt, if_true]
  rw [fresh_read lt (List.suffix_refl _)]; rfl

theorem snapshot_sound {db : Db} {B : Nat} (h : Sound db B) : Sound db.snapshot.1 B := by
  refine ⟨⟨?_, ?_, ?_, ?_, ?_⟩, ?_⟩
  · simp only [DB.snapshot, List.nodup_cons]
    exact ⟨fun hm => absurd (h.1.lt _ hm) (by omega), h.1.nodup⟩
  · intro l hl
    simp only [DB.snapshot, List.mem_cons] at hl ⊢
    rcases hl with rfl | hl
    · omega
    · have := h.1.lt l hl; omega
  · intro c hc
    simp only [DB.snapshot, List.mem_append, List.mem_singleton] at hc ⊢
    rcases hc with hc | rfl
    · exact (h.1.snaps c hc).trans (List.suffix_cons _ _)
    · exact List.suffix_refl _
  · simp only [DB.snapshot]
    refine List.pairwise_append.mpr ⟨h.1.order, List.pairwise_singleton _ _, ?_⟩
    intro c hc c' hc'
    rw [List.mem_singleton.mp hc']
    exact (h.1.snaps c hc).trans (List.suffix_cons _ _)
  · intro c hc hne
    have hc' : c <:+ db.ctx := by
      rcases List.suffix_cons_iff.mp hc with e | e
      · exact absurd e hne
      · exact e
    show Covers db.base (readAt db.base (fun j => if j = db.next then Delta.empty else db.heap j) c) B
    rw [fresh_read h.1.lt hc']
    by_cases he : c = db.ctx
    · rw [he]; exact h.2
    · exact h.1.below c hc' he
  · rw [snapshot_view h.1.lt]; exact h.2

/-- Going back to a context of the stack. -/
theorem back_sound {db : Db} {B : Nat} (h : Sound db B) {c : List Nat} (hc : c <:+ db.ctx)
    {sn : List (List Nat)} (hs : ∀ x ∈ sn, x <:+ c) (ho : sn.Pairwise (fun c c' => c <:+ c')) :
    Sound { db with ctx := c, snaps := sn } B := by
  refine ⟨⟨hc.sublist.nodup h.1.nodup, fun l hl => h.1.lt l (hc.subset hl), hs, ho, ?_⟩, ?_⟩
  · intro c' hc' hne
    refine h.1.below c' (hc'.trans hc) ?_
    intro e
    subst e
    exact hne (List.IsSuffix.eq_of_length_le hc' hc.length_le)
  · by_cases he : c = db.ctx
    · subst he; exact h.2
    · exact h.1.below c hc he

theorem revert_sound {db db' : Db} {B : Nat} (h : Sound db B) {i : Int}
    (e : db.revertToSnapshot i = some db') : Sound db' B := by
  unfold DB.revertToSnapshot at e
  split at e
  · cases e
    exact back_sound h (List.nil_suffix) (by simp) (by simp)
  · split at e
    · cases e
    · split at e
      · cases e
      · rename_i c hc
        cases e
        have hlt := (List.getElem?_eq_some_iff.mp hc).1
        have hget := (List.getElem?_eq_some_iff.mp hc).2
        refine back_sound h (h.1.snaps c (List.mem_of_getElem? hc)) ?_ ?_
        · intro x hx
          obtain ⟨j, hj, hxj⟩ := List.mem_take_iff_getElem.mp hx
          have := List.pairwise_iff_getElem.mp h.1.order j i.toNat (by omega) hlt (by omega)
          rw [hxj, hget] at this
          exact this
        · exact h.1.order.sublist (List.take_sublist _ _)

theorem start_sound (base : Sto) : Sound (start base) 0 := by
  refine ⟨⟨List.nodup_nil, by simp [start, DB.new], by simp [start, DB.new], List.Pairwise.nil, ?_⟩, ?_⟩
  · intro c hc hne; exact absurd (List.suffix_nil.mp hc) hne
  · exact covers_self (v := (start base).base) (by
      show getRefund (overlay (one .refund 0) base) ≤ 0
      rw [refund_one]; omega)

theorem step_sound {db : Db} {B : Nat} (h : Sound db B) (o : Op)
    (hw : B + 20000 < 18446744073709551616) :
    step db o = .index ∨ ∃ db', step db o = .ok db' ∧ Sound db' (B + 20000) := by
  have up : ∀ db', Sound db' B → Sound db' (B + 20000) := fun db' h =>
    ⟨h.1.upd (Upd.rfl' _) (by omega), h.2.mono (by omega)⟩
  cases o with
  | sstore s x => obtain ⟨db', e, h', -⟩ := sstore_sound h s x hw; exact .inr ⟨db', e, h'⟩
  | other f => exact .inr ⟨_, rfl, up _ (other_sound h f).1⟩
  | snapshot => exact .inr ⟨_, rfl, up _ (snapshot_sound h)⟩
  | revert i =>
    show revertWith _ db i = _ ∨ ∃ db', revertWith _ db i = _ ∧ _
    unfold revertWith
    rcases e : db.revertToSnapshot i with _ | db'
    · exact .inl rfl
    · exact .inr ⟨db', rfl, up _ (revert_sound h e)⟩

theorem room (k B n M : Nat) (h : B + k * (n + 1) < M) : B + k < M ∧ B + k + k * n < M := by
  rw [Nat.mul_succ] at h
  constructor <;> omega

theorem shift (k B n : Nat) : B + k + k * n = B + k * (n + 1) := by rw [Nat.mul_succ]; omega

theorem run_sound {db : Db} {B : Nat} (h : Sound db B) (ops : List Op)
    (hw : B + 20000 * ops.length < 18446744073709551616) :
    run db ops = .index ∨ ∃ db', run db ops = .ok db' ∧ Sound db' (B + 20000 * ops.length) := by
  induction ops generalizing db B with
  | nil => exact .inr ⟨db, by rw [run], by simpa using h⟩
  | cons o os ih =>
    rw [List.length_cons] at hw ⊢
    have hw1 := (room _ _ _ _ hw).1
    have hw2 := (room _ _ _ _ hw).2
    rcases step_sound h o hw1 with e | ⟨db1, e, h1⟩
    · left; unfold run; rw [e]; rfl
    · have e2 : run db (o :: os) = run db1 os := by rw [run, e]; rfl
      rw [e2]
      have := ih h1 hw2
      rwa [shift] at this

theorem Sound.mono {db : Db} {B B' : Nat} (h : Sound db B) (hb : B ≤ B') : Sound db B' :=
  ⟨h.1.upd (Upd.rfl' _) hb, h.2.mono hb⟩

/-- Going back to a context strictly below the current one needs nothing of the current one. -/
theorem back_shape {db : Db} {B : Nat} (h : Shape db B) {c : List Nat} (hc : c <:+ db.ctx) (hne : c ≠ db.ctx)
    {sn : List (List Nat)} (hs : ∀ x ∈ sn, x <:+ c) (ho : sn.Pairwise (fun c c' => c <:+ c')) :
    Sound { db with ctx := c, snaps := sn } B := by
  refine ⟨⟨hc.sublist.nodup h.nodup, fun l hl => h.lt l (hc.subset hl), hs, ho, ?_⟩, h.below c hc hne⟩
  intro c' hc' hne'
  refine h.below c' (hc'.trans hc) ?_
  intro e
  subst e
  exact hne' (List.IsSuffix.eq_of_length_le hc' hc.length_le)

/-- The snapshots of a stack none of which has been lost. -/
def snapsOf : List Nat → List (List Nat)
  | [] => []
  | l :: c => snapsOf c ++ [l :: c]

theorem snapsOf_length (c : List Nat) : (snapsOf c).length = c.length := by
  induction c with
  | nil => rfl
  | cons l c ih => simp [snapsOf, ih]

theorem snapsOf_suffix (c : List Nat) : ∀ x ∈ snapsOf c, x <:+ c := by
  induction c with
  | nil => intro x hx; simp [snapsOf] at hx
  | cons l c ih =>
    intro x hx
    simp only [snapsOf, List.mem_append, List.mem_singleton] at hx
    rcases hx with hx | rfl
    · exact (ih x hx).trans (List.suffix_cons _ _)
    · exact List.suffix_refl _

theorem snapsOf_order (c : List Nat) : (snapsOf c).Pairwise (fun c c' => c <:+ c') := by
  induction c with
  | nil => exact List.Pairwise.nil
  | cons l c ih =>
    refine List.pairwise_append.mpr ⟨ih, List.pairwise_singleton _ _, ?_⟩
    intro x hx y hy
    rw [List.mem_singleton.mp hy]
    exact (snapsOf_suffix c x hx).trans (List.suffix_cons _ _)

theorem snapsOf_prefix {c c' : List Nat} (h : c <:+ c') : snapsOf c <+: snapsOf c' := by
  induction c' with
  | nil => rw [List.suffix_nil.mp h]; exact List.prefix_refl _
  | cons l c' ih =>
    rcases List.suffix_cons_iff.mp h with e | e
    · rw [e]; exact List.prefix_refl _
    · exact (ih e).trans (List.prefix_append _ _)

theorem snapsOf_last (l : Nat) (c : List Nat) : (snapsOf (l :: c))[c.length]? = some (l :: c) := by
  simp only [snapsOf]
  rw [List.getElem?_append_right (by rw [snapsOf_length]; exact Nat.le_refl _), snapsOf_length]
  simp

/-- The repaired revert brings back the context in which the snapshot was taken. -/
theorem repaired_back {db db1 : Db} (hf : db.snaps = snapsOf db.ctx) (hs : db1.snaps = snapsOf db1.ctx)
    (hc : db.ctx <:+ db1.ctx) :
    db1.revertToSnapshotRepaired db.snapshot.2 = some { db1 with ctx := db.ctx, snaps := snapsOf db.ctx } := by
  have hid : db.snapshot.2 = (db.ctx.length : Int) - 1 := by
    show ((db.snaps.length : Int) - 1) = _
    rw [hf, snapsOf_length]
  rw [hid]
  unfold DB.revertToSnapshotRepaired
  rcases e : db.ctx with _ | ⟨l, c⟩
  · simp [snapsOf]
  · rw [if_neg (by simp only [List.length_cons]; omega), if_neg (by simp only [List.length_cons]; omega)]
    have ht : (((l :: c).length : Int) - 1).toNat = c.length := by simp
    have hp := snapsOf_prefix hc
    rw [e] at hp
    obtain ⟨t, ht'⟩ := hp
    rw [ht, hs, ← ht']
    have hlen : (snapsOf (l :: c)).length = c.length + 1 := by rw [snapsOf_length]; rfl
    rw [List.getElem?_append_left (by omega), snapsOf_last]
    simp only
    rw [show c.length + 1 = (snapsOf (l :: c)).length from hlen.symm, List.take_left]

theorem upd_suffix {db db' : Db} (u : Upd db db') : db.ctx <:+ db'.ctx := by
  rw [u.ctx]; exact List.suffix_refl _

theorem split_room (k B a b M : Nat) (h : B + k * (a + b) < M) : B + k * a + k * b < M := by
  rw [Nat.mul_add] at h; omega
theorem split_bound (k B a b : Nat) : B + k * a + k * b = B + k * (a + b) := by
  rw [Nat.mul_add]; omega
theorem le_room (k B a b M : Nat) (h : B + k * (a + b) < M) : B + k * a < M := by
  rw [Nat.mul_add] at h; omega

mutual
theorem drive_repaired (a : Act) (db : Db) (B : Nat) (h : Sound db B) (hf : db.snaps = snapsOf db.ctx)
    (hw : B + 20000 * writes a < 18446744073709551616) :
    ∃ db', drive DB.revertToSnapshotRepaired a db = .ok db' ∧ Sound db' (B + 20000 * writes a) ∧
      db'.snaps = snapsOf db'.ctx ∧ db.ctx <:+ db'.ctx := by
  match a with
  | .sstore s x =>
    obtain ⟨db', e, h', u⟩ := sstore_sound h s x (by simpa [writes] using hw)
    exact ⟨db', by simp only [drive]; exact e, by simpa [writes] using h',
      by rw [u.snaps, u.ctx]; exact hf, upd_suffix u⟩
  | .other f =>
    obtain ⟨h', u⟩ := other_sound h f
    exact ⟨_, by simp only [drive], by simpa [writes] using h',
      by rw [u.snaps, u.ctx]; exact hf, upd_suffix u⟩
  | .call body how =>
    have hs := snapshot_sound h
    have hsf : db.snapshot.1.snaps = snapsOf db.snapshot.1.ctx := by
      show db.snaps ++ [db.next :: db.ctx] = snapsOf (db.next :: db.ctx)
      rw [hf]; rfl
    obtain ⟨db1, e1, s1, f1, c1⟩ := driveAll_repaired body db.snapshot.1 B hs hsf
      (le_room _ _ _ _ _ (by simpa only [writes] using hw))
    have c0 : db.ctx <:+ db1.ctx := (List.suffix_cons _ _).trans c1
    have cne : db.ctx ≠ db1.ctx := by
      intro e
      have := c1.length_le
      rw [← e] at this
      simp only [DB.snapshot, List.length_cons] at this
      omega
    have top : ∀ db2 B', Shape db2 B' → Upd db1 db2 →
        Sound { db2 with ctx := db.ctx, snaps := snapsOf db.ctx } B' := fun db2 B' h2 u =>
      back_shape h2 (by rw [u.ctx]; exact c0) (by rw [u.ctx]; exact cne) (snapsOf_suffix _) (snapsOf_order _)
    have back : ∀ db2, Upd db1 db2 → revertWith DB.revertToSnapshotRepaired db2 db.snapshot.2 =
        .ok { db2 with ctx := db.ctx, snaps := snapsOf db.ctx } := by
      intro db2 u
      unfold revertWith
      rw [repaired_back hf (by rw [u.snaps, u.ctx]; exact f1) (by rw [u.ctx]; exact c0)]
    cases how with
    | ok =>
      exact ⟨db1, by simp only [drive, e1, Res.bind], by simpa [writes] using s1, f1, c0⟩
    | revert =>
      refine ⟨{ db1 with ctx := db.ctx, snaps := snapsOf db.ctx }, ?_, ?_, rfl, List.suffix_refl _⟩
      · simp only [drive, e1, Res.bind]; exact back db1 (Upd.rfl' _)
      · have := top db1 _ s1.1 (Upd.rfl' _)
        simpa [writes] using this
    | outOfGas s x =>
      have hw2 : B + 20000 * writesAll body + 20000 < 18446744073709551616 := by
        have := split_room _ _ _ _ _ (by simpa only [writes] using hw)
        rwa [Nat.mul_one] at this
      obtain ⟨db2, e2, h2, u2, -⟩ := charge_sound s1 s x hw2
      refine ⟨{ db2 with ctx := db.ctx, snaps := snapsOf db.ctx }, ?_, ?_, rfl, List.suffix_refl _⟩
      · simp only [drive, e1, e2, Res.bind]; exact back db2 u2
      · have := top db2 _ h2 u2
        have e3 := split_bound 20000 B (writesAll body) 1
        rw [Nat.mul_one] at e3
        simp only [writes]
        rw [← e3]; exact this
theorem driveAll_repaired (as : List Act) (db : Db) (B : Nat) (h : Sound db B)
    (hf : db.snaps = snapsOf db.ctx) (hw : B + 20000 * writesAll as < 18446744073709551616) :
    ∃ db', driveAll DB.revertToSnapshotRepaired as db = .ok db' ∧ Sound db' (B + 20000 * writesAll as) ∧
      db'.snaps = snapsOf db'.ctx ∧ db.ctx <:+ db'.ctx := by
  match as with
  | [] => exact ⟨db, by simp only [driveAll], by simpa [writesAll] using h, hf, List.suffix_refl _⟩
  | a :: as =>
    simp only [writesAll] at hw ⊢
    obtain ⟨db1, e1, s1, f1, c1⟩ := drive_repaired a db B h hf (le_room _ _ _ _ _ hw)
    obtain ⟨db2, e2, s2, f2, c2⟩ := driveAll_repaired as db1 _ s1 f1 (split_room _ _ _ _ _ hw)
    exact ⟨db2, by simp only [driveAll, e1, Res.bind, e2], split_bound _ _ _ _ ▸ s2, f2, c1.trans c2⟩
end

mutual
/-- No call of this action fails. -/
def quiet : Act → Bool
  | .sstore _ _ => true
  | .other _ => true
  | .call body how => (match how with | .ok => true | _ => false) && quietAll body
def quietAll : List Act → Bool
  | [] => true
  | a :: as => quiet a && quietAll as
end

mutual
theorem drive_quiet (a : Act) (hq : quiet a = true) (db : Db) (B : Nat) (h : Sound db B)
    (hw : B + 20000 * writes a < 18446744073709551616) :
    ∃ db', drive DB.revertToSnapshot a db = .ok db' ∧ Sound db' (B + 20000 * writes a) ∧
      db.ctx <:+ db'.ctx := by
  match a with
  | .sstore s x =>
    obtain ⟨db', e, h', u⟩ := sstore_sound h s x (by simpa [writes] using hw)
    exact ⟨db', by simp only [drive]; exact e, by simpa [writes] using h', upd_suffix u⟩
  | .other f =>
    obtain ⟨h', u⟩ := other_sound h f
    exact ⟨_, by simp only [drive], by simpa [writes] using h', upd_suffix u⟩
  | .call body how =>
    cases how with
    | ok =>
      simp only [quiet, Bool.true_and] at hq
      obtain ⟨db1, e1, s1, c1⟩ := driveAll_quiet body hq db.snapshot.1 B (snapshot_sound h)
        (by simpa [writes] using hw)
      exact ⟨db1, by simp only [drive, e1, Res.bind], by simpa [writes] using s1,
        (List.suffix_cons _ _).trans c1⟩
    | revert => simp [quiet] at hq
    | outOfGas s x => simp [quiet] at hq
theorem driveAll_quiet (as : List Act) (hq : quietAll as = true) (db : Db) (B : Nat) (h : Sound db B)
    (hw : B + 20000 * writesAll as < 18446744073709551616) :
    ∃ db', driveAll DB.revertToSnapshot as db = .ok db' ∧ Sound db' (B + 20000 * writesAll as) ∧
      db.ctx <:+ db'.ctx := by
  match as with
  | [] => exact ⟨db, by simp only [driveAll], by simpa [writesAll] using h, List.suffix_refl _⟩
  | a :: as =>
    simp only [writesAll] at hw ⊢
    simp only [quietAll, Bool.and_eq_true] at hq
    obtain ⟨db1, e1, s1, c1⟩ := drive_quiet a hq.1 db B h (le_room _ _ _ _ _ hw)
    obtain ⟨db2, e2, s2, c2⟩ := driveAll_quiet as hq.2 db1 _ s1 (split_room _ _ _ _ _ hw)
    exact ⟨db2, by simp only [driveAll, e1, Res.bind, e2], split_bound _ _ _ _ ▸ s2, c1.trans c2⟩
end

/-! ### Theorems -/

/-- C163 (partial: histories in which no priced write remains unpaid): whatever is written, snapshotted and
reverted — with any ids, even those the code mishandles — the counter never underflows; and at the end it
covers 4800 gas for every slot that held something at the start and is empty now. Missing: writes whose gas
runs out after the counter has moved, see `C163_violated`. -/
theorem C163_partial (base : Sto) (ops : List Op) (hw : 20000 * ops.length < 18446744073709551616) :
    run (start base) ops = .index ∨
    ∃ db, run (start base) ops = .ok db ∧
      ∀ L : List Nat, L.Nodup → 4800 * cleared (getCommitted db) (getState db.view) L ≤ getRefund db.view := by
  rcases run_sound (start_sound base) ops (by omega) with e | ⟨db, e, h⟩
  · exact .inl e
  · exact .inr ⟨db, e, h.2.1⟩

/-- C163 (partial: no inner call fails): a transaction — one outer call that ends in any way, even by
running out of gas inside a write — never panics, neither in the counter nor in the snapshots. -/
theorem C163_transaction_partial (base : Sto) (body : List Act) (how : End) (hq : quietAll body = true)
    (hw : 20000 * writes (.call body how) < 18446744073709551616) :
    ∃ db, drive DB.revertToSnapshot (.call body how) (start base) = .ok db ∧
      ∀ L : List Nat, L.Nodup → 4800 * cleared (getCommitted db) (getState db.view) L ≤ getRefund db.view := by
  have h0 := start_sound base
  simp only [writes] at hw
  rw [← Nat.zero_add (20000 * _)] at hw
  obtain ⟨db1, e1, s1, c1⟩ := driveAll_quiet body hq (start base).snapshot.1 0 (snapshot_sound h0)
    (le_room _ _ _ _ _ hw)
  have hne : ([] : List Nat) ≠ db1.ctx := by
    intro e
    have := c1.length_le
    rw [← e] at this
    simp [DB.snapshot] at this
  have back : ∀ db2 : Db, revertWith DB.revertToSnapshot db2 (start base).snapshot.2 =
      .ok { db2 with ctx := [], snaps := [] } := fun db2 => rfl
  cases how with
  | ok => exact ⟨db1, by simp only [drive, e1, Res.bind], s1.2.1⟩
  | revert =>
    refine ⟨_, by simp only [drive, e1, Res.bind]; exact back db1, ?_⟩
    exact (back_shape s1.1 List.nil_suffix hne (sn := []) (by simp) List.Pairwise.nil).2.1
  | outOfGas s x =>
    have hw2 := split_room _ _ _ _ _ hw
    rw [Nat.mul_one] at hw2
    obtain ⟨db2, e2, h2, u2, -⟩ := charge_sound s1 s x hw2
    refine ⟨_, by simp only [drive, e1, e2, Res.bind]; exact back db2, ?_⟩
    exact (back_shape h2 List.nil_suffix (by rw [u2.ctx]; exact hne) (sn := []) (by simp)
      List.Pairwise.nil).2.1

/-- A slot that held 1 before the execution. -/
def held : Sto := overlay (one (.slot 7) 1) (fun _ => none)

/-- A frame that does nothing and ends as given. -/
def idle (how : End) : Act := .call [] how

/-- The outer frame clears slot 7 and calls a frame with three calls of its own, two of which revert and
one of which succeeds; that frame then runs out of gas while writing slot 7, and the outer frame writes
slot 7. -/
def clearThenSet : Act :=
  .call [.sstore 7 0,
    .call [idle .revert, idle .revert, idle .ok] (.outOfGas 7 2),
    .sstore 7 2] .ok

/-- C163 fails: the price of the write that ran out of gas is not undone with the frame, the counter no
longer covers the cleared slot, and the write of the outer frame panics ("Refund counter below zero"). The
whole transaction is lost although every contract followed the rules. -/
theorem C163_violated : drive DB.revertToSnapshot clearThenSet (start held) = .underflow := by
  rfl

/-- C163, with the slice bound of `RevertToSnapshot` repaired (NOT the code): no call tree panics, in the
counter or in the snapshots, and the counter covers every cleared slot. -/
theorem C163_repaired (base : Sto) (acts : List Act)
    (hw : 20000 * writesAll acts < 18446744073709551616) :
    ∃ db, driveAll DB.revertToSnapshotRepaired acts (start base) = .ok db ∧
      ∀ L : List Nat, L.Nodup → 4800 * cleared (getCommitted db) (getState db.view) L ≤ getRefund db.view := by
  rw [← Nat.zero_add (20000 * _)] at hw
  obtain ⟨db, e, h, -, -⟩ := driveAll_repaired acts (start base) 0 (start_sound base) rfl hw
  exact ⟨db, e, h.2.1⟩

/-! ### The hypotheses are met -/

/-- The counter after the tree above, with the repair: cleared (4800), set again (back to 0). -/
example : ∃ db, driveAll DB.revertToSnapshotRepaired [clearThenSet] (start held) = .ok db ∧
    getRefund db.view = 0 ∧ getState db.view 7 = 2 := ⟨_, rfl, rfl, rfl⟩

/-- A history of the code with a clearing, an inner revert and an undone clearing. -/
example : ∃ db, run (start held) [.snapshot, .sstore 7 0, .snapshot, .sstore 7 1, .revert 0] = .ok db ∧
    getRefund db.view = 4800 ∧ cleared (getCommitted db) (getState db.view) [3, 7] = 1 := ⟨_, rfl, rfl, rfl⟩

/-- A quiet transaction that clears, sets back to the original value and runs out of gas. -/
example : quietAll [.sstore 7 0, .call [.sstore 7 1] .ok] = true := rfl
example : ∃ db, drive DB.revertToSnapshot (.call [.sstore 7 0, .call [.sstore 7 1] .ok] .ok) (start held)
    = .ok db ∧ getRefund db.view = 2800 := ⟨_, rfl, rfl⟩
example : ∃ db, drive DB.revertToSnapshot (.call [.sstore 7 0, .call [.sstore 7 1] .ok] (.outOfGas 7 0))
    (start held) = .ok db ∧ getRefund db.view = 0 := ⟨_, rfl, rfl⟩

end Verif.Props.Refunds
