import Verif.Model.Callbacks
import Verif.Lemmas.CacheStack2
/-
C164: what a contract has written is still there when the contract it called returns.
-/
namespace Verif.Props.Callbacks
open Verif.CacheStack Verif.CacheStack.Spec Verif.Callbacks

variable {K V : Type}

/-! ### Specification -/

/-- The store after the outermost `i` of the nested frames have written. -/
def after (ws : List (View K V → Delta K V)) (base : View K V) (i : Nat) : View K V :=
  (ws.take i).foldl (fun v w => overlay (w v) v) base

mutual
/-- Nothing in this action writes `k`. -/
def Silent (k : K) : Act K V → Prop
  | .exec f => ∀ v, f v k = none
  | .call body _ => SilentAll k body
def SilentAll (k : K) : List (Act K V) → Prop
  | [] => True
  | a :: as => Silent k a ∧ SilentAll k as
end

/-! ### Lemmas -/

mutual
theorem denote_silent (k : K) (a : Act K V) (h : Silent k a) (v : View K V) : denote a v k = v k := by
  match a with
  | .exec f =>
    simp only [Silent] at h
    simp only [denote, overlay, h]
  | .call body ok =>
    simp only [Silent] at h
    simp only [denote]
    split
    · exact denoteAll_silent k body h v
    · rfl
theorem denoteAll_silent (k : K) (as : List (Act K V)) (h : SilentAll k as) (v : View K V) : denoteAll as v k = v k := by
  match as with
  | [] => simp only [denoteAll]
  | a :: as =>
    simp only [SilentAll] at h
    simp only [denoteAll]
    rw [denoteAll_silent k as h.2, denote_silent k a h.1]
end

/-- The snapshots of a stack none of which has been lost. -/
def snapsOf : List Nat → List (List Nat)
  | [] => []
  | l :: c => snapsOf c ++ [l :: c]

theorem snapsOf_length (c : List Nat) : (snapsOf c).length = c.length := by
  induction c with
  | nil => rfl
  | cons l c ih => simp [snapsOf, ih]

theorem snapsOf_get (c : List Nat) (j : Nat) (hj : j < c.length) :
    (snapsOf c)[j]? = some (c.drop (c.length - (j + 1))) := by
  induction c with
  | nil => simp at hj
  | cons l c ih =>
    simp only [snapsOf, List.length_cons] at hj ⊢
    by_cases h : j < c.length
    · rw [List.getElem?_append_left (by rw [snapsOf_length]; exact h), ih h]
      have : c.length + 1 - (j + 1) = c.length - (j + 1) + 1 := by omega
      rw [this, List.drop_succ_cons]
    · have hj' : j = c.length := by omega
      subst hj'
      rw [List.getElem?_append_right (by rw [snapsOf_length]; exact Nat.le_refl _), snapsOf_length]
      simp

/-- `C.length` frames have been entered, and `k` calls of the innermost have failed. -/
structure Deep (base : View K V) (view : Nat → View K V) (C : List Nat) (k : Nat) (db : DB K V) : Prop where
  nodup : C.Nodup
  lt : ∀ l ∈ C, l < db.next
  ctx : db.ctx = C.drop (k - 1)
  snaps : db.snaps = (snapsOf C).take (C.length - k)
  store : db.base = base
  views : ∀ i, i ≤ C.length → readAt base db.heap (C.drop (C.length - i)) = view i

/-- Computations in a fresh layer touch nothing else. -/
theorem execs_fresh (rev : DB K V → Int → Option (DB K V)) (fs : List (View K V → Delta K V)) :
    ∀ (db : DB K V) (l : Nat) (c : List Nat), db.ctx = l :: c →
      ∃ db', Act.driveAll rev (fs.map Act.exec) db = some db' ∧ db'.ctx = db.ctx ∧ db'.snaps = db.snaps ∧
        db'.base = db.base ∧ db'.next = db.next ∧ ∀ j, j ≠ l → db'.heap j = db.heap j := by
  induction fs with
  | nil => intro db l c _; exact ⟨db, by simp [Act.driveAll], rfl, rfl, rfl, rfl, fun _ _ => rfl⟩
  | cons f fs ih =>
    intro db l c hc
    have hp : db.put (f db.view) =
        { db with heap := fun j => if j = l then (f db.view).over (db.heap l) else db.heap j } := by
      simp [DB.put, hc]
    obtain ⟨db', e, h1, h2, h3, h4, h5⟩ := ih (db.put (f db.view)) l c (by rw [hp]; exact hc)
    rw [hp] at h1 h2 h3 h4 h5
    refine ⟨db', by simp only [List.map_cons, Act.driveAll, Act.drive]; exact e, h1, h2, h3, h4, ?_⟩
    intro j hj
    rw [h5 j hj]
    simp [hj]

/-- One more failing call. -/
theorem deep_fail {base : View K V} {view : Nat → View K V} {C : List Nat} {k : Nat} {db : DB K V}
    (h : Deep base view C k db) (fs : List (View K V → Delta K V)) :
    ∃ db', Act.drive DB.revertToSnapshot (.call (fs.map Act.exec) false) db = some db' ∧
      Deep base view C (k + 1) db' := by
  obtain ⟨db1, e1, c1, s1, b1, n1, hp1⟩ :=
    execs_fresh DB.revertToSnapshot fs db.snapshot.1 db.next db.ctx rfl
  have hs : db1.snaps = (snapsOf C).take (C.length - k) ++ [db.next :: db.ctx] := by
    rw [s1, ← h.snaps]; rfl
  have hlen : db.snaps.length = C.length - k := by
    rw [h.snaps, List.length_take, snapsOf_length]; omega
  have hviews : ∀ i, i ≤ C.length → readAt base db1.heap (C.drop (C.length - i)) = view i := by
    intro i hi
    rw [← h.views i hi]
    apply readAt_congr
    intro l hl
    have hl' := h.lt l (List.mem_of_mem_drop hl)
    have hne : l ≠ db.next := by omega
    rw [hp1 l hne]
    simp [DB.snapshot, hne]
  have hlt : ∀ l ∈ C, l < db1.next := by
    intro l hl
    have := h.lt l hl
    rw [n1]
    show l < db.next + 1
    omega
  have hid : db.snapshot.2 = (db.snaps.length : Int) - 1 := rfl
  simp only [Act.drive, e1, Bool.false_eq_true, if_false]
  unfold DB.revertToSnapshot
  rw [hid, hlen]
  by_cases hz : C.length - k = 0
  · rw [hz, if_pos (by omega)]
    refine ⟨_, rfl, h.nodup, hlt, ?_, ?_, b1.trans h.store, hviews⟩
    · show [] = C.drop (k + 1 - 1)
      rw [List.drop_eq_nil_of_le (by omega)]
    · show [] = (snapsOf C).take (C.length - (k + 1))
      rw [show C.length - (k + 1) = 0 by omega]; rfl
  · rw [if_neg (by omega), if_neg (by omega)]
    have ht : (((C.length - k : Nat) : Int) - 1).toNat = C.length - k - 1 := by omega
    rw [ht, hs]
    have hl1 : ((snapsOf C).take (C.length - k)).length = C.length - k := by
      rw [List.length_take, snapsOf_length]; omega
    rw [List.getElem?_append_left (by omega), List.getElem?_take_of_lt (by omega), snapsOf_get C _ (by omega)]
    refine ⟨_, rfl, h.nodup, hlt, ?_, ?_, b1.trans h.store, hviews⟩
    · show C.drop _ = C.drop _
      congr 1; omega
    · show List.take _ _ = List.take _ _
      rw [List.take_append_of_le_length (by omega), List.take_take]
      congr 1; omega

theorem deep_fails {base : View K V} {view : Nat → View K V} {C : List Nat} :
    ∀ (fss : List (List (View K V → Delta K V))) {k : Nat} {db : DB K V}, Deep base view C k db →
    ∃ db', Act.driveAll DB.revertToSnapshot (fails fss) db = some db' ∧ Deep base view C (k + fss.length) db' := by
  intro fss
  induction fss with
  | nil => intro k db h; exact ⟨db, by simp [fails, Act.driveAll], h⟩
  | cons fs fss ih =>
    intro k db h
    obtain ⟨db1, e1, h1⟩ := deep_fail h fs
    obtain ⟨db2, e2, h2⟩ := ih h1
    refine ⟨db2, ?_, ?_⟩
    · show Act.driveAll _ (_ :: fails fss) db = _
      simp only [Act.driveAll, e1]; exact e2
    · rw [List.length_cons, show k + (fss.length + 1) = k + 1 + fss.length by omega]; exact h2

theorem after_succ (ws : List (View K V → Delta K V)) (w : View K V → Delta K V) (base : View K V) (i : Nat)
    (hi : i ≤ ws.length) : after (ws ++ [w]) base i = after ws base i := by
  unfold after; rw [List.take_append_of_le_length hi]

theorem after_last (ws : List (View K V → Delta K V)) (w : View K V → Delta K V) (base : View K V) :
    after (ws ++ [w]) base (ws.length + 1) = overlay (w (after ws base ws.length)) (after ws base ws.length) := by
  unfold after
  rw [List.take_of_length_le (by simp), List.take_of_length_le (Nat.le_refl _), List.foldl_append]
  rfl

/-- Entering one more frame. -/
theorem deep_enter {base : View K V} {C : List Nat} {db : DB K V} {ws : List (View K V → Delta K V)}
    (hC : C.length = ws.length) (h : Deep base (after ws base) C 0 db) (w : View K V → Delta K V) :
    ∃ db' l, Act.drive DB.revertToSnapshot (.exec w) db.snapshot.1 = some db' ∧
      Deep base (after (ws ++ [w]) base) (l :: C) 0 db' := by
  have hctx : db.ctx = C := by rw [h.ctx]; rfl
  have hnext : db.next ∉ C := fun hm => absurd (h.lt _ hm) (by omega)
  refine ⟨db.snapshot.1.put (w db.snapshot.1.view), db.next, rfl, ?_⟩
  have hview : db.snapshot.1.view = after ws base ws.length := by
    have hv := h.views C.length (Nat.le_refl _)
    rw [Nat.sub_self, List.drop_zero, hC] at hv
    rw [← hv]
    unfold DB.view
    simp only [DB.snapshot, readAt, if_true, overlay_empty]
    rw [hctx, h.store]
    apply readAt_congr
    intro l hl
    have : l ≠ db.next := fun e => hnext (e ▸ hl)
    simp [this]
  rw [hview]
  generalize hd : w (after ws base ws.length) = d
  have hp : db.snapshot.1.put d = { db.snapshot.1 with
      heap := fun j => if j = db.next then d.over (db.snapshot.1.heap db.next) else db.snapshot.1.heap j } := by
    simp [DB.put, DB.snapshot]
  rw [hp]
  refine ⟨List.nodup_cons.mpr ⟨hnext, h.nodup⟩, ?_, ?_, ?_, h.store, ?_⟩
  · intro l hl
    show l < db.next + 1
    rcases List.mem_cons.mp hl with rfl | hl
    · omega
    · have := h.lt l hl; omega
  · show db.next :: db.ctx = _
    rw [hctx]; rfl
  · show db.snaps ++ [db.next :: db.ctx] = _
    rw [h.snaps, hctx, Nat.sub_zero, List.take_of_length_le (by rw [snapsOf_length]; exact Nat.le_refl _),
      Nat.sub_zero, List.take_of_length_le (by rw [snapsOf_length]; exact Nat.le_refl _)]
    rfl
  · intro i hi
    simp only [List.length_cons] at hi ⊢
    have low : ∀ c, (∀ l ∈ c, l ∈ C) → readAt base (fun j => if j = db.next then d.over (db.snapshot.1.heap db.next)
        else db.snapshot.1.heap j) c = readAt base db.heap c := by
      intro c hc
      apply readAt_congr
      intro l hl
      have : l ≠ db.next := fun e => hnext (e ▸ hc l hl)
      simp [DB.snapshot, this]
    by_cases hi' : i ≤ C.length
    · rw [show C.length + 1 - i = C.length - i + 1 by omega, List.drop_succ_cons,
        low _ (fun l hl => List.mem_of_mem_drop hl), h.views i hi', after_succ _ _ _ _ (by omega)]
    · have : i = C.length + 1 := by omega
      subst this
      rw [Nat.sub_self, List.drop_zero]
      show overlay _ (readAt _ _ C) = _
      rw [low C (fun _ h => h)]
      have hv := h.views C.length (Nat.le_refl _)
      rw [Nat.sub_self, List.drop_zero, hC] at hv
      rw [hv, hC, after_last, hd]
      simp only [if_true]
      rw [overlay_over]
      simp only [DB.snapshot, if_true, overlay_empty]

theorem deep_nest (fss : List (List (View K V → Delta K V))) {base : View K V} :
    ∀ (ws : List (View K V → Delta K V)) {past : List (View K V → Delta K V)} {C : List Nat} {db : DB K V},
    C.length = past.length → Deep base (after past base) C 0 db →
    ∃ db' C', Act.driveAll DB.revertToSnapshot (nest ws (fails fss)) db = some db' ∧
      C'.length = past.length + ws.length ∧ Deep base (after (past ++ ws) base) C' fss.length db' := by
  intro ws
  induction ws with
  | nil =>
    intro past C db hC h
    obtain ⟨db', e, h'⟩ := deep_fails fss h
    rw [Nat.zero_add] at h'
    exact ⟨db', C, e, by simpa using hC, by rw [List.append_nil]; exact h'⟩
  | cons w ws ih =>
    intro past C db hC h
    obtain ⟨db1, l, e1, h1⟩ := deep_enter hC h w
    obtain ⟨db2, C', e2, hC', h2⟩ := ih (past := past ++ [w]) (C := l :: C) (by simp [hC]) h1
    refine ⟨db2, C', ?_, by simp only [List.length_append, List.length_cons, List.length_nil] at hC' ⊢; omega, ?_⟩
    · simp only [nest, Act.driveAll, Act.drive] at e1 ⊢
      simp only [Option.some.injEq] at e1
      rw [e1, e2]
      simp
    · rw [List.append_assoc] at h2; exact h2

theorem deep_new (base : View K V) : Deep base (after [] base) [] 0 (DB.new base) := by
  refine ⟨List.nodup_nil, by simp, rfl, rfl, rfl, ?_⟩
  intro i hi
  have : i = 0 := by simpa using hi
  subst this; rfl

theorem deep_commit {base : View K V} {view : Nat → View K V} {C : List Nat} {k : Nat} {db : DB K V}
    (h : Deep base view C k db) : db.commit.base = view (C.length - k) := by
  have e : db.commit.base = ({ db with ctx := C.drop k } : DB K V).commit.base := by
    unfold DB.commit
    simp only
    have : ∀ (l : List (List Nat)) (a b : DB K V), a.base = b.base → a.heap = b.heap →
        (l.foldl DB.commitSnap a).base = (l.foldl DB.commitSnap b).base := by
      intro l
      induction l with
      | nil => intro a b h1 _; exact h1
      | cons c l ih =>
        intro a b h1 h2
        simp only [List.foldl_cons]
        apply ih
        · rcases c with _ | ⟨x, _ | ⟨y, c⟩⟩ <;> simp [DB.commitSnap, h1, h2]
        · rcases c with _ | ⟨x, _ | ⟨y, c⟩⟩ <;> simp [DB.commitSnap, h2]
    exact this _ _ _ rfl rfl
  have hinv : Inv ({ db with ctx := C.drop k } : DB K V) := by
    refine ⟨?_, ?_, ?_, ?_⟩
    · show db.snaps.length = (C.drop k).length
      rw [h.snaps, List.length_take, snapsOf_length, List.length_drop]; omega
    · intro j hj
      have hj' : j < C.length - k := by simpa [List.length_drop] using hj
      show db.snaps[j]? = some ((C.drop k).drop _)
      rw [h.snaps, List.getElem?_take_of_lt hj', snapsOf_get C j (by omega), List.drop_drop, List.length_drop]
      congr 2; omega
    · exact h.nodup.sublist (List.drop_sublist _ _)
    · intro l hl; exact h.lt l (List.mem_of_mem_drop hl)
  rw [e, commit_base hinv]
  show readAt db.base db.heap (C.drop k) = _
  rw [h.store, ← h.views (C.length - k) (by omega)]
  by_cases hk : k ≤ C.length
  · congr 2; omega
  · rw [List.drop_eq_nil_of_le (by omega), List.drop_eq_nil_of_le (by omega)]

/-! ### C164 -/

/-- **C164 (violated, exactly).** `n` nested frames write, one after the other; then `k` calls of the innermost fail, whatever they tried to
do. What the frames go on with is the store after the outermost `n - (k - 1)` frames: each failing call but the first has undone one more of
the frames that are still waiting. And what is committed at the end is what the outermost `n - k` frames wrote: each failing call costs one
frame all it did. (By the specification nothing of this is lost, for every `k`.) -/
theorem C164_exact_violated (ws : List (View K V → Delta K V)) (fss : List (List (View K V → Delta K V))) (base : View K V) :
    ∃ db, Act.driveAll DB.revertToSnapshot (nest ws (fails fss)) (DB.new base) = some db ∧
      db.view = after ws base (ws.length - (fss.length - 1)) ∧ db.commit.base = after ws base (ws.length - fss.length) := by
  obtain ⟨db, C, e, hC, h⟩ := deep_nest fss ws (past := []) rfl (deep_new base)
  simp only [List.length_nil, Nat.zero_add, List.nil_append] at hC h
  refine ⟨db, e, ?_, by rw [deep_commit h, hC]⟩
  unfold DB.view
  rw [h.ctx, h.store, ← hC, ← h.views (C.length - (fss.length - 1)) (by omega)]
  by_cases hk : fss.length - 1 ≤ C.length
  · congr 2; omega
  · rw [List.drop_eq_nil_of_le (by omega), List.drop_eq_nil_of_le (by omega)]

theorem denoteAll_fails (fss : List (List (View K V → Delta K V))) (v : View K V) : denoteAll (fails fss) v = v := by
  induction fss with
  | nil => simp [fails, denoteAll]
  | cons fs fss ih =>
    show denoteAll (_ :: fails fss) v = v
    simp only [denoteAll, denote, Bool.false_eq_true, if_false]
    exact ih

theorem denote_nest (ws : List (View K V → Delta K V)) (fss : List (List (View K V → Delta K V))) (base : View K V) :
    denoteAll (nest ws (fails fss)) base = after ws base ws.length := by
  induction ws generalizing base with
  | nil => simp only [nest, denoteAll_fails]; rfl
  | cons w ws ih =>
    simp only [nest, denoteAll, denote, if_true]
    rw [ih]
    unfold after
    rw [List.take_of_length_le (Nat.le_refl _), List.take_of_length_le (Nat.le_refl _)]
    rfl

/-- **C164 (as it should be).** With the slice bound of `RevertToSnapshot` repaired (NOT the code), the same frames go on with, and commit,
everything all of them wrote, however many calls have failed. -/
theorem C164_exact_repaired (ws : List (View K V → Delta K V)) (fss : List (List (View K V → Delta K V))) (base : View K V) :
    ∃ db, Act.driveAll DB.revertToSnapshotRepaired (nest ws (fails fss)) (DB.new base) = some db ∧
      db.view = after ws base ws.length ∧ db.commit.base = after ws base ws.length := by
  obtain ⟨db, s, e, r, c, _, _⟩ := driveAll_repaired (nest ws (fails fss)) (DB.new base) (St.new base) (rel_new base)
  have hv : db.view = after ws base ws.length := by rw [r.cur, c]; exact denote_nest ws fss base
  exact ⟨db, e, hv, by rw [commit_base r.toInv, hv]⟩

/-! #### A key nobody writes -/

/-- **C164 (partial: none of the calls fails).** Wherever a contract is (in any state reached without failing calls), what it has stored under
`k` is still there after a call to code that does not write `k` itself, whatever that code does otherwise. Missing: callees whose calls fail,
see `C164_exact_violated`. -/
theorem C164_waiting_partial (base : View K V) (pre callee : List (Act K V)) (hp : noRevertAll pre = true) (hc : noRevertAll callee = true)
    (k : K) (hs : SilentAll k callee) :
    ∃ db db', Act.driveAll DB.revertToSnapshot pre (DB.new base).snapshot.1 = some db ∧
      Act.drive DB.revertToSnapshot (.call callee true) db = some db' ∧ db'.view k = db.view k := by
  obtain ⟨db, s, e, r, c, _, _⟩ := driveAll_noRevert pre hp (DB.new base).snapshot.1 _ (rel_snapshot (rel_new base))
  obtain ⟨db', s', e', r', c', _, _⟩ := drive_noRevert (.call callee true) (by simp [noRevert, hc]) db s r
  refine ⟨db, db', e, e', ?_⟩
  rw [r'.cur, c', r.cur]
  exact denote_silent k _ (by simp only [Silent]; exact hs) _

/-- **C164 (repaired variant, NOT the code)**: the same for all code, before and within the call, with failing calls anywhere, and whether or
not the call itself fails. -/
theorem C164_waiting_repaired (base : View K V) (pre callee : List (Act K V)) (ok : Bool) (k : K) (hs : SilentAll k callee) :
    ∃ db db', Act.driveAll DB.revertToSnapshotRepaired pre (DB.new base).snapshot.1 = some db ∧
      Act.drive DB.revertToSnapshotRepaired (.call callee ok) db = some db' ∧ db'.view k = db.view k := by
  obtain ⟨db, s, e, r, c, _, _⟩ := driveAll_repaired pre (DB.new base).snapshot.1 _ (rel_snapshot (rel_new base))
  obtain ⟨db', s', e', r', c', _, _⟩ := drive_repaired (.call callee ok) db s r
  refine ⟨db, db', e, e', ?_⟩
  rw [r'.cur, c', r.cur]
  exact denote_silent k _ (by simp only [Silent]; exact hs) _

/-- **C164 (violated, locks).** A contract sets a lock and calls a contract that makes three failing calls: while the contract is still
waiting, the lock is as open as it was before the transaction, so it can be entered again. Whatever the lock is, wherever it is kept, and
whatever the callee wrote besides. -/
theorem C164_lock_violated (lock w : View K V → Delta K V) (f g h : List (View K V → Delta K V)) (base : View K V) :
    ∃ db, Act.driveAll DB.revertToSnapshot (nest [lock, w] (fails [f, g, h])) (DB.new base) = some db ∧ db.view = base := by
  obtain ⟨db, e, hv, _⟩ := C164_exact_violated [lock, w] [f, g, h] base
  exact ⟨db, e, hv⟩

/-! #### A ledger that calls out between debit and credit -/

theorem commit_snaps_nil {db : DB K V} (h : db.snaps = []) : db.commit.base = db.base := by
  unfold DB.commit; rw [h]; rfl

/-- **C164 (violated, money).** A ledger contract debits `a`, calls a contract that makes `k` failing calls (and writes what it likes, but not
these balances), and credits `b`. Committed is: for no failing call, the payment; for one, the debit without the credit; for two, nothing; for
three or more, the credit without the debit. So the callee decides whether money is destroyed or made. -/
theorem C164_money_violated (a b x : Nat) (hab : a ≠ b) (w : View Nat Nat → Delta Nat Nat) (hwa : ∀ v, w v a = none)
    (hwb : ∀ v, w v b = none) (fss : List (List (View Nat Nat → Delta Nat Nat))) (base : View Nat Nat) :
    ∃ db, Act.drive DB.revertToSnapshot (pay a b x (.exec w :: fails fss)) (DB.new base) = some db ∧
      bal db.commit.base a = (if fss.length ≤ 1 then bal base a - x else bal base a) ∧
      bal db.commit.base b = (if fss.length = 0 ∨ 3 ≤ fss.length then bal base b + x else bal base b) := by
  obtain ⟨db1, l, e1, h1⟩ := deep_enter (ws := []) rfl (deep_new base) (debit a x)
  obtain ⟨db2, l', e2, h2⟩ := deep_enter (ws := [debit a x]) rfl h1 w
  obtain ⟨db3, e3, h3⟩ := deep_fails fss h2
  rw [Nat.zero_add] at h3
  refine ⟨db3.put (credit b x db3.view), ?_, ?_⟩
  · simp only [Act.drive, Option.some.injEq] at e1 e2
    simp only [pay, Act.drive, Act.driveAll, e1, e2, e3, if_true]
  have v0 := h3.views 0 (by simp)
  have v1 := h3.views 1 (by simp)
  have v2 := h3.views 2 (by simp)
  simp only [List.length_cons, List.length_nil, Nat.zero_add] at v0 v1 v2
  have hda : bal (after ([debit a x] ++ [w]) base 1) a = bal base a - x := by
    simp [after, overlay, debit, bal]
  have hdb : bal (after ([debit a x] ++ [w]) base 1) b = bal base b := by
    simp [after, overlay, debit, bal, Ne.symm hab]
  have hda2 : bal (after ([debit a x] ++ [w]) base 2) a = bal base a - x := by
    simp [after, overlay, debit, bal, hwa]
  have hdb2 : bal (after ([debit a x] ++ [w]) base 2) b = bal base b := by
    simp [after, overlay, debit, bal, hwb, Ne.symm hab]
  have hnd := h3.nodup
  have hll : l ≠ l' := by
    have := (List.nodup_cons.mp hnd).1
    intro e; apply this; simp [e]
  rcases hk : fss.length with _ | _ | _ | k
  · -- no failing call
    rw [hk] at h3
    have hc : db3.ctx = [l', l] := h3.ctx
    have hp : db3.put (credit b x db3.view) = { db3 with
        heap := fun j => if j = l' then (credit b x db3.view).over (db3.heap l') else db3.heap j } := by
      simp [DB.put, hc]
    have hview : db3.view = after ([debit a x] ++ [w]) base 2 := by
      unfold DB.view; rw [hc, h3.store]; exact v2
    have hcm : (db3.put (credit b x db3.view)).commit.base = overlay (credit b x db3.view) db3.view := by
      have hd : Deep base (fun i => readAt base (db3.put (credit b x db3.view)).heap (([l', l] : List Nat).drop (2 - i)))
          [l', l] 0 (db3.put (credit b x db3.view)) := by
        rw [hp]
        exact ⟨h3.nodup, h3.lt, h3.ctx, h3.snaps, h3.store, fun i _ => rfl⟩
      rw [deep_commit hd]
      show readAt base (db3.put (credit b x db3.view)).heap [l', l] = _
      rw [hp]
      simp only [readAt, if_true, if_neg hll]
      rw [overlay_over]
      unfold DB.view
      rw [hc, h3.store]; rfl
    rw [hcm]
    simp only [Nat.zero_le, if_true, true_or]
    constructor
    · show bal (overlay _ _) a = _
      rw [← hda2, ← hview]
      simp [bal, overlay, credit, hab]
    · rw [← hdb2, ← hview]
      simp [bal, overlay, credit]
  · -- one: the credit is written where nothing is committed
    rw [hk] at h3
    have hc : db3.ctx = [l', l] := h3.ctx
    have hp : db3.put (credit b x db3.view) = { db3 with
        heap := fun j => if j = l' then (credit b x db3.view).over (db3.heap l') else db3.heap j } := by
      simp [DB.put, hc]
    have hd : Deep base (fun i => readAt base (db3.put (credit b x db3.view)).heap (([l', l] : List Nat).drop (2 - i)))
        [l', l] 1 (db3.put (credit b x db3.view)) := by
      rw [hp]
      exact ⟨h3.nodup, h3.lt, h3.ctx, h3.snaps, h3.store, fun i _ => rfl⟩
    have hcm : (db3.put (credit b x db3.view)).commit.base = after ([debit a x] ++ [w]) base 1 := by
      rw [deep_commit hd, ← v1]
      show readAt base (db3.put (credit b x db3.view)).heap [l] = readAt base db3.heap [l]
      rw [hp]
      apply readAt_congr
      intro m hm
      have : m = l := by simpa using hm
      subst this
      simp [hll]
    rw [hcm, hda, hdb]
    simp
  · -- two: nothing is committed
    rw [hk] at h3
    have hc : db3.ctx = [l] := h3.ctx
    have hs : (db3.put (credit b x db3.view)).snaps = [] := by simp only [DB.put, hc]; exact h3.snaps
    have hb : (db3.put (credit b x db3.view)).base = base := by simp only [DB.put, hc]; exact h3.store
    rw [commit_snaps_nil hs, hb]
    simp
  · -- three or more: the credit goes straight into the store
    rw [hk] at h3
    have hc : db3.ctx = [] := by
      rw [h3.ctx]; exact List.drop_eq_nil_of_le (by simp)
    have hs0 : db3.snaps = [] := by
      rw [h3.snaps, show ([l', l] : List Nat).length - (k + 1 + 1 + 1) = 0 by simp]; rfl
    have hs : (db3.put (credit b x db3.view)).snaps = [] := by simp only [DB.put, hc]; exact hs0
    have hv : db3.view = base := by unfold DB.view; rw [hc]; exact h3.store
    have hb : (db3.put (credit b x db3.view)).base = overlay (credit b x base) base := by
      rw [hv]; simp only [DB.put, hc, h3.store]
    rw [commit_snaps_nil hs, hb, if_neg (by omega), if_pos (by omega)]
    constructor
    · simp [bal, overlay, credit, hab]
    · simp [bal, overlay, credit]

theorem pay_denote (a b x : Nat) (hab : a ≠ b) (callee : List (Act Nat Nat)) (ha : SilentAll a callee) (hb : SilentAll b callee)
    (base : View Nat Nat) :
    bal (denote (pay a b x callee) base) a = bal base a - x ∧ bal (denote (pay a b x callee) base) b = bal base b + x := by
  simp only [pay, denote, denoteAll, if_true]
  constructor
  · have h1 := denoteAll_silent a callee ha (overlay (debit a x base) base)
    simp only [bal, overlay, credit, if_neg hab]
    rw [h1]
    simp [overlay, debit, bal]
  · have h1 := denoteAll_silent b callee hb (overlay (debit a x base) base)
    simp only [bal, overlay, credit, if_true, Option.getD_some]
    rw [h1]
    simp [overlay, debit, Ne.symm hab]

/-- **C164 (money; partial: none of the callee's calls fails).** Whatever the contract that is called does — short of writing these two
balances — exactly the payment is committed. -/
theorem C164_money_partial (a b x : Nat) (hab : a ≠ b) (callee : List (Act Nat Nat)) (ha : SilentAll a callee) (hb : SilentAll b callee)
    (hn : noRevertAll callee = true) (base : View Nat Nat) :
    ∃ db, Act.drive DB.revertToSnapshot (pay a b x callee) (DB.new base) = some db ∧
      bal db.commit.base a = bal base a - x ∧ bal db.commit.base b = bal base b + x := by
  obtain ⟨db, s, e, r, c, _, _⟩ := drive_noRevert (pay a b x callee)
    (by simp [pay, noRevert, noRevertAll, hn]) (DB.new base) (St.new base) (rel_new base)
  refine ⟨db, e, ?_⟩
  rw [commit_base r.toInv, r.cur, c]
  exact pay_denote a b x hab callee ha hb base

/-- **C164 (money; an account paid for the first time; partial: none of the callee's calls fails).** When the payee's slot was never
written, what it ends with is the payment and nothing more: no balance appears from an unwritten slot. -/
theorem C164_fresh_partial (a b x : Nat) (hab : a ≠ b) (callee : List (Act Nat Nat)) (hb : SilentAll b callee)
    (hn : noRevertAll callee = true) (base : View Nat Nat) (h0 : base b = none) :
    ∃ db, Act.drive DB.revertToSnapshot (pay a b x callee) (DB.new base) = some db ∧ db.commit.base b = some x := by
  obtain ⟨db, s, e, r, c, _, _⟩ := drive_noRevert (pay a b x callee)
    (by simp [pay, noRevert, noRevertAll, hn]) (DB.new base) (St.new base) (rel_new base)
  refine ⟨db, e, ?_⟩
  rw [commit_base r.toInv, r.cur, c]
  simp only [pay, denote, denoteAll, if_true, St.new]
  have h1 := denoteAll_silent b callee hb (overlay (debit a x base) base)
  simp [overlay, credit, bal, h1, debit, Ne.symm hab, h0]

/-- **C164 (money; repaired variant, NOT the code)**: the same for every callee, with failing calls anywhere. -/
theorem C164_money_repaired (a b x : Nat) (hab : a ≠ b) (callee : List (Act Nat Nat)) (ha : SilentAll a callee) (hb : SilentAll b callee)
    (base : View Nat Nat) :
    ∃ db, Act.drive DB.revertToSnapshotRepaired (pay a b x callee) (DB.new base) = some db ∧
      bal db.commit.base a = bal base a - x ∧ bal db.commit.base b = bal base b + x := by
  obtain ⟨db, s, e, r, c, _, _⟩ := drive_repaired (pay a b x callee) (DB.new base) (St.new base) (rel_new base)
  refine ⟨db, e, ?_⟩
  rw [commit_base r.toInv, r.cur, c]
  exact pay_denote a b x hab callee ha hb base

/-! ### The hypotheses are met -/

/-- Accounts 1 and 2 with 100 and 0. -/
def toyStore : View Nat Nat := fun k => if k = 1 then some 100 else none

/-- A callee that writes elsewhere, and makes calls that succeed. -/
def toyCallee : List (Act Nat Nat) :=
  [.exec (fun _ k => if k = 9 then some (some 5) else none), .call [.exec (fun _ k => if k = 8 then some (some 1) else none)] true]

example : SilentAll 1 toyCallee ∧ SilentAll 2 toyCallee ∧ noRevertAll toyCallee = true := by
  simp [toyCallee, SilentAll, Silent, noRevertAll, noRevert]

/-- Account 2 was never written; a payment of 30 leaves it exactly 30. -/
example : ∃ db, Act.drive DB.revertToSnapshot (pay 1 2 30 toyCallee) (DB.new toyStore) = some db ∧ db.commit.base 2 = some 30 :=
  C164_fresh_partial 1 2 30 (by decide) toyCallee (by simp [toyCallee, SilentAll, Silent]) (by simp [toyCallee, noRevertAll, noRevert])
    toyStore rfl

/-- A payment of 30 with three failing calls in the middle: 100 stay, 30 appear. -/
example : ∃ db, Act.drive DB.revertToSnapshot
      (pay 1 2 30 (.exec (fun _ k => if k = 9 then some (some 5) else none) :: fails [[], [], []])) (DB.new toyStore) = some db ∧
    bal db.commit.base 1 = 100 ∧ bal db.commit.base 2 = 30 := by
  obtain ⟨db, e, h1, h2⟩ := C164_money_violated 1 2 30 (by decide) (fun _ k => if k = 9 then some (some 5) else none)
    (fun _ => rfl) (fun _ => rfl) [[], [], []] toyStore
  exact ⟨db, e, h1, h2⟩

/-- The lock is set before the calls, and open after them. -/
example : ∃ db, Act.driveAll DB.revertToSnapshot
      (nest [fun _ k => if k = 7 then some (some 1) else none, fun _ _ => none] (fails [[], [], []])) (DB.new toyStore) = some db ∧
    db.view 7 = none := by
  obtain ⟨db, e, h⟩ := C164_lock_violated (fun _ k => if k = 7 then some (some 1) else none) (fun _ _ => none) [] [] [] toyStore
  exact ⟨db, e, by rw [h]; rfl⟩

end Verif.Props.Callbacks
