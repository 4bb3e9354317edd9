import Verif.Props.Indexer
/-
Which blocks the index answers, exactly: C38 (headers), C59 (crashes) and C62 (parents).
-/
namespace Verif.Indexer

theorem collect_indexable (env : Env T E) : ∀ (txs : List (Bytes × Result)) (n cum : Nat) (ix : Index E),
    (collect env txs n cum ix).1 = true → Indexable env txs
  | [], _, _, _, _ => fun x hx => by cases hx
  | (raw, res) :: rest, n, cum, ix, h => by
    rw [collect] at h
    intro x hx t ht
    cases hd : env.decode raw with
    | none =>
      rw [hd] at h
      rcases List.mem_cons.1 hx with rfl | hx
      · rw [hd] at ht; cases ht
      · exact collect_indexable env rest _ _ _ h x hx t ht
    | some t0 =>
      rw [hd] at h
      simp only at h
      cases hc : env.convert t0 with
      | none => rw [hc] at h; cases h
      | some o =>
        rw [hc] at h
        cases o with
        | none =>
          rcases List.mem_cons.1 hx with rfl | hx
          · rw [hd] at ht; cases ht
            exact ⟨none, hc, fun e he => by cases he⟩
          · exact collect_indexable env rest _ _ _ h x hx t ht
        | some e0 =>
          simp only at h
          cases hl : extractLogs env res.ok res.data (env.isCreate e0) with
          | none => rw [hl] at h; cases h
          | some y =>
            rw [hl] at h
            rcases List.mem_cons.1 hx with rfl | hx
            · rw [hd] at ht; cases ht
              refine ⟨some e0, hc, fun e he hok => ?_⟩
              cases he
              rw [extractLogs, hok, if_pos rfl] at hl
              rw [hl]; rfl
            · exact collect_indexable env rest _ _ _ h x hx t ht

/-- A block whose transactions cannot all be converted leaves no header. -/
theorem index_noheader (env : Env T E) (ix : Index E) (b : Block) (hi : ¬ Indexable env b.txs) :
    (index env ix b).2.headers = ix.headers := by
  obtain ⟨_, _, h3, _⟩ := collect_other env b.txs 0 0 ix
  have hf : (collect env b.txs 0 0 ix).1 = false := by
    cases hc : (collect env b.txs 0 0 ix).1 with
    | false => rfl
    | true => exact absurd (collect_indexable env _ _ _ _ hc) hi
  simp only [index, hf, Bool.false_eq_true, if_false, h3]

/-- C38: exactly which heights are answered: those of the blocks all of whose transactions could be converted. -/
theorem C38_answered (env : Env T E) (bs : List Block) (hd : (bs.map (·.height)).Nodup) (h : Nat) :
    ((indexAll env bs).headers h).isSome = true ↔ ∃ b ∈ bs, b.height = h ∧ Indexable env b.txs := by
  suffices gen : ∀ (bs : List Block) (ix : Index E), (bs.map (·.height)).Nodup → (∀ b ∈ bs, ix.headers b.height = none) →
      (((bs.foldl (fun ix b => (index env ix b).2) ix).headers h).isSome = true ↔
        (ix.headers h).isSome = true ∨ ∃ b ∈ bs, b.height = h ∧ Indexable env b.txs) by
    have := gen bs Index.empty hd (fun _ _ => rfl)
    simpa [indexAll, Index.empty] using this
  intro bs
  induction bs with
  | nil => intro ix _ _; simp
  | cons b rest ih =>
    intro ix hn hf
    simp only [List.map_cons, List.nodup_cons] at hn
    have hb : ∀ x ∈ rest, x.height ≠ b.height := fun x hx e => hn.1 (List.mem_map.2 ⟨x, hx, e⟩)
    rw [List.foldl_cons, ih (index env ix b).2 hn.2
      (fun x hx => by rw [((index_other env ix b).2.2.1 x.height (hb x hx)).1]; exact hf x (List.mem_cons_of_mem _ hx))]
    have h0 := hf b (by simp)
    by_cases hh : b.height = h
    · subst hh
      by_cases hi : Indexable env b.txs
      · obtain ⟨p, hp, _⟩ := index_header env ix b hi
        rw [hp]
        exact ⟨fun _ => Or.inr ⟨b, by simp, rfl, hi⟩, fun _ => Or.inl rfl⟩
      · rw [index_noheader env ix b hi, h0]
        simp only [Option.isSome_none, Bool.false_eq_true, false_or]
        constructor
        · rintro ⟨x, hx, h1, h2⟩; exact ⟨x, List.mem_cons_of_mem _ hx, h1, h2⟩
        · rintro ⟨x, hx, h1, h2⟩
          rcases List.mem_cons.1 hx with rfl | hx
          · exact absurd h2 hi
          · exact ⟨x, hx, h1, h2⟩
    · rw [((index_other env ix b).2.2.1 h (fun e => hh e.symm)).1]
      constructor
      · rintro (g | ⟨x, hx, h1, h2⟩)
        · exact Or.inl g
        · exact Or.inr ⟨x, List.mem_cons_of_mem _ hx, h1, h2⟩
      · rintro (g | ⟨x, hx, h1, h2⟩)
        · exact Or.inl g
        · rcases List.mem_cons.1 hx with rfl | hx
          · exact absurd h1 hh
          · exact Or.inr ⟨x, hx, h1, h2⟩

open Classical in
/-- C62: what a header names as its parent, exactly: the hash of the previous block's header if that block was indexed,
and zero if it was not. -/
theorem C62_exact (env : Env T E) (pre mid post : List Block) (a b : Block)
    (hd : ((pre ++ a :: (mid ++ b :: post)).map (·.height)).Nodup) (hib : Indexable env b.txs)
    (hpos : 0 < a.height) (hh : b.height = a.height + 1) :
    ∃ c, (indexAll env (pre ++ a :: (mid ++ b :: post))).headers b.height = some c ∧
      (Indexable env a.txs → ∃ p, (indexAll env (pre ++ a :: (mid ++ b :: post))).headers a.height = some p ∧
        c.parent = env.headerHash p) ∧
      (¬ Indexable env a.txs → c.parent = Hash.zero) := by
  by_cases hia : Indexable env a.txs
  · obtain ⟨p, c, h1, h2, h3, _⟩ := C62_partial env pre mid post a b hd hia hib hpos hh
    exact ⟨c, h2, fun _ => ⟨p, h1, h3⟩, fun h => absurd hia h⟩
  · have hd0 : ((pre ++ a :: mid).map (·.height)).Nodup := by
      have : pre ++ a :: (mid ++ b :: post) = (pre ++ a :: mid) ++ (b :: post) := by simp
      rw [this, List.map_append] at hd
      exact (List.nodup_append.1 hd).1
    have hpb : ∀ x ∈ post, x.height ≠ b.height := by
      intro x hx he
      have : pre ++ a :: (mid ++ b :: post) = (pre ++ a :: mid) ++ (b :: post) := by simp
      rw [this, List.map_append, List.map_cons] at hd
      have := (List.nodup_cons.1 (List.nodup_append.1 hd).2.1).1
      exact this (List.mem_map.2 ⟨x, hx, he⟩)
    obtain ⟨c, hc1, _, _, hc4⟩ := index_header env (indexAll env (pre ++ a :: mid)) b hib
    have hna : (indexAll env (pre ++ a :: mid)).headers a.height = none := by
      cases hx : (indexAll env (pre ++ a :: mid)).headers a.height with
      | none => rfl
      | some p =>
        obtain ⟨x, hx1, hx2, hx3⟩ := (C38_answered env _ hd0 a.height).1 (by rw [hx]; rfl)
        have : x = a := by
          rcases List.mem_append.1 hx1 with hm | hm
          · rw [List.map_append, List.nodup_append] at hd0
            exact absurd hx2 (hd0.2.2 _ (List.mem_map.2 ⟨x, hm, rfl⟩) _ (by simp))
          · rcases List.mem_cons.1 hm with rfl | hm
            · rfl
            · rw [List.map_append, List.map_cons, List.nodup_append] at hd0
              exact absurd (List.mem_map.2 ⟨x, hm, hx2⟩) (List.nodup_cons.1 hd0.2.1).1
        subst this
        exact absurd hx3 hia
    refine ⟨c, ?_, fun h => absurd h hia, fun _ => ?_⟩
    · have : indexAll env (pre ++ a :: (mid ++ b :: post)) =
          post.foldl (fun ix b => (index env ix b).2) (index env (indexAll env (pre ++ a :: mid)) b).2 := by
        simp only [indexAll, List.foldl_append, List.foldl_cons]
      rw [this, fold_headers env post _ _ hpb]
      exact hc1
    · rw [hc4, if_pos (by omega), show b.height - 1 = a.height by omega, hna]

/-- The blocks whose processing got as far as the flush, in order (`cur`: the block being processed). -/
def flushed : Option Block → List Ev → List Block
  | _, [] => []
  | _, .finalize b :: l => flushed (some b) l
  | cur, .commit _ :: l => flushed cur l
  | cur, .flush :: l => cur.toList ++ flushed none l
  | _, .crash :: l => flushed none l

/-- C59: what is in the index after any run with crashes anywhere: exactly the blocks whose processing reached the flush,
as if the others had never been. -/
theorem C59_exact (env : Env T E) (evs : List Ev) (s : Node E) (h : Node.run env Node.start evs = some s) :
    s.disk = indexAll env (flushed none evs) := by
  suffices gen : ∀ (evs : List Ev) (s s' : Node E) (bs : List Block) (cur : Option Block),
      s.disk = indexAll env bs → s.mem = indexAll env (bs ++ cur.toList) → (s.step = 0 → cur = none) →
      Node.run env s evs = some s' → s'.disk = indexAll env (bs ++ flushed cur evs) by
    have := gen evs Node.start s [] none rfl rfl (fun _ => rfl) h
    simpa using this
  intro evs
  induction evs with
  | nil => intro s s' bs cur h1 _ _ h4; cases h4; simpa [flushed] using h1
  | cons e l ih =>
    intro s s' bs cur h1 h2 h3 h4
    simp only [Node.run] at h4
    cases hn : s.next env e with
    | none => rw [hn] at h4; cases h4
    | some s1 =>
      rw [hn] at h4
      simp only [Option.bind_some] at h4
      cases e with
      | finalize b =>
        simp only [Node.next] at hn
        split at hn
        · next hb =>
          cases hn
          have hc := h3 hb.1
          subst hc
          refine ih ⟨s.chain, s.disk, (index env s.mem b).2, 1⟩ s' bs (some b) h1 ?_ (fun h => by simp at h) h4
          simp only [Option.toList_none, List.append_nil] at h2
          simp only [h2, Option.toList_some, indexAll_snoc]
        · cases hn
      | commit b =>
        simp only [Node.next] at hn
        split at hn
        · cases hn
          exact ih ⟨s.chain ++ [b], s.disk, s.mem, 2⟩ s' bs cur h1 h2 (fun h => by simp at h) h4
        · cases hn
      | flush =>
        simp only [Node.next] at hn
        split at hn
        · cases hn
          have := ih _ s' (bs ++ cur.toList) none h2 (by simpa using h2) (fun _ => rfl) h4
          simpa [flushed, List.append_assoc] using this
        · cases hn
      | crash =>
        simp only [Node.next] at hn
        cases hn
        have := ih ⟨s.chain, s.disk, s.disk, 0⟩ s' bs none h1 (by simpa using h1) (fun _ => rfl) h4
        simpa [flushed] using this

/-- C59: and so a height is answered after a restart exactly if its block's processing reached the flush and the block
could be indexed. -/
theorem C59_answered (env : Env T E) (evs : List Ev) (s : Node E) (h : Node.run env Node.start evs = some s) (k : Nat) :
    (s.disk.headers k).isSome = true ↔ ∃ b ∈ flushed none evs, b.height = k ∧ Indexable env b.txs := by
  rw [C59_exact env evs s h]
  apply C38_answered
  suffices gen : ∀ (evs : List Ev) (s s' : Node E) (cur : Option Block), Node.run env s evs = some s' →
      (s.step = 0 → cur = none) → (∀ b, cur = some b → (s.step = 1 → b.height = s.chain.length + 1) ∧
        (s.step = 2 → b.height = s.chain.length)) → s.step ≤ 2 →
      (∀ b ∈ flushed cur evs, s.chain.length < b.height ∨ s.step = 2 ∧ cur = some b) ∧
      ((flushed cur evs).map (·.height)).Nodup by
    exact (gen evs Node.start s none h (fun _ => rfl) (fun b e => by cases e) (Nat.zero_le _)).2
  intro evs
  induction evs with
  | nil => intro s s' cur _ _ _ _; exact ⟨by simp [flushed], by simp [flushed]⟩
  | cons e l ih =>
    intro s s' cur h4 h1 h2 h3
    simp only [Node.run] at h4
    cases hn : s.next env e with
    | none => rw [hn] at h4; cases h4
    | some s1 =>
      rw [hn] at h4
      simp only [Option.bind_some] at h4
      cases e with
      | finalize b =>
        simp only [Node.next] at hn
        split at hn
        · next hb =>
          cases hn
          obtain ⟨g1, g2⟩ := ih _ s' (some b) h4 (fun h => by simp at h)
            (fun x hx => by cases hx; exact ⟨fun _ => hb.2, fun h => by simp at h⟩) (by simp)
          refine ⟨fun x hx => ?_, g2⟩
          rcases g1 x hx with g | g
          · exact Or.inl g
          · exact absurd g.1 (by simp)
        · cases hn
      | commit b =>
        simp only [Node.next] at hn
        split at hn
        · next hb =>
          cases hn
          obtain ⟨g1, g2⟩ := ih _ s' cur h4 (fun h => by simp at h)
            (fun x hx => ⟨fun h => by simp at h, fun _ => by
              have := (h2 x hx).1 hb.1
              simp only [List.length_append, List.length_singleton]; exact this⟩) (by simp)
          refine ⟨fun x hx => ?_, g2⟩
          rcases g1 x hx with g | g
          · simp only [List.length_append, List.length_singleton] at g
            exact Or.inl (by omega)
          · have := (h2 x g.2).1 hb.1
            exact Or.inl (by omega)
        · cases hn
      | flush =>
        simp only [Node.next] at hn
        split at hn
        · next hb =>
          cases hn
          obtain ⟨g1, g2⟩ := ih _ s' none h4 (fun _ => rfl) (fun b e => by cases e) (by simp)
          have g1' : ∀ b ∈ flushed none l, s.chain.length < b.height := fun b hb2 => (g1 b hb2).resolve_right (fun g => by cases g.2)
          cases cur with
          | none => exact ⟨fun x hx => Or.inl (g1' x (by simpa [flushed] using hx)), by simpa [flushed] using g2⟩
          | some c =>
            have hcl := (h2 c rfl).2 hb
            simp only [flushed, Option.toList_some, List.cons_append, List.nil_append, List.map_cons, List.nodup_cons]
            refine ⟨fun x hx => ?_, ?_, g2⟩
            · rcases List.mem_cons.1 hx with rfl | hx
              · exact Or.inr ⟨hb, rfl⟩
              · exact Or.inl (g1' x hx)
            · intro hm
              obtain ⟨x, hx, hxe⟩ := List.mem_map.1 hm
              have := g1' x hx
              omega
        · cases hn
      | crash =>
        simp only [Node.next] at hn
        cases hn
        obtain ⟨g1, g2⟩ := ih _ s' none h4 (fun _ => rfl) (fun b e => by cases e) (by simp)
        exact ⟨fun x hx => Or.inl ((g1 x hx).resolve_right (fun g => by cases g.2)), g2⟩

/-- instance: the first block is lost, the second kept -/
example : (Node.run toy Node.start [.finalize b1, .commit b1, .crash, .finalize b2, .commit b2, .flush]).isSome ∧
    flushed none [.finalize b1, .commit b1, .crash, .finalize b2, .commit b2, .flush] = [b2] :=
  ⟨by rfl, by rfl⟩

end Verif.Indexer
