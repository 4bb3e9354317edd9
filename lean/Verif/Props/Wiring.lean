import Verif.Model.Wiring
/-
C167: keepers are handed keepers that work, and the block ends whatever was sent to forwarding accounts.
-/
namespace Verif.Props.Wiring
open Verif Verif.Wiring

/-! ### The construction -/

/-- Memory after `NewAppKeeper`. -/
def built : Mem := ((⟨[], []⟩ : Mem).run program).getD ⟨[], []⟩

/-- `NewAppKeeper` itself does not panic. -/
theorem C167_builds : (⟨[], []⟩ : Mem).run program = some built := by
  have h : ((⟨[], []⟩ : Mem).run program).isSome = true := by decide +kernel
  unfold built
  cases hr : (⟨[], []⟩ : Mem).run program with
  | none => rw [hr] at h; cases h
  | some m => rfl

/-- **C167** (which references are unusable, exactly): of all keepers and middlewares built, the forwarding keeper alone
holds something it cannot call, the transfer keeper. -/
theorem C167_dangling_violated : built.dangling = [("forwarding", "transfer")] := by decide +kernel

/-- The report is complete, for any construction: a keeper's field that is not reported can be called. -/
theorem C167_report (m : Mem) (owner field : String) (n : Nat) (rs : List (String × Option Nat)) (r : String × Option Nat)
    (hv : m.get owner = some n) (hc : m.cells[n]? = some (owner, some rs)) (hr : rs.find? (fun r => r.1 = field) = some r)
    (hd : (owner, field) ∉ m.dangling) : m.calls owner field = true := by
  have hf : r.1 = field := by simpa using List.find?_some hr
  have hm : r ∈ rs := List.mem_of_find?_eq_some hr
  have hat : m.at n = some rs := by simp only [Mem.at, hc]
  simp only [Mem.calls, hv, hat, hr]
  cases h : m.dead r.2 with
  | false => rfl
  | true =>
    refine absurd ?_ hd
    simp only [Mem.dangling, List.mem_flatMap]
    refine ⟨(owner, some rs), List.mem_of_getElem? hc, ?_⟩
    simp only [List.mem_map, List.mem_filter]
    exact ⟨r, ⟨hm, h⟩, by rw [hf]⟩

/-- … and nothing is reported wrongly: a keeper's field that refers to nothing, or to a place where nothing was put, is reported and cannot
be called. -/
theorem C167_unusable (m : Mem) (owner field : String) (n : Nat) (rs : List (String × Option Nat)) (r : Option Nat)
    (hv : m.get owner = some n) (hc : m.cells[n]? = some (owner, some rs)) (hr : rs.find? (fun r => r.1 = field) = some (field, r))
    (hd : ∀ k, r = some k → ∀ o c, m.cells[k]? = some (o, c) → c = none) :
    (owner, field) ∈ m.dangling ∧ m.calls owner field = false := by
  have hat : m.at n = some rs := by simp only [Mem.at, hc]
  have hdead : m.dead r = true := by
    cases r with
    | none => rfl
    | some k =>
      unfold Mem.dead Mem.at
      cases hk : m.cells[k]? with
      | none => simp [hk]
      | some oc =>
        obtain ⟨o, c⟩ := oc
        have := hd k rfl o c hk
        subst this
        simp [hk]
  constructor
  · simp only [Mem.dangling, List.mem_flatMap]
    refine ⟨(owner, some rs), List.mem_of_getElem? hc, ?_⟩
    simp only [List.mem_map, List.mem_filter]
    exact ⟨(field, r), ⟨List.mem_of_find?_eq_some hr, hdead⟩, rfl⟩
  · simp only [Mem.calls, hv, hat, hr, hdead, Bool.not_true]

/-- Non-vacuity of C167_report: the bank keeper's account keeper. -/
example : built.calls "bank" "account" = true ∧ ("bank", "account") ∉ built.dangling ∧
    built.calls "packetForward" "rateLimit" = true := by decide +kernel

/-- The fields through which a keeper sees something else than the keeper of that name as it finally is: another object, or a copy
made before it was finished. -/
def outdated (m : Mem) : List (String × String) :=
  m.cells.flatMap fun c => match c.2 with
    | none => []
    | some fields => (fields.filter fun r => match r.2, m.vars.find? (fun v => v.1 = r.1) with
        | some n, some v => m.cells[n]?.map Prod.snd != m.cells[v.2]?.map Prod.snd
        | none, _ => false
        | some _, none => true).map fun r => (c.1, r.1)

/-- **C167 (copies).** Several keepers are handed copies of others (of the IBC keeper's parts, of the bank and account keepers, of the
EVM keeper). No copy is taken too early: every one is of the keeper as it finally is. -/
theorem C167_copies : outdated built = [] := by decide +kernel

/-- If the ERC20 keeper were finished before the EVM keeper, it would hold an empty copy of it. -/
example : ((⟨[], []⟩ : Mem).run (program.filter (fun s => match s with | .fill f _ => f ≠ "evm" | _ => true) ++
    program.filter (fun s => match s with | .fill f _ => f = "evm" | _ => false))).map outdated =
    some [("erc20", "evm"), ("erc721", "evm")] := by decide +kernel

theorem not_live : built.calls "forwarding" "transfer" = false := by decide +kernel

/-! ### The end of the block -/

theorem coins_dead (acc : Addr → String → String × Nat → Bool) (a : Addr) (ch : String) (l : List (String × Nat)) (c : Chain) :
    forwardCoins false acc a ch l c = if l = [] then some c else none := by
  cases l <;> simp [forwardCoins]

theorem all_dead (acc : Addr → String → String × Nat → Bool) (c : Chain) : ∀ l : List Addr,
    (∃ a ∈ l, ∃ ch, c.account a = some ch ∧ c.isOpen ch = true ∧ c.bal a ≠ []) ∧ forwardAll false acc l c = none ∨
    (¬ ∃ a ∈ l, ∃ ch, c.account a = some ch ∧ c.isOpen ch = true ∧ c.bal a ≠ []) ∧ forwardAll false acc l c = some c
  | [] => .inr ⟨by simp, rfl⟩
  | a :: l => by
    have ih := all_dead acc c l
    have pass : (¬ ∃ ch, c.account a = some ch ∧ c.isOpen ch = true ∧ c.bal a ≠ []) →
        forwardAll false acc (a :: l) c = forwardAll false acc l c →
        (∃ b ∈ a :: l, ∃ ch, c.account b = some ch ∧ c.isOpen ch = true ∧ c.bal b ≠ []) ∧ forwardAll false acc (a :: l) c = none ∨
        (¬ ∃ b ∈ a :: l, ∃ ch, c.account b = some ch ∧ c.isOpen ch = true ∧ c.bal b ≠ []) ∧
          forwardAll false acc (a :: l) c = some c := by
      intro hno heq
      rw [heq]
      rcases ih with ⟨⟨b, hb, h⟩, h2⟩ | ⟨h, h2⟩
      · exact .inl ⟨⟨b, List.mem_cons_of_mem _ hb, h⟩, h2⟩
      · refine .inr ⟨?_, h2⟩
        rintro ⟨b, hb, hh⟩
        rcases List.mem_cons.1 hb with rfl | hb
        · exact hno hh
        · exact h ⟨b, hb, hh⟩
    cases ha : c.account a with
    | none =>
      apply pass
      · rintro ⟨ch, h, _⟩; rw [ha] at h; cases h
      · simp only [forwardAll, ha]
    | some ch =>
      cases ho : c.isOpen ch with
      | false =>
        apply pass
        · rintro ⟨ch', h, h2, _⟩; rw [ha] at h; cases h; rw [ho] at h2; cases h2
        · simp only [forwardAll, ha, ho, if_true]
      | true =>
        by_cases hb : c.bal a = []
        · apply pass
          · rintro ⟨_, _, _, h⟩; exact h hb
          · simp only [forwardAll, ha, ho, Bool.true_eq_false, if_false, coins_dead, hb, if_true]
        · refine .inl ⟨⟨a, List.mem_cons_self .., ch, ha, ho, hb⟩, ?_⟩
          simp only [forwardAll, ha, ho, Bool.true_eq_false, if_false, coins_dead, if_neg hb]

/-- **C167** (which blocks end, exactly): with the keepers as built, a block ends iff no forwarding account marked in it has
coins and an open channel; then nothing is forwarded. -/
theorem C167_ends_iff (acc : Addr → String → String × Nat → Bool) (c : Chain) :
    (endBlock built acc c = some { c with pending := [] } ↔
      ¬ ∃ a ∈ c.pending, ∃ ch, c.account a = some ch ∧ c.isOpen ch = true ∧ c.bal a ≠ []) ∧
    (endBlock built acc c = none ↔
      ∃ a ∈ c.pending, ∃ ch, c.account a = some ch ∧ c.isOpen ch = true ∧ c.bal a ≠ []) := by
  unfold endBlock
  rw [not_live]
  rcases all_dead acc c c.pending with ⟨h, h2⟩ | ⟨h, h2⟩
  · rw [h2]; simp only [reduceCtorEq, false_iff, true_iff]; exact ⟨not_not_intro h, h⟩
  · rw [h2]; simp only [true_iff, reduceCtorEq, false_iff]; exact ⟨h, h⟩

/-- **C167 does not hold**: a plain transfer of any coins to a forwarding account with an open channel stops the chain at
the end of the block, whatever else happened in it. -/
theorem C167_halts_violated (acc : Addr → String → String × Nat → Bool) (c : Chain) (to : Addr) (ch : String)
    (coins : List (String × Nat)) (ha : c.account to = some ch) (ho : c.isOpen ch = true) (hc : coins ≠ []) :
    endBlock built acc (deliver c to coins) = none := by
  rw [(C167_ends_iff acc _).2]
  refine ⟨to, ?_, ch, ha, ho, by simp [deliver, hc]⟩
  simp only [deliver, ha, Option.isSome_some, true_and]
  by_cases h : to ∈ c.pending
  · simp [h]
  · simp [h]

/-- Non-vacuity: such a chain and transfer. -/
example : let c : Chain := ⟨fun a => if a = Addr.ofNat 7 then some "channel-0" else none, [], fun _ => [],
      fun ch => ch = "channel-0", []⟩
    c.account (Addr.ofNat 7) = some "channel-0" ∧ c.isOpen "channel-0" = true ∧ [("umin", 1)] ≠ ([] : List (String × Nat)) := by
  simp

/-! ### With a transfer keeper that can be called -/

/-- What one account sends: each coin that the transfer keeper takes, over the account's channel, if that is open. -/
def due (acc : Addr → String → String × Nat → Bool) (c : Chain) (a : Addr) : List (Addr × String × String × Nat) :=
  match c.account a with
  | none => []
  | some ch => if c.isOpen ch = true then ((c.bal a).filter (acc a ch)).map (fun k => (a, ch, k.1, k.2)) else []

theorem coins_live (acc : Addr → String → String × Nat → Bool) (a : Addr) (ch : String) : ∀ (l : List (String × Nat)) (c : Chain),
    ∃ c', forwardCoins true acc a ch l c = some c' ∧
      c'.sent = c.sent ++ (l.filter (acc a ch)).map (fun k => (a, ch, k.1, k.2)) ∧
      c'.account = c.account ∧ c'.isOpen = c.isOpen ∧
      (∀ b, b ≠ a → c'.bal b = c.bal b) ∧
      ((c.bal a).Nodup → (c'.bal a).Nodup ∧ ∀ k, k ∈ c'.bal a ↔ k ∈ c.bal a ∧ ¬ (k ∈ l ∧ acc a ch k = true))
  | [], c => ⟨c, rfl, by simp, rfl, rfl, fun _ _ => rfl, fun h => ⟨h, fun k => by simp⟩⟩
  | k :: l, c => by
    by_cases hk : acc a ch k = true
    · obtain ⟨c', h1, h2, h3, h4, h6, h7⟩ := coins_live acc a ch l
        { c with bal := fun b => if b = a then (c.bal b).erase k else c.bal b, sent := c.sent ++ [(a, ch, k.1, k.2)] }
      refine ⟨c', ?_, ?_, h3, h4, ?_, ?_⟩
      · simp only [forwardCoins, Bool.true_eq_false, if_false, hk, if_true]; exact h1
      · rw [h2]; simp [hk]
      · intro b hb; rw [h6 b hb]; simp [hb]
      · intro hn
        simp only [if_true] at h7
        obtain ⟨h8, h9⟩ := h7 (hn.erase k)
        refine ⟨h8, fun x => ?_⟩
        rw [h9 x, hn.mem_erase_iff]
        constructor
        · rintro ⟨⟨hx, hm⟩, hno⟩
          refine ⟨hm, ?_⟩
          rintro ⟨hx2, hacc⟩
          rcases List.mem_cons.1 hx2 with h | h
          · exact hx h
          · exact hno ⟨h, hacc⟩
        · rintro ⟨hm, hno⟩
          refine ⟨⟨?_, hm⟩, fun h => hno ⟨List.mem_cons_of_mem _ h.1, h.2⟩⟩
          rintro rfl
          exact hno ⟨List.mem_cons_self .., hk⟩
    · obtain ⟨c', h1, h2, h3, h4, h6, h7⟩ := coins_live acc a ch l c
      refine ⟨c', ?_, ?_, h3, h4, h6, ?_⟩
      · simp only [forwardCoins, Bool.true_eq_false, if_false, hk]; exact h1
      · rw [h2]; simp [hk]
      · intro hn
        obtain ⟨h8, h9⟩ := h7 hn
        refine ⟨h8, fun x => ?_⟩
        rw [h9 x]
        constructor
        · rintro ⟨hm, hno⟩
          refine ⟨hm, ?_⟩
          rintro ⟨hx2, hacc⟩
          rcases List.mem_cons.1 hx2 with h | h
          · rw [h] at hacc; exact hk hacc
          · exact hno ⟨h, hacc⟩
        · rintro ⟨hm, hno⟩
          exact ⟨hm, fun h => hno ⟨List.mem_cons_of_mem _ h.1, h.2⟩⟩

theorem due_congr (acc : Addr → String → String × Nat → Bool) (c c' : Chain) (a : Addr) (h1 : c'.account = c.account)
    (h2 : c'.isOpen = c.isOpen) (h3 : c'.bal a = c.bal a) : due acc c' a = due acc c a := by
  simp only [due, h1, h2, h3]

theorem all_live (acc : Addr → String → String × Nat → Bool) : ∀ (l : List Addr) (c : Chain), l.Nodup →
    ∃ c', forwardAll true acc l c = some c' ∧ c'.sent = c.sent ++ l.flatMap (due acc c) ∧
      c'.account = c.account ∧ c'.isOpen = c.isOpen ∧ (∀ b, b ∉ l → c'.bal b = c.bal b) ∧
      ∀ a ∈ l, ∀ ch, c.account a = some ch → c.isOpen ch = true → (c.bal a).Nodup →
        ∀ k, k ∈ c'.bal a ↔ k ∈ c.bal a ∧ acc a ch k = false
  | [], c, _ => ⟨c, rfl, by simp, rfl, rfl, fun _ _ => rfl, by simp⟩
  | a :: l, c, hn => by
    obtain ⟨hal, hn'⟩ := List.nodup_cons.1 hn
    have skip : due acc c a = [] → forwardAll true acc (a :: l) c = forwardAll true acc l c →
        (¬ ∃ ch, c.account a = some ch ∧ c.isOpen ch = true) → 
        ∃ c', forwardAll true acc (a :: l) c = some c' ∧ c'.sent = c.sent ++ (a :: l).flatMap (due acc c) ∧
          c'.account = c.account ∧ c'.isOpen = c.isOpen ∧ (∀ b, b ∉ a :: l → c'.bal b = c.bal b) ∧
          ∀ a' ∈ a :: l, ∀ ch, c.account a' = some ch → c.isOpen ch = true → (c.bal a').Nodup →
            ∀ k, k ∈ c'.bal a' ↔ k ∈ c.bal a' ∧ acc a' ch k = false := by
      intro hd heq hno
      obtain ⟨c', h1, h2, h3, h4, h5, h6⟩ := all_live acc l c hn'
      refine ⟨c', by rw [heq]; exact h1, by rw [h2, List.flatMap_cons, hd]; rfl, h3, h4,
        fun b hb => h5 b (fun h => hb (List.mem_cons_of_mem _ h)), ?_⟩
      intro a' ha' ch hc ho
      rcases List.mem_cons.1 ha' with rfl | ha'
      · exact absurd ⟨ch, hc, ho⟩ hno
      · exact h6 a' ha' ch hc ho
    cases ha : c.account a with
    | none =>
      exact skip (by simp only [due, ha]) (by simp only [forwardAll, ha]) (by rintro ⟨_, h, _⟩; rw [ha] at h; cases h)
    | some ch =>
      cases ho : c.isOpen ch with
      | false =>
        exact skip (by simp only [due, ha, ho, Bool.false_eq_true, if_false]) (by simp only [forwardAll, ha, ho, if_true])
          (by rintro ⟨_, h, h2⟩; rw [ha] at h; cases h; rw [ho] at h2; cases h2)
      | true =>
        obtain ⟨c1, g1, g2, g3, g4, g5, g6⟩ := coins_live acc a ch (c.bal a) c
        obtain ⟨c', h1, h2, h3, h4, h5, h6⟩ := all_live acc l c1 hn'
        have hne : ∀ b ∈ l, b ≠ a := fun b hb h => hal (h ▸ hb)
        refine ⟨c', ?_, ?_, h3.trans g3, h4.trans g4, ?_, ?_⟩
        · simp only [forwardAll, ha, ho, Bool.true_eq_false, if_false, g1]; exact h1
        · have hdue : l.flatMap (due acc c1) = l.flatMap (due acc c) := by
            rw [List.flatMap_def, List.flatMap_def]
            congr 1
            exact List.map_congr_left (fun b hb => due_congr acc c c1 b g3 g4 (g5 b (hne b hb)))
          rw [h2, g2, List.flatMap_cons, hdue, List.append_assoc]
          congr 2
          simp only [due, ha, ho, if_true]
        · intro b hb
          have hba : b ≠ a := fun h => hb (h ▸ List.mem_cons_self ..)
          rw [h5 b (fun h => hb (List.mem_cons_of_mem _ h)), g5 b hba]
        · intro a' ha' ch' hc' ho' hnd k
          rcases List.mem_cons.1 ha' with rfl | ha'
          · rw [ha] at hc'; cases hc'
            rw [h5 a' hal, (g6 hnd).2 k]
            constructor
            · rintro ⟨hm, hno⟩
              exact ⟨hm, by cases hh : acc a' ch k with
                | false => rfl
                | true => exact absurd ⟨hm, hh⟩ hno⟩
            · rintro ⟨hm, hf⟩; exact ⟨hm, fun h => by rw [hf] at h; exact absurd h.2 (by simp)⟩
          · have hb := g5 a' (hne a' ha')
            have := h6 a' ha' ch' (by rw [g3]; exact hc') (by rw [g4]; exact ho') (by rw [hb]; exact hnd) k
            rw [hb] at this
            exact this

/-- **C167** (what the hook would do with a transfer keeper it can call): the block ends; each account marked whose channel
is open has sent exactly the coins that can be transferred, over its own channel, and keeps exactly the others; nobody
else's balance changes. -/
theorem C167_forwards (m : Mem) (hm : m.calls "forwarding" "transfer" = true) (acc : Addr → String → String × Nat → Bool)
    (c : Chain) (hn : c.pending.Nodup) :
    ∃ c', endBlock m acc c = some c' ∧ c'.pending = [] ∧ c'.sent = c.sent ++ c.pending.flatMap (due acc c) ∧
      (∀ b, b ∉ c.pending → c'.bal b = c.bal b) ∧
      ∀ a ∈ c.pending, ∀ ch, c.account a = some ch → c.isOpen ch = true → (c.bal a).Nodup →
        ∀ k, k ∈ c'.bal a ↔ k ∈ c.bal a ∧ acc a ch k = false := by
  obtain ⟨c', h1, h2, _, _, h5, h6⟩ := all_live acc c.pending c hn
  exact ⟨{ c' with pending := [] }, by simp only [endBlock, hm, h1], rfl, h2, h5, h6⟩

/-- An account is marked at most once. -/
theorem deliver_nodup (c : Chain) (to : Addr) (coins : List (String × Nat)) (h : c.pending.Nodup) :
    (deliver c to coins).pending.Nodup := by
  simp only [deliver]
  split
  · next hh => exact List.nodup_append.2 ⟨h, by simp, by
      intro a ha b hb; rw [List.mem_singleton] at hb; rintro rfl; exact hh.2 (hb ▸ ha)⟩
  · exact h

/-- The hypothesis of C167_forwards is met by the same construction with the forwarding keeper built after the transfer
keeper; then no reference is unusable. -/
example : let fixed := (program.filter (fun s => match s with | .make f _ => f ≠ "forwarding" ∧ f ≠ "forwardingLayer" | _ => true)) ++
      program.filter (fun s => match s with | .make f _ => f = "forwarding" ∨ f = "forwardingLayer" | _ => false)
    ((⟨[], []⟩ : Mem).run fixed).map (fun m => (m.dangling, m.calls "forwarding" "transfer")) = some ([], true) := by
  decide +kernel

end Verif.Props.Wiring
