import Verif.Props.Hooks
/-
C50: the local denom and class id of a received token.
-/
namespace Verif.Hooks
open Verif Verif.Text Verif.Hooks.Spec

variable {σ J K : Type}

theorem split_ne (s : Str) : split s ≠ [] := by
  cases s with
  | nil => simp [split]
  | cons c s =>
    simp only [split]
    split
    · simp
    · split <;> simp

theorem split_cons (c : Char) (s : Str) (h : c ≠ '/') : split (c :: s) = (c :: (split s).headD []) :: (split s).tail := by
  simp only [split, if_neg h]
  have := split_ne s
  cases hs : split s with
  | nil => exact absurd hs this
  | cons w ws => simp

theorem split_seg : ∀ (p s : Str), '/' ∉ p → split (p ++ '/' :: s) = p :: split s
  | [], s, _ => by simp [split]
  | c :: p, s, h => by
    have ih := split_seg p s (fun h' => h (by simp [h']))
    have hc : c ≠ '/' := fun h' => h (by simp [h'])
    rw [List.cons_append, split_cons c _ hc]
    simp only [ih, List.headD_cons, List.tail_cons]

theorem join_split (s : Str) : join (split s) = s := by
  induction s with
  | nil => rfl
  | cons c s ih =>
    by_cases hc : c = '/'
    · subst hc
      simp only [split, if_true]
      have := split_ne s
      cases hs : split s with
      | nil => exact absurd hs this
      | cons w ws => rw [hs] at ih; simp [join, ih]
    · rw [split_cons c s hc]
      have := split_ne s
      cases hs : split s with
      | nil => exact absurd hs this
      | cons w ws =>
        rw [hs] at ih
        simp only [List.headD_cons, List.tail_cons]
        cases ws with
        | nil => simp [join] at ih ⊢; exact ih
        | cons v vs => simp [join] at ih ⊢; exact ih

/-- Hops as ibc-go writes them: ports without slash, channels `channel-N`. -/
def HopOk (h : Str × Str) : Prop := '/' ∉ h.1 ∧ '/' ∉ h.2 ∧ isChannelId h.2 = true

/-- A base denom that cannot be mistaken for a hop: its second slash-separated component is not `channel-N`. -/
def BaseOk (b : Str) : Prop := ∀ p c rest, split b = p :: c :: rest → isChannelId c = false

def Token.Ok (t : Spec.Token) : Prop := (∀ h ∈ t.hops, HopOk h) ∧ BaseOk t.base

def flat : List (Str × Str) → List Str
  | [] => []
  | (p, c) :: hs => p :: c :: flat hs

theorem split_text : ∀ (hs : List (Str × Str)) (b : Str), (∀ h ∈ hs, HopOk h) →
    split (Spec.Token.text ⟨hs, b⟩) = flat hs ++ split b
  | [], b, _ => by simp [Spec.Token.text, flat]
  | (p, c) :: hs, b, h => by
    have h0 := h (p, c) (by simp)
    rw [Spec.Token.text, split_seg p _ h0.1, split_seg c _ h0.2.1, split_text hs b (fun x hx => h x (by simp [hx]))]
    rfl

theorem extract_base {l : List Str} (h : ∀ p c rest, l = p :: c :: rest → isChannelId c = false) : extract l = ([], l) := by
  match l with
  | [] => rfl
  | [_] => rfl
  | p :: c :: rest => simp [extract, h p c rest rfl]

theorem extract_flat : ∀ (hs : List (Str × Str)) (l : List Str), (∀ h ∈ hs, HopOk h) →
    (∀ p c rest, l = p :: c :: rest → isChannelId c = false) → extract (flat hs ++ l) = (flat hs, l)
  | [], l, _, hl => by simpa [flat] using extract_base hl
  | (p, c) :: hs, l, h, hl => by
    have ih := extract_flat hs l (fun x hx => h x (by simp [hx])) hl
    have h0 := (h (p, c) (by simp)).2.2
    simp only at h0
    simp [flat, extract, h0, ih]

theorem join_flat_text : ∀ (h : Str × Str) (hs : List (Str × Str)) (b : Str),
    join (flat (h :: hs)) ++ '/' :: b = Spec.Token.text ⟨h :: hs, b⟩
  | (p, c), [], b => by simp [flat, join, Spec.Token.text]
  | (p, c), h' :: hs, b => by
    have ih := join_flat_text h' hs b
    obtain ⟨p', c'⟩ := h'
    rw [Spec.Token.text, ← ih]
    simp [flat, join]

theorem join_flat_ne (h : Str × Str) (hs : List (Str × Str)) : join (flat (h :: hs)) ≠ [] := by
  obtain ⟨p, c⟩ := h
  simp [flat, join]

theorem parse_native (b : Str) (h : BaseOk b) : (parseTrace b).path = [] := by
  simp only [parseTrace]
  split
  · rfl
  · rw [extract_base h]; rfl

theorem parse_hops (h : Str × Str) (hs : List (Str × Str)) (b : Str) (hok : ∀ x ∈ h :: hs, HopOk x) (hb : BaseOk b) :
    (parseTrace (Spec.Token.text ⟨h :: hs, b⟩)) = ⟨join (flat (h :: hs)), b⟩ := by
  simp only [parseTrace, split_text _ b hok, extract_flat _ _ hok hb, join_split]
  rw [if_neg]
  have := split_ne b
  obtain ⟨p, c⟩ := h
  cases hsb : split b with
  | nil => exact absurd hsb this
  | cons w ws => simp [flat]

theorem ibc_name (e : Env σ J K) (h : Str × Str) (hs : List (Str × Str)) (b : Str) (hok : ∀ x ∈ h :: hs, HopOk x) (hb : BaseOk b) :
    (parseTrace (Spec.Token.text ⟨h :: hs, b⟩)).ibc e = Spec.Token.name e ⟨h :: hs, b⟩ := by
  rw [parse_hops h hs b hok hb]
  simp only [Trace.ibc, join_flat_ne h hs, if_false, Trace.full, join_flat_text, Spec.Token.name, hexUpper]

theorem prefix_first {pp pc : Str} (hp : '/' ∉ pp) (hc : '/' ∉ pc) {x : Str} (h : (denomPrefix pp pc).isPrefixOf x = true) :
    ∃ rest, x = denomPrefix pp pc ++ rest ∧ split x = pp :: pc :: split rest := by
  obtain ⟨rest, hr⟩ := List.isPrefixOf_iff_prefix.1 h
  refine ⟨rest, hr.symm, ?_⟩
  rw [← hr]
  have : denomPrefix pp pc ++ rest = pp ++ '/' :: (pc ++ '/' :: rest) := by simp [denomPrefix]
  rw [this, split_seg pp _ hp, split_seg pc _ hc]

/-- The common proof for denoms and class ids. -/
theorem local_name (e : Env σ J K) (p : Packet) (t : Spec.Token) (ht : Token.Ok t)
    (hsrc : HopOk (p.srcPort, p.srcChan)) (hdst : HopOk (p.dstPort, p.dstChan)) :
    localDenom e p t.text = (t.received p).name e := by
  obtain ⟨hops, b⟩ := t
  obtain ⟨hh, hb⟩ := ht
  simp only at hh hb
  have hadd : ∀ hs : List (Str × Str), denomPrefix p.dstPort p.dstChan ++ Spec.Token.text ⟨hs, b⟩ =
      Spec.Token.text ⟨(p.dstPort, p.dstChan) :: hs, b⟩ := by
    intro hs; rw [Spec.Token.text]; simp [denomPrefix]
  have hadd' : (∀ x ∈ (p.dstPort, p.dstChan) :: hops, HopOk x) := by
    intro x hx; rcases List.mem_cons.1 hx with h | h
    · rw [h]; exact hdst
    · exact hh x h
  simp only [localDenom]
  cases hops with
  | nil =>
    rw [if_neg]
    · rw [hadd [], ibc_name e _ _ b hadd' hb]; rfl
    · intro h
      obtain ⟨rest, _, h2⟩ := prefix_first hsrc.1 hsrc.2.1 h
      rw [split_text [] b (by simp)] at h2
      have := hb _ _ _ (by simpa [flat] using h2)
      rw [hsrc.2.2] at this; cases this
  | cons h hs =>
    obtain ⟨hp, hc⟩ := h
    simp only [Spec.Token.received]
    by_cases heq : hp = p.srcPort ∧ hc = p.srcChan
    · obtain ⟨rfl, rfl⟩ := heq
      have htext : Spec.Token.text ⟨(p.srcPort, p.srcChan) :: hs, b⟩ = denomPrefix p.srcPort p.srcChan ++ Spec.Token.text ⟨hs, b⟩ := by
        rw [Spec.Token.text]; simp [denomPrefix]
      rw [htext, if_pos (List.isPrefixOf_iff_prefix.2 (List.prefix_append _ _)), List.drop_left]
      simp only [and_self, if_true]
      cases hs with
      | nil => simp only [Spec.Token.text, parse_native b hb, if_true, Spec.Token.name]
      | cons h' hs' =>
        have hok : ∀ x ∈ h' :: hs', HopOk x := fun x hx => hh x (List.mem_cons_of_mem _ hx)
        rw [if_neg (by rw [parse_hops h' hs' b hok hb]; exact join_flat_ne h' hs'), ibc_name e h' hs' b hok hb]
    · rw [if_neg heq, if_neg]
      · rw [hadd, ibc_name e _ _ b hadd' hb]
      · intro h
        obtain ⟨rest, _, h2⟩ := prefix_first hsrc.1 hsrc.2.1 h
        rw [split_text _ b hh] at h2
        simp only [flat, List.cons_append, List.cons.injEq] at h2
        exact heq ⟨h2.1, h2.2.1⟩

/-- **C50**: for every packet between channels in ibc-go's format and every token (any number of hops, any base denom that
cannot be read as a hop), the local denom the hook computes is the name of the token as the receiving chain sees it: the
hop removed when the token goes back, the destination hop added otherwise. -/
theorem C50_denom (e : Env σ J K) (p : Packet) (t : Spec.Token) (ht : Token.Ok t)
    (hsrc : HopOk (p.srcPort, p.srcChan)) (hdst : HopOk (p.dstPort, p.dstChan)) :
    localDenom e p t.text = (t.received p).name e := local_name e p t ht hsrc hdst

/-- **C50** for NFT classes. -/
theorem C50_class (e : Env σ J K) (p : Packet) (t : Spec.Token) (ht : Token.Ok t)
    (hsrc : HopOk (p.srcPort, p.srcChan)) (hdst : HopOk (p.dstPort, p.dstChan)) :
    localClassId e p t.text = (t.received p).name e := local_name e p t ht hsrc hdst

/-- Sending a token over a channel adds nothing on the way out and one hop on arrival; sending it back over the same channel
restores the original name: a round trip of names (the counterparty's text of a token is the text with its hop). -/
theorem C50_roundtrip (p : Packet) (t : Spec.Token) (back : Packet)
    (h1 : back.srcPort = p.dstPort) (h2 : back.srcChan = p.dstChan)
    (hn : ∀ rest, t.hops ≠ (p.srcPort, p.srcChan) :: rest) : (t.received p).received back = t := by
  obtain ⟨hops, b⟩ := t
  have : Spec.Token.received p ⟨hops, b⟩ = ⟨(p.dstPort, p.dstChan) :: hops, b⟩ := by
    cases hops with
    | nil => rfl
    | cons h hs =>
      obtain ⟨x, y⟩ := h
      simp only [Spec.Token.received]
      rw [if_neg]
      rintro ⟨rfl, rfl⟩
      exact hn hs rfl
  rw [this]
  simp [Spec.Token.received, h1, h2]

def tok1 : Spec.Token := ⟨[("transfer".toList, "channel-3".toList), ("transfer".toList, "channel-77".toList)], "gamm/pool/1".toList⟩
def pkt1 : Packet := ⟨"transfer".toList, "channel-3".toList, "transfer".toList, "channel-9".toList, []⟩

/-- Non-vacuity: a token with two hops and a base denom with slashes, going back over its last hop. -/
example : Token.Ok tok1 ∧ HopOk (pkt1.srcPort, pkt1.srcChan) ∧ HopOk (pkt1.dstPort, pkt1.dstChan) ∧
    tok1.received pkt1 = ⟨[("transfer".toList, "channel-77".toList)], "gamm/pool/1".toList⟩ := by
  refine ⟨⟨?_, ?_⟩, ?_, ?_, rfl⟩
  · intro h hh
    simp only [tok1, List.mem_cons, List.not_mem_nil, or_false] at hh
    rcases hh with rfl | rfl <;> exact ⟨by decide +kernel, by decide +kernel, by decide +kernel⟩
  · intro p c rest h
    have : split tok1.base = ["gamm".toList, "pool".toList, "1".toList] := by decide +kernel
    rw [this] at h
    injection h with _ h; injection h with h _
    rw [← h]; decide +kernel
  · exact ⟨by decide +kernel, by decide +kernel, by decide +kernel⟩
  · exact ⟨by decide +kernel, by decide +kernel, by decide +kernel⟩

end Verif.Hooks
