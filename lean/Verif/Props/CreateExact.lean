import Verif.Props.Create
import Verif.Props.SigGas
/-
C82: which addresses a creation makes warm. C84: the bits of a multisignature.
-/
namespace Verif.Props.Create
open Verif Verif.World Verif.Create

theorem setNonce_access (w : World) (a : Addr) (n : Nat) : (w.setNonce a n).access = w.access := by
  simp only [World.setNonce, World.getOrNew]; cases w.acct a <;> rfl

theorem createAccount_access (w : World) (a : Addr) : (w.createAccount a).access = w.access := rfl

theorem createContract_access {w w' : World} {e : Nat} {a : Addr} (h : w.createContract e a = some w') : w'.access = w.access := by
  unfold World.createContract at h
  simp only at h
  split at h
  · split at h
    · cases h; rfl
    · cases h
  · cases h; rfl

theorem pay_access {w w' : World} {a b : Addr} {v : Nat} (h : pay w a b v = some w') : w'.access = w.access := by
  unfold pay World.subBalance World.addBalance at h
  by_cases h0 : v = 0
  · simp only [h0, if_true, Option.bind_some, Option.some.injEq] at h; rw [h]
  · simp only [h0, if_false] at h
    split at h
    · simp only [Option.bind_some] at h
      split at h
      · cases h; rfl
      · cases h
    · cases h

/-- The access list of `w` in the transaction `e`, with one more address if the fork is active. -/
def Warmed (f : Bool) (w w' : World) (e : Nat) (a : Addr) : Prop :=
  ∀ b, w'.addressInAccessList e b = true ↔ w.addressInAccessList e b = true ∨ (f = true ∧ b = a)

theorem begun_warmed (f : Bool) (w : World) (e : Nat) (caller a : Addr) : Warmed f w (begun f w e caller a) e a := by
  intro b
  unfold begun World.addressInAccessList
  cases f with
  | false => simp [setNonce_access]
  | true =>
    simp only [if_true, World.addAddress, setNonce_access, upd2, true_and]
    by_cases h : b = a
    · subst h; simp
    · have : b.bytes ≠ a.bytes := fun hb => h (Addr.ext hb)
      simp [h, this]

theorem Warmed.congr {f : Bool} {w w' w'' : World} {e : Nat} {a : Addr} (h : Warmed f w w' e a) (hh : w''.access = w'.access) :
    Warmed f w w'' e a := by
  intro b
  rw [← h b]
  unfold World.addressInAccessList
  rw [hh]

/-- **C82 (warm addresses).** However a creation ends that is not refused, the address of the new contract has been added to the
addresses the transaction has accessed, no other has, and it stays there if the constructor fails; before the fork none is added. -/
theorem C82_warm (eh : Hash) (f : Bool) (w : World) (e : Nat) (caller a : Addr) (v : Nat) :
    (∀ w', enter eh f w e caller a v = .collision w' → Warmed f w w' e a) ∧
    (∀ w' u, enter eh f w e caller a v = .entered w' u → Warmed f w w' e a ∧ Warmed f w u e a) := by
  have hb := begun_warmed f w e caller a
  unfold enter
  constructor
  · intro w' h
    split at h
    · cases h
    · split at h
      · cases h
      · split at h
        · cases h; exact hb
        · split at h
          · cases h
          · split at h <;> cases h
  · intro w' u h
    split at h
    · cases h
    · split at h
      · cases h
      · split at h
        · cases h
        · split at h
          · cases h
          · rename_i w3 hc
            split at h
            · cases h
            · rename_i w4 hp
              cases h
              refine ⟨hb.congr ?_, hb⟩
              rw [pay_access hp, setNonce_access, createContract_access hc]
              split
              · rfl
              · rw [createAccount_access]

end Verif.Props.Create

namespace Verif.Props.SigGas
open Verif Verif.SigGas

/-- **C84 (bits).** A multisignature whose price could be charged has a key and a signature for every bit that is set: no bit reaches past
the last key, and there are at least as many signatures as bits; anything else ends the transaction before it is verified. -/
theorem C84_bits (u : Bool) : ∀ (sigs : List Data) (bits : List Bool) (keys : List Key),
    (consumeSigs u bits keys sigs).ok = true →
    (∀ i, bits[i]? = some true → i < keys.length) ∧ (bits.filter id).length ≤ sigs.length
  | [], bits, keys, h => by
    rw [consumeSigs] at h
    have hn : ∀ b ∈ bits, b = false := by simpa using h
    refine ⟨fun i hi => ?_, ?_⟩
    · have := hn true (List.mem_of_getElem? hi); cases this
    · have : bits.filter id = [] := by
        rw [List.filter_eq_nil_iff]
        intro b hb
        rw [hn b hb]; simp
      rw [this]; simp
  | s :: ss, bits, keys, h => by
    rw [consumeSigs] at h
    have hsplit := List.takeWhile_append_dropWhile (p := fun b => !b) (l := bits)
    have htw : ∀ b ∈ bits.takeWhile (fun b => !b), b = false := by
      intro b hb
      have := List.all_takeWhile (l := bits) (p := fun b => !b)
      have := List.all_eq_true.mp this b hb
      simpa using this
    generalize hT : bits.takeWhile (fun b => !b) = T at *
    have hTf : T.filter id = [] := by
      rw [List.filter_eq_nil_iff]
      intro b hb
      rw [htw b hb]; simp
    cases hd : bits.dropWhile (fun b => !b) with
    | nil =>
      rw [hd, List.append_nil] at hsplit
      rw [← hsplit]
      refine ⟨fun i hi => ?_, ?_⟩
      · have := htw true (List.mem_of_getElem? hi); cases this
      · rw [hTf]; simp
    | cons b bs =>
      cases hk : keys.drop T.length with
      | nil => rw [hd, hk] at h; cases h
      | cons k ks =>
        rw [hd, hk] at h
        simp only at h
        obtain ⟨_, h2, _⟩ := andThen_ok h
        obtain ⟨i1, i2⟩ := C84_bits u ss bs ks h2
        have hlen : keys.length = T.length + (ks.length + 1) := by
          have := congrArg List.length hk
          simp only [List.length_drop, List.length_cons] at this
          omega
        rw [hd] at hsplit
        rw [← hsplit]
        refine ⟨fun i hi => ?_, ?_⟩
        · rw [List.getElem?_append] at hi
          split at hi
          · have := htw true (List.mem_of_getElem? hi); cases this
          · cases hj : i - T.length with
            | zero => omega
            | succ j =>
              rw [hj, List.getElem?_cons_succ] at hi
              have := i1 j hi
              omega
        · rw [List.filter_append, hTf, List.nil_append]
          cases b <;> simp <;> omega

/-- Two keys: the bits 0 and 1 are fine, a third bit is not, nor is a bit without a signature. -/
example : (consumeSigs true [true, true] [.secp256k1, .ethsecp256k1] [.single 0 false, .single 1 false]).ok = true ∧
    (consumeSigs true [true, false, true] [.secp256k1, .ethsecp256k1] [.single 0 false, .single 1 false]).ok = false ∧
    (consumeSigs true [true, true] [.secp256k1, .ethsecp256k1] [.single 0 false]).ok = false := by decide +kernel

end Verif.Props.SigGas
