import Verif.Model.Nft
/-
Specification vocabulary for NFTs (C48).
-/
namespace Verif.Spec.Nft
open Verif Verif.Text Verif.Nft

/-- `a` owns exactly `n` tokens: `l` lists them without repetition. -/
def Owns (owners : Nat → Addr) (a : Addr) (n : Nat) : Prop :=
  ∃ l : List Nat, l.Nodup ∧ (∀ i, i ∈ l ↔ owners i = a) ∧ l.length = n

/-- May `x` dispose of token `i`: the owner, an operator of the owner, or the one approved for the token. -/
def May (c : Nft) (x : Addr) (i : Nat) : Prop :=
  c.owners i = x ∨ c.operatorApprovals (c.owners i) x = true ∨ c.tokenApprovals i = x

/-- The history of a contract: calls by anyone but the zero address; a reverting call changes nothing. -/
def runCalls (accepts : Addr → Bool) : List (Addr × Call) → Nft → Nft
  | [], c => c
  | (x, call) :: r, c => runCalls accepts r ((exec accepts x call c).getD c)

/-- One event on the chain: a class is created or updated, a keeper operation succeeds, or anyone but the chain
address calls a contract. -/
inductive Step (e : Env) (w : NW) : NW → Prop where
  | newClass (c u : Str) (w' : NW) (hc : Denom.evmPrefix.isPrefixOf c = false) (h : createOrUpdateClass e c u w = some w') :
      Step e w w'
  | transfers (s r : Addr) (c : Str) (ids : List Str) (w' : NW) (h : transfers e s r c ids w = some w') : Step e w w'
  | burns (o : Addr) (c : Str) (ids : List Str) (w' : NW) (h : burns e o c ids w = some w') : Step e w w'
  | mints (r : Addr) (c : Str) (ids us : List Str) (w' : NW) (h : mints e r c ids us w = some w') : Step e w w'
  | call (x a : Addr) (call : Call) (w' : NW) (hx : x ≠ e.std) (h : callNft e w x a call = some w') : Step e w w'
  | user (a x : Addr) (h : w.nfts a = none) : Step e w { w with nfts := put w.nfts a (some (Nft.fresh x)) }

/-- Histories from a chain without classes; users' own contracts may exist. -/
inductive Reach (e : Env) : NW → Prop where
  | init (w : NW) (h1 : ∀ c, w.maps.toAddr c = none) (h2 : ∀ a, w.maps.toDenom a = none) : Reach e w
  | step (w w' : NW) (hr : Reach e w) (h : Step e w w') : Reach e w'

/-- Two (class, token id) pairs name the same token: same contract, same number. -/
def SameToken (e : Env) (w : NW) (c1 t1 c2 t2 : Str) : Prop :=
  ∃ a n, classToContract w c1 = some a ∧ classToContract w c2 = some a ∧
    tokenNumber e.sha c1 t1 = some n ∧ tokenNumber e.sha c2 t2 = some n

/-- The class has a contract with code. -/
def HasCode (w : NW) (cls : Str) : Prop := ∃ a c, classToContract w cls = some a ∧ w.nfts a = some c

/-- `ids` name pairwise different tokens of the class. -/
def Distinct (e : Env) (cls : Str) (ids : List Str) : Prop :=
  (ids.map (tokenNumber e.sha cls)).Nodup ∧ ∀ t ∈ ids, (tokenNumber e.sha cls t).isSome = true

end Verif.Spec.Nft
