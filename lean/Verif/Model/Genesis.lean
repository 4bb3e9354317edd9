/-
Model of genesis export and import: x/evm/keeper/genesis.go. Collections are association lists in store order.
-/
namespace Verif.Genesis

/-- The order in which a store iterates keys of type `K` (bytewise order of the encoded key, by contract a strict
total order). -/
class KeyOrd (K : Type) where
  lt : K → K → Bool
  irrefl : ∀ a, lt a a = false
  trans : ∀ a b c, lt a b = true → lt b c = true → lt a c = true
  tri : ∀ a b, lt a b = true ∨ a = b ∨ lt b a = true

instance : KeyOrd Nat where
  lt a b := decide (a < b)
  irrefl := by simp
  trans := by intro a b c; simp; omega
  tri := by intro a b; simp; omega

/-- Pair keys iterate by first, then by second component (`collections.PairKeyCodec`). -/
instance {A B : Type} [DecidableEq A] [KeyOrd A] [KeyOrd B] : KeyOrd (A × B) where
  lt x y := KeyOrd.lt x.1 y.1 || (x.1 == y.1 && KeyOrd.lt x.2 y.2)
  irrefl := by intro a; simp [KeyOrd.irrefl]
  trans := by
    intro a b c h1 h2
    simp only [Bool.or_eq_true, Bool.and_eq_true, beq_iff_eq] at *
    rcases h1 with h1 | ⟨h1, h1'⟩ <;> rcases h2 with h2 | ⟨h2, h2'⟩
    · exact Or.inl (KeyOrd.trans _ _ _ h1 h2)
    · rw [← h2]; exact Or.inl h1
    · rw [h1]; exact Or.inl h2
    · exact Or.inr ⟨h1.trans h2, KeyOrd.trans _ _ _ h1' h2'⟩
  tri := by
    intro a b
    simp only [Bool.or_eq_true, Bool.and_eq_true, beq_iff_eq]
    rcases KeyOrd.tri a.1 b.1 with h | h | h
    · exact Or.inl (Or.inl h)
    · rcases KeyOrd.tri a.2 b.2 with g | g | g
      · exact Or.inl (Or.inr ⟨h, g⟩)
      · exact Or.inr (Or.inl (Prod.ext h g))
      · exact Or.inr (Or.inr (Or.inr ⟨h.symm, g⟩))
    · exact Or.inr (Or.inr (Or.inl h))

/-- A collection: entries in iteration order. -/
abbrev Coll (K V : Type) := List (K × V)

/-- `Map.Set` -/
def put {K V : Type} [DecidableEq K] [KeyOrd K] (k : K) (v : V) : Coll K V → Coll K V
  | [] => [(k, v)]
  | (k', v') :: r =>
    if KeyOrd.lt k k' then (k, v) :: (k', v') :: r
    else if k = k' then (k, v) :: r
    else (k', v') :: put k v r

/-- `Map.Get` -/
def look {K V : Type} [DecidableEq K] (k : K) (l : Coll K V) : Option V :=
  (l.find? fun x => x.1 = k).map Prod.snd

/-- The persistent collections of the module (x/evm/keeper/keeper.go:45-75); `A` addresses, `D` denoms and class ids,
`V` values, `P` parameters. -/
structure State (A D V P : Type) where
  params : Option P
  vm : Coll V V
  factory : Option A
  wrapper : Option A
  erc20s : Coll A Unit
  stores : Coll (A × A) Unit
  denomOf : Coll A D
  addrOf : Coll D A
  classUri : Coll A D
  classOf : Coll A D
  classAddr : Coll D A
  hashes : Coll Nat V

/-- `GenesisState` (proto/minievm/evm/v1/genesis.proto) -/
structure Genesis (A D V P : Type) where
  params : P
  keyValues : List (V × V)
  erc20s : List A
  erc20Stores : List (A × List A)
  denomTraces : List (D × A)
  classTraces : List (D × A × D)
  factory : A
  wrapper : A
  blockHashes : List (Nat × V)
deriving DecidableEq

variable {A D V P : Type}

/-- x/evm/keeper/genesis.go:191-207: the walk that groups the stores by account; `cur` is the entry `stores` points
at. -/
def groupAux [DecidableEq A] : Option (A × List A) → List (A × A) → List (A × List A)
  | none, [] => []
  | some g, [] => [g]
  | none, (a, s) :: r => groupAux (some (a, [s])) r
  | some (a', l), (a, s) :: r =>
    if a' = a then groupAux (some (a', l ++ [s])) r
    else (a', l) :: groupAux (some (a, [s])) r

/-- x/evm/keeper/genesis.go:222-236: one entry per class, with its URI; a missing URI panics. -/
def classTraces [DecidableEq A] (uris : Coll A D) : List (D × A) → Option (List (D × A × D))
  | [] => some []
  | (c, a) :: r => match look a uris, classTraces uris r with
    | some u, some l => some ((c, a, u) :: l)
    | _, _ => none

/-- x/evm/keeper/genesis.go:165-275 (`ExportGenesis`); `none`: panic. -/
def export_ [DecidableEq A] (s : State A D V P) : Option (Genesis A D V P) :=
  match s.params, s.factory, s.wrapper, classTraces s.classUri s.classAddr with
  | some p, some f, some w, some ct =>
    some { params := p, keyValues := s.vm, erc20s := s.erc20s.map Prod.fst,
           erc20Stores := groupAux none (s.stores.map Prod.fst), denomTraces := s.addrOf, classTraces := ct,
           factory := f, wrapper := w, blockHashes := s.hashes }
  | _, _, _, _ => none

/-- The empty module. -/
def State.empty : State A D V P := ⟨none, [], none, none, [], [], [], [], [], [], [], []⟩

/-- x/evm/keeper/genesis.go:93-163 (`InitGenesis`) on an empty chain; `boot` is `Initialize` (21-51), run when there
are no key-values. -/
def import_ [DecidableEq A] [DecidableEq D] [DecidableEq V] [KeyOrd A] [KeyOrd D] [KeyOrd V]
    (boot : State A D V P → State A D V P) (g : Genesis A D V P) : State A D V P :=
  let s0 : State A D V P := { (State.empty : State A D V P) with params := some g.params }
  let s1 : State A D V P := match g.keyValues with
    | [] => boot s0
    | _ :: _ => { s0 with factory := some g.factory, wrapper := some g.wrapper }
  let s2 : State A D V P := { s1 with vm := g.keyValues.foldl (fun m x => put x.1 x.2 m) s1.vm }
  let s3 : State A D V P := { s2 with erc20s := g.erc20s.foldl (fun m x => put x () m) s2.erc20s }
  let s4 : State A D V P := { s3 with
    stores := g.erc20Stores.foldl (fun m x => x.2.foldl (fun m y => put (x.1, y) () m) m) s3.stores }
  let s5 : State A D V P := { s4 with
    addrOf := g.denomTraces.foldl (fun m x => put x.1 x.2 m) s4.addrOf
    denomOf := g.denomTraces.foldl (fun m x => put x.2 x.1 m) s4.denomOf }
  let s6 : State A D V P := { s5 with
    classAddr := g.classTraces.foldl (fun m x => put x.1 x.2.1 m) s5.classAddr
    classOf := g.classTraces.foldl (fun m x => put x.2.1 x.1 m) s5.classOf
    classUri := g.classTraces.foldl (fun m x => put x.2.1 x.2.2 m) s5.classUri }
  { s6 with hashes := g.blockHashes.foldl (fun m x => put x.1 x.2 m) s6.hashes }

/-- x/evm/types/genesis.go:19-27 (`Validate`), run by `genesis validate-genesis` before a chain starts: `nil` is an address that is
not given, `paramsOk` is `Params.Validate` (Verif.Model.Params). -/
def validate (nil : A) [DecidableEq A] (paramsOk : P → Bool) (g : Genesis A D V P) : Bool :=
  if !g.keyValues.isEmpty && decide (g.factory = nil) then false else paramsOk g.params

/-! ### The writers of the collections -/

/-- `Map.Remove` -/
def del {K V : Type} [DecidableEq K] (k : K) (l : Coll K V) : Coll K V := l.filter fun x => decide (x.1 ≠ k)

section
variable [DecidableEq A] [DecidableEq D] [DecidableEq V] [KeyOrd A] [KeyOrd D] [KeyOrd V]

/-- x/evm/keeper/erc20.go:329-370 (`CreateERC20`) with x/evm/keeper/erc20_stores.go:81-89 (`RegisterFromFactory`): the
factory deployed `a` for the denom `d`; it writes `kvs` to the VM store. -/
def createDenom (d : D) (a : A) (kvs : List (V × V)) (s : State A D V P) : State A D V P :=
  { s with
    vm := kvs.foldl (fun m x => put x.1 x.2 m) s.vm
    erc20s := put a () s.erc20s
    denomOf := put a d s.denomOf
    addrOf := put d a s.addrOf }

/-- What a first start deploys: the addresses of factory, fee token and wrapper, and what the three deployments write
to the VM store. -/
structure Boot (A V : Type) where
  factory : A
  feeToken : A
  wrapper : A
  factoryKvs : List (V × V)
  feeKvs : List (V × V)
  wrapperKvs : List (V × V)

/-- x/evm/keeper/genesis.go:21-91 (`Initialize`); the fee denom is read from the parameters. -/
def initState (b : Boot A V) (feeDenom : D) (s : State A D V P) : State A D V P :=
  let s1 : State A D V P := { s with
    vm := b.factoryKvs.foldl (fun m x => put x.1 x.2 m) s.vm
    factory := some b.factory }
  let s2 := createDenom feeDenom b.feeToken b.feeKvs s1
  { s2 with
    vm := b.wrapperKvs.foldl (fun m x => put x.1 x.2 m) s2.vm
    wrapper := some b.wrapper }

/-- The writes to the module's collections after the start. -/
inductive Op (A D V P : Type) where
  /-- x/evm/keeper/msg_server.go (`UpdateParams`) -/
  | setParams (p : P)
  /-- x/evm/state/statedb.go: writes and removals in the VM store -/
  | vmSet (k v : V)
  | vmDel (k : V)
  /-- x/evm/keeper/erc20_stores.go:48-78 (`Register`), once it accepted -/
  | register (a : A)
  /-- x/evm/keeper/erc20_stores.go:33-46 (`RegisterStore`) -/
  | store (x a : A)
  /-- x/evm/keeper/erc20.go:298-310: `CreateERC20` for a denom that has no contract yet -/
  | denom (d : D) (a : A) (kvs : List (V × V))
  /-- x/evm/keeper/erc721.go:53-97 (`CreateOrUpdateClass`); `a`: the address a deployment would get -/
  | cls (c : D) (a : A) (uri : D)
  /-- x/evm/keeper/keeper.go:272-289 (`TrackBlockHash`), with `num` from the parameters -/
  | hash (num h : Nat) (v : V)

/-- What an operation does. -/
def apply (s : State A D V P) : Op A D V P → State A D V P
  | .setParams p => { s with params := some p }
  | .vmSet k v => { s with vm := put k v s.vm }
  | .vmDel k => { s with vm := del k s.vm }
  | .register a => { s with erc20s := put a () s.erc20s }
  | .store x a => if (look a s.erc20s).isSome then { s with stores := put (x, a) () s.stores } else s
  | .denom d a kvs => if (look d s.addrOf).isSome then s else createDenom d a kvs s
  | .cls c a uri =>
    let s1 : State A D V P := if (look c s.classAddr).isSome then s
      else { s with classOf := put a c s.classOf, classAddr := put c a s.classAddr }
    match look c s1.classAddr with
    | none => s1
    | some a' => { s1 with classUri := put a' uri s1.classUri }
  | .hash num h v => { s with hashes := put h v (if num ≠ 0 ∧ h > num then del (h - num) s.hashes else s.hashes) }

end

end Verif.Genesis
