import Verif.Model.Bank
/-
Paged listings: the balances of an account (x/evm/keeper/erc20.go:175-200, `GetPaginatedBalances`, behind the bank queries
`AllBalances` and `SpendableBalances`, x/bank/keeper/grpc_query.go:46-88) and the supplies of all tokens (erc20.go:202-219,
`GetPaginatedSupply`, behind `TotalSupply`, grpc_query.go:114-122). cosmos-sdk's `query.CollectionPaginate` by contract.
-/
namespace Verif.Paging
open Verif Verif.Text Verif.Denom Verif.Tokens Verif.Bank

/-- Order of the keys of a store: bytewise (cosmos-sdk stores iterate in this order). -/
def blt : Bytes → Bytes → Bool
  | _, [] => false
  | [], _ :: _ => true
  | x :: xs, y :: ys => decide (x < y) || (x == y && blt xs ys)

/-- Insert a key where it belongs. -/
def place {α : Type} (lt : α → α → Bool) (k : α) : List α → List α
  | [] => [k]
  | x :: rest => if lt x k then x :: place lt k rest else k :: x :: rest

/-- A list in order. -/
def inOrder {α : Type} (lt : α → α → Bool) (l : List α) : List α := l.foldr (place lt) []

/-- cosmos-sdk `query.PageRequest`; an empty key is no key. -/
structure Req where
  key : Bytes
  offset : Nat
  limit : Nat
  countTotal : Bool
  reverse : Bool

/-- The items of a page with `query.PageResponse`; an empty next key: no more pages. -/
structure Res (α : Type) where
  items : List α
  next : Bytes
  total : Nat
deriving DecidableEq

/-- The order in which a request iterates. -/
def before (reverse : Bool) (x y : Bytes) : Bool := if reverse then blt y x else blt x y

/-- cosmos-sdk types/query `CollectionPaginate`, by contract, on the keys of a store in ascending order, all of one length
(what `reverse` relies on): no limit means 100 with counting; a key and an offset exclude each other; with a key, iteration
starts at it; the next key is that of the first item not shown; an offset beyond the end gives an empty page. `f` makes the
item of a key. -/
def page {α : Type} (f : Bytes → α) (keys : List Bytes) (q : Req) : Option (Res α) :=
  let limit := if q.limit = 0 then 100 else q.limit
  let order := if q.reverse then keys.reverse else keys
  if q.key ≠ [] then
    if 0 < q.offset then none
    else
      let rest := order.filter fun x => !before q.reverse x q.key
      some ⟨(rest.take limit).map f, (rest.drop limit).head?.getD [], 0⟩
  else if keys.length < q.offset then some ⟨[], [], 0⟩
  else
    let rest := order.drop q.offset
    some ⟨(rest.take limit).map f, (rest.drop limit).head?.getD [],
      if q.countTotal || q.limit = 0 then keys.length else 0⟩

/-- The keys below the account's prefix of `ERC20Stores`, in the store's order: contract addresses
(x/evm/keeper/erc20.go:194-197). -/
def storeKeys (l : List Addr) : List Bytes := inOrder blt (l.map Addr.bytes)

/-- The entries of one page of balances, before they are sorted by denom: contract and balance (erc20.go:181-193). -/
def holdingsPage (w : World) (a : Addr) (q : Req) : Option (Res (Addr × Nat)) :=
  page (fun k => (bytesToAddress k, balanceOf w (bytesToAddress k) a)) (storeKeys (w.stores a)) q

/-- Order of texts (Go's string comparison). -/
def slt : Str → Str → Bool
  | _, [] => false
  | [], _ :: _ => true
  | x :: xs, y :: ys => decide (x < y) || (x == y && slt xs ys)

/-- cosmos-sdk `Coins.Sort`: by denom. -/
def sortCoins (cs : Coins) : Coins := inOrder (fun x y => slt x.1 y.1) cs

/-- x/evm/keeper/erc20.go:175-200 (`GetPaginatedBalances`): the entries of a page as coins, zero balances included, sorted
by denom within the page (199). -/
def balancesPage (mask : Str → List Bool) (w : World) (a : Addr) (q : Req) : Option (Res (Str × Nat)) :=
  (holdingsPage w a q).map fun r =>
    { items := sortCoins (r.items.map fun x => (contractToDenom mask w.maps x.1, x.2)), next := r.next, total := r.total }

/-- The entries of one page of supplies (erc20.go:203-216); `regs`: the registered contracts. -/
def suppliesPage (w : World) (regs : List Addr) (q : Req) : Option (Res (Addr × Nat)) :=
  page (fun k => (bytesToAddress k, supplyOf w (bytesToAddress k))) (storeKeys regs) q

/-- x/evm/keeper/erc20.go:202-219 (`GetPaginatedSupply`) with x/bank/keeper/keeper.go:32-35
(`GetPaginatedTotalSupply`, documented as ignoring zero coins) -/
def supplyPage (mask : Str → List Bool) (w : World) (regs : List Addr) (q : Req) : Option (Res (Str × Nat)) :=
  (suppliesPage w regs q).map fun r =>
    { items := sortCoins (r.items.map fun x => (contractToDenom mask w.maps x.1, x.2)), next := r.next, total := r.total }

end Verif.Paging
