import Verif.Model.Paging
/-
What a client does to see a whole listing, independent of how pages are made.
-/
namespace Verif.Paging.Spec
open Verif Verif.Paging

/-- A client that follows the next keys: it asks for a page, shows its items, and goes on with the next key until there is
none. The chain may change between its requests (`ask i` answers the `i`-th), and so may its limit. `Crawl … i key pages`:
starting with request number `i` and key `key`, it sees `pages`. -/
inductive Crawl {α : Type} (ask : Nat → Req → Option (Res α)) (limit : Nat → Nat) (count reverse : Bool) :
    Nat → Bytes → List (List α) → Prop where
  | last (i : Nat) (key : Bytes) (r : Res α) (h : ask i ⟨key, 0, limit i, count, reverse⟩ = some r) (hn : r.next = []) :
      Crawl ask limit count reverse i key [r.items]
  | more (i : Nat) (key : Bytes) (r : Res α) (pages : List (List α))
      (h : ask i ⟨key, 0, limit i, count, reverse⟩ = some r) (hn : r.next ≠ [])
      (rest : Crawl ask limit count reverse (i + 1) r.next pages) : Crawl ask limit count reverse i key (r.items :: pages)

end Verif.Paging.Spec
