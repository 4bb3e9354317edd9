import Verif.Model.LogStream
import Verif.Model.LogFilter
/-
Specification for C99: what a range query answers, without goroutines.
-/
namespace Verif.LogStream.Spec
open Verif.LogStream

variable {D H L E : Type}

/-- The logs of `k` blocks from block `b` on, and the error that stopped the walk, if any. A missing header ends it. -/
def answer (be : Backend D H L E) (db : D) : Nat → Nat → List L × Option E
  | 0, _ => ([], none)
  | k + 1, b => match be.header db b with
    | .error e => ([], some e)
    | .ok none => ([], none)
    | .ok (some hd) => match be.logs db hd with
      | .error e => ([], some e)
      | .ok l => (l ++ (answer be db k (b + 1)).1, (answer be db k (b + 1)).2)

/-- Two states of the index say the same about the blocks of a range. -/
def Same (be : Backend D H L E) (b e : Nat) (x y : D) : Prop :=
  (∀ n, b ≤ n → n ≤ e → be.header y n = be.header x n) ∧
  ∀ n hd, b ≤ n → n ≤ e → be.header x n = .ok (some hd) → be.logs y hd = be.logs x hd

/-- An endless run. -/
def Run (be : Backend D H L E) (end_ : Nat) (R : D → D → Prop) (f : Nat → Sys D H L E) : Prop :=
  ∀ n, Step be end_ (f n) (f (n + 1)) ∨ Around R (f n) (f (n + 1))

open Verif.LogFilter Verif.Indexer Verif.BlockTag in
/-- The backend of a node, as `LogFilter` (C40) models it. -/
def nodeBackend {T X S : Type} (bits : Bytes → List Nat) (env : Env T X) (c : Crit) : Backend (Node X S) Header Log Unit where
  header := fun n b => match getHeaderByNumber n n b with
    | .err => .error ()
    | .null => .ok none
    | .val hd => .ok (some hd)
  logs := fun n hd => match blockLogs bits env n.ix c hd with
    | none => .error ()
    | some l => .ok l
  ctxErr := ()

end Verif.LogStream.Spec
