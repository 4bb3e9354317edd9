import Verif.Model.Indexer
/-
Model of the `mrollback` command (cmd/minitiad/rollback.go) as far as JSON-RPC sees it: the chain's blocks and the index.
Crashes between commit and flush are C59 and left out here: a block that is executed is indexed and flushed.
-/
namespace Verif.Rollback
open Verif Verif.Indexer

/-- A node: the blocks of its chain, and the index. -/
structure Chain (E : Type) where
  blocks : List Block
  ix : Index E

variable {T E : Type}

/-- A new node. -/
def Chain.start : Chain E := ⟨[], Index.empty⟩

/-- The next block is executed, committed and indexed: indexer/abci.go:24-217. -/
def Chain.exec (env : Env T E) (s : Chain E) (b : Block) : Chain E := ⟨s.blocks ++ [b], (index env s.ix b).2⟩

/-- cmd/minitiad/rollback.go:30-61: heights below 1 (rollback.go:36-38) and heights that are not below the current one
(rollback.go:46-48) are refused; CometBFT's state and the multistore go back to the height (rollback.go:51-58, by contract:
`RollbackStateTo`, `RollbackToVersion`). The EVM indexer's own database ("eth_index", cmd/minitiad/root.go:294-299, indexer/indexer.go:90-95) is not
touched. Whether the old blocks are executed again (without `--hard`) or others follow is up to what is executed next. -/
def Chain.rollback (s : Chain E) (height : Int) : Option (Chain E) :=
  if height ≤ 0 then none
  else if (s.blocks.length : Int) ≤ height then none
  else some ⟨s.blocks.take height.toNat, s.ix⟩

end Verif.Rollback
