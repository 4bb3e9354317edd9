import Verif.Model.Indexer
/-
The `cosmos_` namespace: translation between the two hashes of a transaction.
-/
namespace Verif.Translate
open Verif Verif.Indexer

variable {T E : Type}

/-- jsonrpc/backend/cosmos.go:11-23, jsonrpc/namespaces/cosmos/api.go:30-40, indexer/reader.go:91-93
(`cosmos_cosmosTxHashByTxHash`): all zero if there is no entry. Simplification: the query context is there (the indexer's
collections do not use it). -/
def cosmosTxHashByTxHash (ix : Index E) (h : Hash) : Bytes := (ix.toCos h).getD (List.replicate 32 0)

/-- jsonrpc/backend/cosmos.go:26-38, jsonrpc/namespaces/cosmos/api.go:42-44, indexer/reader.go:96-103
(`cosmos_txHashByCosmosTxHash`). -/
def txHashByCosmosTxHash (ix : Index E) (c : Bytes) : Hash := (ix.ofCos c).getD Hash.zero

end Verif.Translate
