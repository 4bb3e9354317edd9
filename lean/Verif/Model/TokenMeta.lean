import Verif.Model.Text
/-
Model of the metadata of a token as the chain derives it from the contract: x/evm/keeper/erc20.go:119-172 (`GetMetadata`),
shown by the bank's `DenomMetadata` query (x/bank/keeper/grpc_query.go:178-203) when governance has set none.
-/
namespace Verif.TokenMeta
open Verif Verif.Text

/-- cosmos-sdk x/bank/types `DenomUnit` (aliases are never set here). -/
structure Unit where
  denom : Str
  exponent : Nat
deriving DecidableEq

/-- cosmos-sdk x/bank/types `Metadata`, the fields `GetMetadata` sets. -/
structure Meta where
  name : Str
  symbol : Str
  base : Str
  display : Str
  units : List Unit
deriving DecidableEq

/-- The answers of the contract to `name`, `symbol` and `decimals` (erc20.go:452-534); `none`: an error, or an answer that
cannot be decoded. -/
structure Contract where
  name : Option Str
  symbol : Option Str
  decimals : Option UInt8

/-- x/evm/keeper/erc20.go:149-163: a denom without a slash that begins with u or m, of a token without decimals, gets a
display unit. -/
def displayUnit (denom : Str) (decimals : UInt8) : Option Unit :=
  if decimals = 0 then
    if !denom.contains '/' && denom.head? = some 'u' then some ⟨denom.drop 1, 6⟩
    else if !denom.contains '/' && denom.head? = some 'm' then some ⟨denom.drop 1, 3⟩
    else none
  else none

/-- x/evm/keeper/erc20.go:119-172 (`GetMetadata`), for a denom that names a contract; `none`: an error. -/
def getMetadata (c : Contract) (denom : Str) : Option Meta :=
  c.name.bind fun name => c.symbol.bind fun symbol => c.decimals.bind fun decimals =>
    match displayUnit denom decimals with
    | some u => some ⟨name, symbol, denom, u.denom, [⟨denom, 0⟩, u]⟩
    | none => some ⟨name, symbol, denom, denom, [⟨denom, 0⟩]⟩

end Verif.TokenMeta
