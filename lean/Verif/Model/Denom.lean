import Verif.Model.Text
/-
Model of the correspondence between Cosmos denoms and ERC20 contracts: x/evm/types/denom.go and the two maps
kept by x/evm/keeper/erc20.go.
-/
namespace Verif.Denom
open Verif Verif.Text

/-- The two collections `ERC20ContractAddrsByDenom` and `ERC20DenomsByContractAddr`. -/
structure Maps where
  toAddr : Str → Option Addr
  toDenom : Addr → Option Str

/-- Empty collections. -/
def Maps.empty : Maps := ⟨fun _ => none, fun _ => none⟩

/-- x/evm/types/denom.go:12 -/
def evmPrefix : Str := ['e', 'v', 'm', '/']

/-- x/evm/types/denom.go:43-45 (`IsERC20Denom`) -/
def isERC20Denom (d : Str) : Bool := evmPrefix.isPrefixOf d

/-- x/evm/types/denom.go:19-30 (`DenomToContractAddr`); `none` is an error (invalid denom or not found). -/
def denomToContract (m : Maps) (d : Str) : Option Addr :=
  if isERC20Denom d then
    let s := d.drop 4
    if isHexAddress s then some (hexToAddress s) else none
  else m.toAddr d

/-- `strings.TrimPrefix(contractAddr.Hex(), "0x")` -/
def trimHex (mask : Str → List Bool) (a : Addr) : Str := strip0x (addrHex mask a)

/-- x/evm/types/denom.go:32-41 (`ContractAddrToDenom`) -/
def contractToDenom (mask : Str → List Bool) (m : Maps) (a : Addr) : Str :=
  match m.toDenom a with
  | some d => d
  | none => evmPrefix ++ trimHex mask a

/-- x/evm/keeper/erc20.go:351-358: the end of `CreateERC20`, where `a` is the address of the contract the factory
just deployed. -/
def createERC20 (m : Maps) (d : Str) (a : Addr) : Maps :=
  ⟨fun x => if x = d then some a else m.toAddr x, fun x => if x = a then some d else m.toDenom x⟩

/-- x/evm/keeper/erc20.go:293-307: what minting a coin of denom `d` does to the maps; `a` is the address the
factory would deploy to. `none`: refused. -/
def mintMaps (m : Maps) (d : Str) (a : Addr) : Option Maps :=
  if isERC20Denom d then none
  else match m.toAddr d with
    | some _ => some m
    | none => some (createERC20 m d a)

end Verif.Denom
