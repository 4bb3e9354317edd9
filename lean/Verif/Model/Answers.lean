import Verif.Model.Exec
import Verif.Model.Denom
import Verif.Model.Identity
import Verif.Model.Tokens
/-
What the Cosmos precompile and the ERC20 registry precompile answer (x/evm/precompiles/cosmos/contract.go,
x/evm/precompiles/erc20_registry/contract.go), after ABI decoding and with enough gas (gas: Verif.Model.Exec).
-/
namespace Verif.Answers
open Verif Verif.Identity Verif.Denom Verif.Exec

/-- The address codec (bech32 of cosmos-sdk, outside /repo). -/
structure Codec where
  enc : Bytes → Str
  dec : Str → Option Bytes

/-- Its contract: addresses of 1 to 255 bytes can be read back, and there is no other address. -/
structure Codec.Ok (c : Codec) : Prop where
  back : ∀ b, 0 < b.length → b.length ≤ 255 → c.dec (c.enc b) = some b

/-- What the precompile can look at. -/
structure Ctx where
  codec : Codec
  /-- accounts at 20-byte addresses -/
  accts : Accts
  /-- is there a module account at this longer address? -/
  longModule : Bytes → Bool
  /-- bank's `BlockedAddr` -/
  blocked : Bytes → Bool
  maps : Maps
  /-- upper-case letters of the checksummed hexadecimal address -/
  mask : Str → List Bool

/-- contract.go:73-87 (`originAddress`). (The original address of a shorthand account is kept as text and read back.) -/
def origin (m : Accts) (a : Addr) : Bytes :=
  match m a with
  | some (.shorthand o _) => o
  | _ => a.bytes

/-- `account.(sdk.ModuleAccountI)` for the account at an address -/
def isModuleAt (c : Ctx) (b : Bytes) : Bool :=
  if b.length = 20 then c.accts (bytesToAddress b) == some .module else c.longModule b

/-- The calls. -/
inductive Call (M : Type)
  | isBlocked (a : Addr)
  | isModule (a : Addr)
  | toCosmos (a : Addr)
  | toEvm (s : Str)
  | toDenom (a : Addr)
  | toErc20 (d : Str)
  | execute (m : M)

/-- The answers. -/
inductive Ans
  | bool (b : Bool)
  | text (s : Str)
  | addr (a : Addr)
deriving DecidableEq

/-- contract.go:119-333 (`ExtendedRun`), the methods that change or read addresses, denoms and accounts. `none`: the call fails;
otherwise the answer and the messages that are now scheduled. -/
def answer {M : Type} (signers : M → List Bytes) (c : Ctx) (readOnly : Bool) (caller : Addr) : Call M → Option (Ans × List M)
  | .isBlocked a => some (.bool (c.blocked (origin c.accts a)), [])
  | .isModule a => some (.bool (isModuleAt c (origin c.accts a)), [])
  | .toCosmos a => some (.text (c.codec.enc a.bytes), [])
  | .toEvm s => match c.codec.dec s with
    | none => none
    | some b => if b.length = 20 then some (.addr (bytesToAddress b), []) else none
  | .toDenom a => some (.text (contractToDenom c.mask c.maps a), [])
  | .toErc20 d => (denomToContract c.maps d).map fun a => (.addr a, [])
  | .execute m => if accepts signers (origin c.accts) readOnly caller m then some (.bool true, [m]) else none

/-- erc20_registry/contract.go:112-131 (`register_erc20_store`) called by contract `caller`: the answer and the new state. -/
def registerStoreCall (w : Tokens.World) (caller account : Addr) : Bool × Tokens.World :=
  (true, Tokens.registerStore w account caller)

/-- erc20_registry/contract.go:132-149 (`is_erc20_store_registered`) -/
def isStoreRegistered (w : Tokens.World) (caller account : Addr) : Bool :=
  decide (caller ∈ w.stores account)

end Verif.Answers
