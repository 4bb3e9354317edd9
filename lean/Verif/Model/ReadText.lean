import Verif.Model.TxUtils
import Verif.Model.Fees
/-
Model of the text layer of reads: eth_getStorageAt and eth_getCode down to the query server (jsonrpc/namespaces/eth/api.go,
jsonrpc/backend/eth.go, x/evm/keeper/query_server.go), and net_version (jsonrpc/backend/net.go). Which block is meant is
C51; here the state is fixed.
-/
namespace Verif.ReadText
open Verif Verif.Text Verif.TxUtils

/-- Contract storage and code of the state that is read (`StateDB.GetState`, `StateDB.GetCode`: C03, C04, C70). -/
structure Contracts where
  storage : Addr → Hash → Hash
  code : Addr → Bytes

variable {K : Type}

/-- x/evm/keeper/query_server.go:108-123 (`Code`) -/
def queryCode (e : Env K) (w : Contracts) (contract : Str) : Option Str :=
  (contractAddressFromString e contract).map fun a => encode0x (w.code a)

/-- x/evm/keeper/query_server.go:126-146 (`State`) -/
def queryState (e : Env K) (w : Contracts) (contract key : Str) : Option Str :=
  match contractAddressFromString e contract with
  | none => none
  | some a => match decode0x key with
    | none => none
    | some k => some (hashHex (w.storage a (bytesToHash k)))

/-- jsonrpc/namespaces/eth/api.go:454-469 (`decodeHash`) -/
def decodeHash (s : Str) : Option Hash :=
  let s := strip0x s
  let s := if s.length % 2 = 1 then '0' :: s else s
  match hexDec s with
  | none => none
  | some b => if b.length > 32 then none else some (bytesToHash b)

/-- jsonrpc/backend/eth.go:112-121 (`GetStorageAt`). `mask`: the capital letters of `Address.Hex`. `none`: error
(`hexutil.MustDecode` would panic). -/
def backendStorageAt (e : Env K) (mask : Str → List Bool) (w : Contracts) (a : Addr) (key : Hash) : Option Bytes :=
  match queryState e w (addrHex mask a) (hashHex key) with
  | none => none
  | some v => decode0x v

/-- jsonrpc/namespaces/eth/api.go:249-256 (`GetStorageAt`) -/
def getStorageAt (e : Env K) (mask : Str → List Bool) (w : Contracts) (a : Addr) (key : Str) : Option Bytes :=
  match decodeHash key with
  | none => none
  | some k => backendStorageAt e mask w a k

/-- jsonrpc/namespaces/eth/api.go:259-262, jsonrpc/backend/eth.go:135-143 (`GetCode`) -/
def getCode (e : Env K) (mask : Str → List Bool) (w : Contracts) (a : Addr) : Option Bytes :=
  match queryCode e w (addrHex mask a) with
  | none => none
  | some v => decode0x v

/-- The characters after the last `-`: the last item of `strings.Split` (jsonrpc/backend/net.go:20-21). -/
def lastItem : Str → Str → Str
  | acc, [] => acc
  | acc, c :: s => if c = '-' then lastItem [] s else lastItem (acc ++ [c]) s

/-- `strconv.Atoi`: optional sign, digits, within int64. -/
def atoi (s : Str) : Option Int :=
  match parseInt s with
  | none => none
  | some n => if -9223372036854775808 ≤ n ∧ n < 9223372036854775808 then some n else none

/-- jsonrpc/backend/net.go:13-28 (`Version`), jsonrpc/namespaces/net/api.go:43-50 -/
def netVersion (chainId : Str) : Str :=
  let v := lastItem [] chainId
  match atoi v with
  | none => ['1']
  | some _ => v

end Verif.ReadText
