import Verif.Model.Messages
/-
The command line of the node (x/evm/client/cli): from arguments to the message that is signed and sent. The text of a file is
given by `some`, a file that cannot be read by `none`. Simplification: the key given by `--from` has an address; the encoding of
the address as text does not fail.
-/
namespace Verif.Cli
open Verif Verif.Text Verif.TxUtils

/-- x/evm/client/cli/tx.go:200-212 (`readContractBinFile`): the file is one hex string, and nothing else. -/
def readContractBinFile (file : Option Str) : Option Bytes := file.bind hexDec

/-- cosmossdk.io/math `NewIntFromBigInt` (outside /repo, by contract): panics beyond 256 bits. -/
def newInt (v : Int) : Option Int := if v.natAbs < 2 ^ 256 then some v else none

/-- x/evm/client/cli/tx.go:214-242 (`prepareContractCreation`), with `NewIntFromBigInt` of its callers (70, 122);
`none`: the command fails. -/
def prepareContractCreation (file : Option Str) (input value : Str) : Option (Bytes × Int) :=
  (readContractBinFile file).bind fun code => (decode0x input).bind fun arg => (parseInt value).bind fun v =>
    (newInt v).map fun v => (code ++ arg, v)

/-- x/evm/client/cli/tx.go:43-87 (`CreateCmd`): `create [bin-file] --input --value`. -/
def createMsg {K : Type} (e : Env K) (sender : Bytes) (file : Option Str) (input value : Str) : Option Msg :=
  (prepareContractCreation file input value).map fun p => .create (e.bech sender) (encode0x p.1) p.2 []

/-- `strconv.ParseUint(s, 10, 64)` -/
def parseUint (s : Str) : Option Nat := (parseNat s).bind fun n => if n < 18446744073709551616 then some n else none

/-- x/evm/client/cli/tx.go:89-139 (`Create2Cmd`): `create2 [salt] [bin-file] --input --value`. -/
def create2Msg {K : Type} (e : Env K) (sender : Bytes) (salt : Str) (file : Option Str) (input value : Str) : Option Msg :=
  (parseUint salt).bind fun n =>
    (prepareContractCreation file input value).map fun p => .create2 (e.bech sender) (encode0x p.1) n p.2 []

/-- x/evm/client/cli/tx.go:141-198 (`CallCmd`): `call [contract-addr] [input] --value`; address and input are checked and passed on
as they were written. -/
def callMsg {K : Type} (e : Env K) (sender : Bytes) (contract input value : Str) : Option Msg :=
  (contractAddressFromString e contract).bind fun _ => (decode0x input).bind fun _ => (parseInt value).bind fun v =>
    (newInt v).map fun v => .call (e.bech sender) contract input v []

end Verif.Cli
