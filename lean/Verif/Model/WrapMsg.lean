import Verif.Model.BigText
/-
Model of the text the ERC20 wrapper sends to `execute_cosmos`: x/evm/contracts/util/Strings.sol,
`ERC20Wrapper._ibc_transfer` (x/evm/contracts/erc20_wrapper/ERC20Wrapper.sol:162-202), and of what the cosmos
precompile makes of it (x/evm/precompiles/cosmos/contract.go:208-246). The JSON decoder is gogoproto's `jsonpb`
(`codec.UnmarshalInterfaceJSON`), outside /repo, modelled from its documented behaviour. Solidity strings are
character lists (invalid UTF-8 is not modelled).
-/
namespace Verif.WrapMsg
open Verif Verif.Text

/-! ### Strings.sol -/

/-- One line `if (value >= 10 ** k) { value /= 10 ** k; result += k; }` of Strings.sol:58-81, on `(value, result)`. -/
def logStep (k : Nat) (p : Nat × Nat) : Nat × Nat := if 10 ^ k ≤ p.1 then (p.1 / 10 ^ k, p.2 + k) else p

/-- Strings.sol:55-87 (`log10`) -/
def log10 (value : Nat) : Nat :=
  let p := logStep 2 (logStep 4 (logStep 8 (logStep 16 (logStep 32 (logStep 64 (value, 0))))))
  if 10 ≤ p.1 then p.2 + 1 else p.2

/-- Strings.sol:43-50: the loop, from the end of the buffer down; `p` bytes of the buffer (zeros) are still before the
pointer, `tail` is what is written behind it. `none`: the loop writes before the buffer. -/
def digitLoop : Nat → Nat → Str → Option Str
  | 0, _, _ => none
  | p + 1, v, tail =>
    if v / 10 = 0 then some (List.replicate p (Char.ofNat 0) ++ hexDigit (v % 10) :: tail)
    else digitLoop p (v / 10) (hexDigit (v % 10) :: tail)

/-- Strings.sol:35-53 (`toString`) -/
def decText (value : Nat) : Option Str := digitLoop (log10 value + 1) value []

/-- Strings.sol:21-24: the loop of `toHexString`, `n` digits to go; also the rest of the value. -/
def hexLoop : Nat → Nat → Str → Str × Nat
  | 0, v, tail => (tail, v)
  | n + 1, v, tail => hexLoop n (v / 16) (hexDigit (v % 16) :: tail)

/-- Strings.sol:13-29 (`toHexString(value, length)`) -/
def toHexString (value length : Nat) : Option Str :=
  let r := hexLoop (2 * length) value []
  if r.2 ≠ 0 then none else some ('0' :: 'x' :: r.1)

/-- Strings.sol:31-33 (`toHexString(address)`) -/
def addrToHexString (a : Addr) : Option Str := toHexString (fromBE a.bytes) 20

/-! ### The message -/

/-- What `_ibc_transfer` reads: its arguments, the denom of the wrapped token (`to_denom`), the bech32 text of the
wrapper's own address (`to_cosmos_address`), the callback id and the address. -/
structure Args where
  channel : Str
  denom : Str
  amount : Nat
  timeout : Nat
  receiver : Str
  selfText : Str
  callBackId : Nat
  self : Addr

/-- The text up to the receiver, ERC20Wrapper.sol:172-186. -/
def head (a : Args) (amount : Str) : Str :=
  "{\"@type\": \"/ibc.applications.transfer.v1.MsgTransfer\",\"source_port\": \"transfer\",\"source_channel\": \"".toList
    ++ a.channel ++ "\",\"token\": { \"denom\": \"".toList ++ a.denom ++ "\",\"amount\": \"".toList ++ amount
    ++ "\"},\"sender\": \"".toList ++ a.selfText ++ "\",\"receiver\": \"".toList

/-- The text behind the receiver, ERC20Wrapper.sol:188-199. -/
def tail (timeout id self : Str) : Str :=
  "\",\"timeout_height\": {\"revision_number\": \"0\",\"revision_height\": \"0\"},\"timeout_timestamp\": \"".toList
    ++ timeout ++ "\",\"memo\": \"\",\"async_callback\": {\"id\": \"".toList ++ id
    ++ "\",\"contract_address\": \"".toList ++ self ++ "\"}}".toList

/-- ERC20Wrapper.sol:162-202 (`_ibc_transfer`); `none` if a conversion of Strings.sol reverts or misbehaves. -/
def ibcTransfer (a : Args) : Option Str :=
  (decText a.amount).bind fun am => (decText a.timeout).bind fun t => (decText a.callBackId).bind fun i =>
    (addrToHexString a.self).map fun s => head a am ++ (a.receiver ++ tail t i s)

/-! ### JSON -/

/-- JSON tokens; `word` is an unquoted run of letters, digits, `+`, `-`, `.`. -/
inductive Tok where
  | lbrace | rbrace | lbrack | rbrack | colon | comma
  | str (s : Str)
  | word (s : Str)
deriving DecidableEq

/-- Where the scanner is: outside a string, in a string, after a backslash, in `\uXXXX`, in a word. -/
inductive Mode where
  | out
  | str (acc : Str)
  | esc (acc : Str)
  | uni (acc : Str) (n v : Nat)
  | word (acc : Str)
deriving DecidableEq

/-- Characters of numbers and of `true`, `false`, `null`. -/
def wordChar (c : Char) : Bool := c.isAlphanum || c == '+' || c == '-' || c == '.'

/-- The scanner outside a string. -/
def scanOut (c : Char) : Option (Mode × List Tok) :=
  if c = ' ' ∨ c = '\n' ∨ c = '\t' ∨ c = '\r' then some (.out, [])
  else if c = '"' then some (.str [], [])
  else if c = '{' then some (.out, [.lbrace])
  else if c = '}' then some (.out, [.rbrace])
  else if c = '[' then some (.out, [.lbrack])
  else if c = ']' then some (.out, [.rbrack])
  else if c = ':' then some (.out, [.colon])
  else if c = ',' then some (.out, [.comma])
  else if wordChar c then some (.word [c], [])
  else none

/-- The character an escape stands for. -/
def escChar (c : Char) : Option Char :=
  if c = '"' ∨ c = '\\' ∨ c = '/' then some c
  else if c = 'b' then some (Char.ofNat 8) else if c = 'f' then some (Char.ofNat 12)
  else if c = 'n' then some '\n' else if c = 'r' then some '\r' else if c = 't' then some '\t'
  else none

/-- The scanner (encoding/json), one character. -/
def scan : Mode → Char → Option (Mode × List Tok)
  | .out, c => scanOut c
  | .word w, c =>
    if wordChar c then some (.word (w ++ [c]), [])
    else (scanOut c).map fun r => (r.1, .word w :: r.2)
  | .str acc, c =>
    if c = '"' then some (.out, [.str acc])
    else if c = '\\' then some (.esc acc, [])
    else if c.toNat < 32 then none
    else some (.str (acc ++ [c]), [])
  | .esc acc, c =>
    if c = 'u' then some (.uni acc 0 0, [])
    else (escChar c).map fun d => (.str (acc ++ [d]), [])
  | .uni acc n v, c =>
    (hexVal c).map fun d => if n = 3 then (.str (acc ++ [Char.ofNat (v * 16 + d)]), []) else (.uni acc (n + 1) (v * 16 + d), [])

/-- JSON values; numbers, booleans and null are kept as text. -/
inductive Json where
  | str (s : Str)
  | lit (s : Str)
  | obj (ms : List (Str × Json))
  | arr (vs : List Json)

/-- One state of the automaton for JSON numbers. -/
def numStep (q : Nat) (c : Char) : Nat :=
  let d := c.isDigit
  match q with
  | 0 => if c = '-' then 1 else if c = '0' then 2 else if d then 3 else 9
  | 1 => if c = '0' then 2 else if d then 3 else 9
  | 2 => if c = '.' then 4 else if c = 'e' ∨ c = 'E' then 6 else 9
  | 3 => if d then 3 else if c = '.' then 4 else if c = 'e' ∨ c = 'E' then 6 else 9
  | 4 => if d then 5 else 9
  | 5 => if d then 5 else if c = 'e' ∨ c = 'E' then 6 else 9
  | 6 => if d then 8 else if c = '+' ∨ c = '-' then 7 else 9
  | 7 => if d then 8 else 9
  | 8 => if d then 8 else 9
  | _ => 9

/-- A word that is a JSON value. -/
def isLit (w : Str) : Bool :=
  w == "true".toList || w == "false".toList || w == "null".toList ||
    [2, 3, 5, 8].contains (w.foldl numStep 0)

/-- An open container: the members read so far and the current key, or the elements read so far. -/
inductive Frame where
  | obj (ms : List (Str × Json)) (key : Str)
  | arr (vs : List Json)

/-- What the parser waits for. -/
inductive Expect where
  | value | valueOrClose | keyOrClose | key | colon | commaOrClose
  | done (v : Json)

/-- A complete value is put where it belongs. -/
def give (v : Json) : List Frame → List Frame × Expect
  | [] => ([], .done v)
  | .obj ms k :: r => (.obj (ms ++ [(k, v)]) [] :: r, .commaOrClose)
  | .arr vs :: r => (.arr (vs ++ [v]) :: r, .commaOrClose)

/-- A token where a value is expected. -/
def startValue (st : List Frame) : Tok → Option (List Frame × Expect)
  | .str s => some (give (.str s) st)
  | .word w => if isLit w then some (give (.lit w) st) else none
  | .lbrace => some (.obj [] [] :: st, .keyOrClose)
  | .lbrack => some (.arr [] :: st, .valueOrClose)
  | _ => none

/-- A key. -/
def readKey (st : List Frame) (k : Str) : Option (List Frame × Expect) :=
  match st with
  | .obj ms _ :: r => some (.obj ms k :: r, .colon)
  | _ => none

/-- `}` or `]` -/
def close (st : List Frame) : Tok → Option (List Frame × Expect)
  | .rbrace => match st with
    | .obj ms _ :: r => some (give (.obj ms) r)
    | _ => none
  | .rbrack => match st with
    | .arr vs :: r => some (give (.arr vs) r)
    | _ => none
  | _ => none

/-- `,` between members or elements. -/
def next (st : List Frame) : Option (List Frame × Expect) :=
  match st with
  | .obj ms k :: r => some (.obj ms k :: r, .key)
  | .arr vs :: r => some (.arr vs :: r, .value)
  | [] => none

/-- The parser, one token. -/
def step (p : List Frame × Expect) (t : Tok) : Option (List Frame × Expect) :=
  match p.2 with
  | .value => startValue p.1 t
  | .valueOrClose => if t = .rbrack then close p.1 t else startValue p.1 t
  | .keyOrClose => match t with
    | .str k => readKey p.1 k
    | .rbrace => close p.1 t
    | _ => none
  | .key => match t with
    | .str k => readKey p.1 k
    | _ => none
  | .colon => if t = .colon then some (p.1, .value) else none
  | .commaOrClose => if t = .comma then next p.1 else close p.1 t
  | .done _ => none

/-- The parser on the tokens of one character. -/
def steps (p : List Frame × Expect) : List Tok → Option (List Frame × Expect)
  | [] => some p
  | t :: ts => (step p t).bind fun q => steps q ts

/-- The first JSON value of a stream, from a scanner and parser state (`json.Decoder.Decode`, used by
`jsonpb.Unmarshaler.Unmarshal`): whatever follows a complete value is not read. -/
def firstFrom : Mode → List Frame × Expect → Str → Option Json
  | _, _, [] => none
  | m, p, c :: cs =>
    match scan m c with
    | none => none
    | some (m', ts) =>
      match steps p ts with
      | none => none
      | some (st, .done v) => if st.isEmpty then some v else none
      | some q => firstFrom m' q cs

/-- The first JSON value of a text. -/
def first (s : Str) : Option Json := firstFrom .out ([], .value) s

/-! ### The decoder -/

/-- A field of a decoded object (`map[string]json.RawMessage`): of several members with one name the last counts. -/
def field (ms : List (Str × Json)) (k : Str) : Option Json :=
  match (ms.filter fun m => m.1 = k).getLast? with
  | none => none
  | some m => some m.2

/-- `jsonpb` accepts the proto name and the camel-case name of a field, and prefers the latter. -/
def field2 (ms : List (Str × Json)) (k camel : String) : Option Json :=
  match field ms camel.toList with
  | some v => some v
  | none => field ms k.toList

/-- A string field: absent or `null` is empty, anything else but a string is an error. -/
def strField : Option Json → Option Str
  | none => some []
  | some (.str s) => some s
  | some (.lit w) => if w = "null".toList then some [] else none
  | some _ => none

/-- No member has a name outside the list; `unknownOk` is `AllowUnknownFields`. -/
def known (unknownOk : Bool) (ms : List (Str × Json)) (names : List String) : Bool :=
  unknownOk || ms.all fun m => names.any fun n => n.toList = m.1

/-- A decoded `MsgTransfer` (ibc.applications.transfer.v1), without the timeout height. -/
structure Transfer where
  port : Str
  channel : Str
  denom : Str
  amount : Int
  sender : Str
  receiver : Str
  timeout : Nat
  memo : Str
deriving DecidableEq

/-- A `Coin`: denom and amount (`math.Int`, base 0). A coin without an amount decodes but is refused by the transfer
message's own validation; here it does not decode. -/
def coin (unknownOk : Bool) : Option Json → Option (Str × Int)
  | some (.obj ms) =>
    if known unknownOk ms ["denom", "amount"] then
      (strField (field ms "denom".toList)).bind fun d =>
        (strField (field ms "amount".toList)).bind fun a => (parseInt0 a).map fun n => (d, n)
    else none
  | _ => none

/-- `json.Unmarshal` of a text into a `uint64`: spaces around it are dropped, `null` leaves it 0, otherwise an integer without
sign and leading zeros, below 2^64. -/
def u64Text (s : Str) : Option Nat :=
  let w := ((s.dropWhile (· = ' ')).reverse.dropWhile (· = ' ')).reverse
  if w = "null".toList then some 0
  else if w.head? = some '0' ∧ w ≠ ['0'] then none
  else (parseNat w).bind fun n => if n < 18446744073709551616 then some n else none

/-- A `uint64` field, as a number or as a number in quotes (`jsonpb` drops the quotes; escapes within them, which it then
rejects, are not distinguished here from what they stand for). -/
def u64Field : Option Json → Option Nat
  | none => some 0
  | some (.str s) => u64Text s
  | some (.lit w) => u64Text w
  | some _ => none

/-- A `Height`: two `uint64` (only whether it decodes matters). -/
def height (unknownOk : Bool) : Option Json → Bool
  | none => true
  | some (.obj ms) =>
    known unknownOk ms ["revision_number", "revisionNumber", "revision_height", "revisionHeight"] &&
    [("revision_number", "revisionNumber"), ("revision_height", "revisionHeight")].all fun p =>
      (u64Field (field2 ms p.1 p.2)).isSome
  | some (.lit w) => w = "null".toList
  | some _ => false

/-- The names of the members of a `MsgTransfer`. -/
def transferNames : List String :=
  ["@type", "source_port", "sourcePort", "source_channel", "sourceChannel", "token", "sender", "receiver",
    "timeout_height", "timeoutHeight", "timeout_timestamp", "timeoutTimestamp", "memo"]

/-- `codec.UnmarshalInterfaceJSON` (contract.go:217-220) of a message that is a `MsgTransfer`; other message types are
not modelled. -/
def decode (unknownOk : Bool) (s : Str) : Option Transfer :=
  match first s with
  | some (.obj ms) =>
    if known unknownOk ms transferNames ∧ strField (field ms "@type".toList) =
        some "/ibc.applications.transfer.v1.MsgTransfer".toList ∧
        height unknownOk (field2 ms "timeout_height" "timeoutHeight") then
      (strField (field2 ms "source_port" "sourcePort")).bind fun port =>
      (strField (field2 ms "source_channel" "sourceChannel")).bind fun channel =>
      (coin unknownOk (field ms "token".toList)).bind fun c =>
      (strField (field ms "sender".toList)).bind fun sender =>
      (strField (field ms "receiver".toList)).bind fun receiver =>
      (u64Field (field2 ms "timeout_timestamp" "timeoutTimestamp")).bind fun timeout =>
      (strField (field ms "memo".toList)).map fun memo =>
        { port := port, channel := channel, denom := c.1, amount := c.2, sender := sender, receiver := receiver,
          timeout := timeout, memo := memo }
    else none
  | _ => none

/-- contract.go:208-246 (`execute_cosmos`) called by the wrapper with the text of `_ibc_transfer`
(ERC20Wrapper.sol:71-80): the transfer that is dispatched, if the text decodes and its signer (the sender) is the
caller. `none`: the call, and with it `wrap`, reverts. -/
def dispatched (unknownOk : Bool) (a : Args) : Option Transfer :=
  (ibcTransfer a).bind fun s => (decode unknownOk s).bind fun t => if t.sender = a.selfText then some t else none

end Verif.WrapMsg
