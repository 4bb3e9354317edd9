import Verif.Model.Hooks
import Verif.Model.WrapMsg
/-
Model of the reading of a packet memo by the IBC hooks: app/ibc-hooks/util.go:53-79, 91-115 with the types of
app/ibc-hooks/message.go:28-45 and `MsgCall` (x/evm/types/tx.pb.go:303-315). It makes concrete the two parameters
`jsonField` and `decodeHook` of the hook model (Verif/Model/Hooks.lean).

The memo is decoded into a `map[string]interface{}`, so that every number becomes a float64; the value under `evm` is
marshalled again and the text decoded into `HookData`. encoding/json (outside /repo) is modelled from its documented
behaviour; the scanner and parser of Verif/Model/WrapMsg.lean are used. Not modelled: its nesting limit (10000), UTF-16
surrogate escapes, and the re-encoded text itself (decoding what was encoded gives the same tree).
-/
namespace Verif.Memo
open Verif Verif.Text Verif.WrapMsg Verif.Hooks

/-! ### encoding/json: the text -/

/-- The parser has read exactly one value. -/
def finished : List Frame × Expect → Option Json
  | ([], .done v) => some v
  | _ => none

/-- `json.Unmarshal` from a scanner and parser state: the text is one value and nothing else. -/
def wholeFrom : Mode → List Frame × Expect → Str → Option Json
  | .out, p, [] => finished p
  | .word w, p, [] => (step p (.word w)).bind finished
  | _, _, [] => none
  | m, p, c :: cs => (scan m c).bind fun r => (steps p r.2).bind fun q => wholeFrom r.1 q cs

/-- `json.Unmarshal`: the value of a text. -/
def whole (s : Str) : Option Json := wholeFrom .out ([], .value) s

/-! ### encoding/json: numbers as float64 -/

/-- The float64 nearest to a natural number (ties to even), if it is not too large; an integer again. -/
def toF64 (n : Nat) : Nat :=
  let s := n.log2 - 52
  let q := n / 2 ^ s
  let r := n % 2 ^ s
  (if 2 ^ s < 2 * r ∨ (2 * r = 2 ^ s ∧ q % 2 = 1) then q + 1 else q) * 2 ^ s

/-- The multiple of `10 ^ j` nearest to `f` among those that are read back as `f`. -/
def shortAt (f j : Nat) : Option Nat :=
  let lo := f / 10 ^ j * 10 ^ j
  let hi := lo + 10 ^ j
  let c := if f - lo ≤ hi - f then (lo, hi) else (hi, lo)
  if toF64 c.1 = f then some c.1 else if toF64 c.2 = f then some c.2 else none

/-- The first hit, with `10 ^ j`, `10 ^ (j-1)`, …, `10`. -/
def shortFrom (f : Nat) : Nat → Nat
  | 0 => f
  | j + 1 => (shortAt f (j + 1)).getD (shortFrom f j)

/-- The decimal form encoding/json writes for a float64 that is an integer below 10^21 (`strconv.FormatFloat(f, 'f', -1,
64)`): the fewest significant digits that are read back as the same float64, the nearest such number; padded with
zeros. -/
def shortest (f : Nat) : Nat := shortFrom f 20

/-- `true`, `false` and `null` -/
def isName (w : Str) : Bool := w == "true".toList || w == "false".toList || w == "null".toList

/-- What is left open about numbers that are not plain runs of digits (a sign, a fraction or an exponent): `none` if the
number is too large for a float64, otherwise the text written for it. -/
structure Floats where
  other : Str → Option Str
  /-- it is the text of a number -/
  other_num : ∀ w t, other w = some t → isName t = false
  /-- `big.Int.UnmarshalText`, with the 256-bit limit of `math.Int` -/
  int : Str → Option Int

/-- A number of the memo, read as a float64 and written again; `none`: too large. At 10^21 and above the exponent form is
used: of that text only matters that it is not a run of digits. -/
def numText (F : Floats) (w : Str) : Option Str :=
  match parseNat w with
  | none => F.other w
  | some n =>
    if 2 ^ 1024 ≤ toF64 n then none
    else if 1000000000000000000000 ≤ toF64 n then some "1e+21".toList
    else some (natStr (shortest (toF64 n)))

/-! ### encoding/json: into `interface{}` and out again -/

/-- Lexicographic order (of the code points; that is the order of the UTF-8 bytes). -/
def keyLt : Str → Str → Bool
  | [], [] => false
  | [], _ :: _ => true
  | _ :: _, [] => false
  | a :: as, b :: bs => a.toNat < b.toNat || (a == b && keyLt as bs)

/-- Insert or replace in a map kept in the order in which `json.Marshal` writes it. -/
def put (k : Str) (v : Json) : List (Str × Json) → List (Str × Json)
  | [] => [(k, v)]
  | m :: ms => if k = m.1 then (k, v) :: ms else if keyLt k m.1 then (k, v) :: m :: ms else m :: put k v ms

mutual
/-- The value after decoding into `interface{}` and marshalling: numbers go through float64, of several members of one
name the last counts, members are in order. `none`: a number is too large. -/
def iface (F : Floats) : Json → Option Json
  | .str s => some (.str s)
  | .lit w => if isName w then some (.lit w) else (numText F w).map .lit
  | .obj ms => (ifaceMembers F ms []).map .obj
  | .arr vs => (ifaceList F vs).map .arr
def ifaceMembers (F : Floats) : List (Str × Json) → List (Str × Json) → Option (List (Str × Json))
  | [], acc => some acc
  | (k, v) :: ms, acc => (iface F v).bind fun v' => ifaceMembers F ms (put k v' acc)
def ifaceList (F : Floats) : List Json → Option (List Json)
  | [] => some []
  | v :: vs => (iface F v).bind fun v' => (ifaceList F vs).map fun vs' => v' :: vs'
end

/-- app/ibc-hooks/util.go:91-115 (`jsonStringHasKey`): the value under a key; `none`: not a JSON object. A JSON `null` is
decoded into a map without an error, as the empty map. -/
def memoField (F : Floats) (memo key : Str) : Option (Option Json) :=
  match whole memo with
  | none => none
  | some j => match iface F j with
    | some (.obj ms) => some ((ms.find? fun m => m.1 = key).map fun m => m.2)
    | some (.lit w) => if w = "null".toList then some none else none
    | _ => none

/-! ### encoding/json: into the structs -/

/-- Case folding of member names. -/
def foldChar (c : Char) : Char :=
  if c.toNat = 383 then 's' else if c.toNat = 8490 then 'k' else c.toLower

/-- A member name matches a field name (which is in lower case). -/
def isKey (k name : Str) : Bool := k.map foldChar == name

/-- Decode a string: the value, unchanged on `null` and on an error. -/
def decStr (old : Str) : Json → Str × Bool
  | .str s => (s, true)
  | .lit w => (old, w == "null".toList)
  | _ => (old, false)

/-- Decode a `uint64`. -/
def decU64 (old : Nat) : Json → Nat × Bool
  | .lit w =>
    if w = "null".toList then (old, true)
    else match parseNat w with
      | some n => if n < 18446744073709551616 then (n, true) else (old, false)
      | none => (old, false)
  | _ => (old, false)

/-- Decode a `math.Int`. -/
def decInt (F : Floats) (old : Int) : Json → Int × Bool
  | .str s => match F.int s with
    | some n => (n, true)
    | none => (old, false)
  | _ => (old, false)

/-- A list of strings decodes. -/
def strsOk : Json → Bool
  | .arr vs => vs.all fun v => (decStr [] v).2
  | .lit w => w == "null".toList
  | _ => false

/-- An `AccessTuple` decodes (x/evm/types/tx.pb.go, `json:"address"`, `json:"storage_keys"`). -/
def tupleOk : Json → Bool
  | .obj ms => ms.all fun m =>
    (!isKey m.1 "address".toList || (decStr [] m.2).2) && (!isKey m.1 "storage_keys".toList || strsOk m.2)
  | .lit w => w == "null".toList
  | _ => false

/-- A list of `AccessTuple` decodes. -/
def accessOk : Json → Bool
  | .arr vs => vs.all tupleOk
  | .lit w => w == "null".toList
  | _ => false

/-- One member of a `MsgCall` (x/evm/types/tx.pb.go:303-315); the access list is only checked. -/
def msgMember (F : Floats) (r : MsgCall × Bool) (m : Str × Json) : MsgCall × Bool :=
  if isKey m.1 "sender".toList then ({ r.1 with sender := (decStr r.1.sender m.2).1 }, r.2 && (decStr r.1.sender m.2).2)
  else if isKey m.1 "contract_addr".toList then
    ({ r.1 with contractAddr := (decStr r.1.contractAddr m.2).1 }, r.2 && (decStr r.1.contractAddr m.2).2)
  else if isKey m.1 "input".toList then ({ r.1 with input := (decStr r.1.input m.2).1 }, r.2 && (decStr r.1.input m.2).2)
  else if isKey m.1 "value".toList then ({ r.1 with value := (decInt F r.1.value m.2).1 }, r.2 && (decInt F r.1.value m.2).2)
  else if isKey m.1 "access_list".toList then (r.1, r.2 && accessOk m.2)
  else r

/-- The zero `MsgCall`. -/
def zeroMsg : MsgCall := ⟨[], [], [], 0⟩

/-- Decode a `*MsgCall`: `null` gives nil, an object fills the existing or a new struct, anything else is an error but
leaves a struct behind. -/
def decMsg (F : Floats) (old : Option MsgCall) : Json → Option MsgCall × Bool
  | .lit w => if w = "null".toList then (none, true) else (some (old.getD zeroMsg), false)
  | .obj ms => (some (ms.foldl (msgMember F) (old.getD zeroMsg, true)).1, (ms.foldl (msgMember F) (old.getD zeroMsg, true)).2)
  | _ => (some (old.getD zeroMsg), false)

/-- One member of an `AsyncCallback` (app/ibc-hooks/message.go:28-34). -/
def cbMember (r : AsyncCallback × Bool) (m : Str × Json) : AsyncCallback × Bool :=
  if isKey m.1 "id".toList then ({ r.1 with id := (decU64 r.1.id m.2).1 }, r.2 && (decU64 r.1.id m.2).2)
  else if isKey m.1 "contract_address".toList then
    ({ r.1 with contractAddress := (decStr r.1.contractAddress m.2).1 }, r.2 && (decStr r.1.contractAddress m.2).2)
  else r

/-- Decode a `*AsyncCallback`. -/
def decCb (old : Option AsyncCallback) : Json → Option AsyncCallback × Bool
  | .lit w => if w = "null".toList then (none, true) else (some (old.getD ⟨0, []⟩), false)
  | .obj ms => (some (ms.foldl cbMember (old.getD ⟨0, []⟩, true)).1, (ms.foldl cbMember (old.getD ⟨0, []⟩, true)).2)
  | _ => (some (old.getD ⟨0, []⟩), false)

/-- One member of `HookData` (app/ibc-hooks/message.go:36-45). -/
def hookMember (F : Floats) (r : HookData × Bool) (m : Str × Json) : HookData × Bool :=
  if isKey m.1 "message".toList then ({ r.1 with message := (decMsg F r.1.message m.2).1 }, r.2 && (decMsg F r.1.message m.2).2)
  else if isKey m.1 "async_callback".toList then
    ({ r.1 with asyncCallback := (decCb r.1.asyncCallback m.2).1 }, r.2 && (decCb r.1.asyncCallback m.2).2)
  else r

/-- app/ibc-hooks/util.go:65-78: decode the value under `evm`. -/
def decodeHook (F : Floats) : Json → HookData × Bool
  | .obj ms => ms.foldl (hookMember F) (⟨none, none⟩, true)
  | .lit w => (⟨none, none⟩, w == "null".toList)
  | _ => (⟨none, none⟩, false)

/-- The hook environment reads memos as encoding/json does. -/
structure Reads {σ K : Type} (F : Floats) (e : Env σ Json K) : Prop where
  field : e.jsonField = memoField F
  hook : e.decodeHook = decodeHook F

end Verif.Memo
