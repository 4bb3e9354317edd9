/-
`minitiad init` (cmd/minitiad/init.go): the files of a new node.

Modelled: cmd/minitiad/init.go:75-186 (`InitCmd`), in the order of its effects on the home directory.

By contract (outside /repo): cobra (an unregistered flag is refused before the command runs), the SDK's
`InitializeNodeValidatorFilesFromMnemonic` (without a mnemonic the key files are loaded, or made if there are none; with one the key
is derived from it and both files, the key and the record of what it signed, are written anew), CometBFT's `FilePV` (that record is
what keeps a validator from signing two blocks of one height), `AppGenesis.ValidateAndComplete` (an empty or overlong chain id is
refused; a missing time is now).

Not modelled: the printed summary, the contents of config.toml besides the moniker, errors of the file system.
-/
namespace Verif.InitCmd

/-- What is on the command line. -/
structure Cmd where
  moniker : String
  /-- the names of the flags given -/
  flags : List String
  chainId : String
  denom : String
  overwrite : Bool
  /-- with `--recover`, what was typed -/
  recover : Option String
  /-- what `--initial-height` says, were it a flag -/
  initHeight : Int

/-- A genesis file. `A`: the application's state, `C`: consensus parameters. -/
structure Gen (A C : Type) where
  chainId : String
  appState : A
  initialHeight : Int
  time : Nat
  appHash : String
  params : C
deriving DecidableEq

/-- The validator's files: its key, and the last height it signed. -/
structure Val (K : Type) where
  key : K
  lastSigned : Nat
deriving DecidableEq

/-- A home directory. `genesis`: `some none` is a file that cannot be read. -/
structure Home (K A C : Type) where
  nodeKey : Option K
  val : Option (Val K)
  genesis : Option (Option (Gen A C))
  moniker : Option String

/-- What the world supplies. -/
structure Env (K A C : Type) where
  /-- fresh keys -/
  newNodeKey : K
  newKey : K
  /-- bip39 -/
  validMnemonic : String → Bool
  keyOf : String → K
  /-- a random chain id -/
  randomId : String
  now : Nat
  /-- app/genesis.go:39-46 (`NewDefaultGenesisState`) for a denom -/
  defaultState : String → A
  defaultParams : C

/-- cmd/minitiad/init.go:179-184: the flags of the command; `home` and the logging flags are the root command's. -/
def registered : List String := ["home", "overwrite", "recover", "chain-id", "denom", "trace", "log_level", "log_format", "log_no_color"]

inductive Err where
  | unknownFlag | mnemonic | exists_ | unreadable | chainId
deriving DecidableEq

variable {K A C : Type}

/-- cmd/minitiad/init.go:120-123: the flag is not registered, so `GetInt64` answers zero (with an error, which is dropped). -/
def heightOf (c : Cmd) : Int :=
  let h := if registered.contains "initial-height" then c.initHeight else 0
  if h < 1 then 1 else h

/-- cmd/minitiad/init.go:125 (`InitializeNodeValidatorFilesFromMnemonic`) -/
def keyFiles (e : Env K A C) (m : Option String) (h : Home K A C) : Home K A C :=
  { h with
    nodeKey := some (h.nodeKey.getD e.newNodeKey)
    val := match m with
      | some s => some ⟨e.keyOf s, 0⟩
      | none => some (h.val.getD ⟨e.newKey, 0⟩) }

/-- cmd/minitiad/init.go:93-96 -/
def chainIdOf (e : Env K A C) (c : Cmd) : String := if c.chainId = "" then e.randomId else c.chainId

/-- cmd/minitiad/init.go:144-167: the genesis, from the fields of an old one. -/
def newGenesis (e : Env K A C) (c : Cmd) (old : Option (Gen A C)) : Gen A C where
  chainId := chainIdOf e c
  appState := e.defaultState c.denom
  initialHeight := heightOf c
  time := match old with
    | some g => if g.time = 0 then e.now else g.time
    | none => e.now
  appHash := match old with
    | some g => g.appHash
    | none => ""
  params := e.defaultParams

/-- cmd/minitiad/init.go:104-117: is what was typed no mnemonic? -/
def badMnemonic (e : Env K A C) (c : Cmd) : Bool :=
  match c.recover with
  | some m => !e.validMnemonic m
  | none => false

/-- cmd/minitiad/init.go:84-176 (`RunE`). -/
def run (e : Env K A C) (c : Cmd) (h : Home K A C) : Home K A C × Option Err :=
  if !(c.flags.all fun f => registered.contains f) then (h, some .unknownFlag)
  else if badMnemonic e c then (h, some .mnemonic)
  else
    let h1 := keyFiles e c.recover h
    if !c.overwrite && h1.genesis.isSome then (h1, some .exists_)
    else match h1.genesis with
      | some none => (h1, some .unreadable)
      | g =>
        -- init.go:169-171 (`ExportGenesisFile`)
        if (chainIdOf e c).utf8ByteSize > 50 || chainIdOf e c == "" then (h1, some .chainId)
        else
        ({ h1 with genesis := some (some (newGenesis e c (g.getD none))), moniker := some c.moniker }, none)

end Verif.InitCmd
