import Verif.Model.Bytes
/-
Model of the construction of the keepers (app/keepers/keepers.go:138-584): which keeper is handed which other one, as a
pointer or as a copy, and whether it was there at that moment; and of the one block hook that depends on it, the automatic
forwards of the forwarding module (app/modules.go:168-178).

The bodies of the keepers are outside; so are store keys, codecs, addresses, scoped capability keepers and service routers.
-/
namespace Verif.Wiring
open Verif

/-- How a constructor uses a keeper: by pointer, or by value (or by a part of it). -/
inductive Use where
  | ptr (f : String)
  | val (f : String)

def Use.name : Use → String
  | .ptr f => f
  | .val f => f

/-- A statement of the constructor. -/
inductive Step where
  /-- `f = new(T)` or `f := &T{}`: a place with nothing in it yet -/
  | new (f : String)
  /-- `f = NewT(uses)` or `t := NewT(uses); f = &t` -/
  | make (f : String) (uses : List Use)
  /-- `*f = *NewT(uses)` -/
  | fill (f : String) (uses : List Use)

/-- A place in memory: empty, or an object with what its fields refer to (`none`: nil). -/
abbrev Cell := Option (List (String × Option Nat))

/-- Memory, the owner of each place, and the variables. -/
structure Mem where
  cells : List (String × Cell)
  vars : List (String × Nat)

/-- The value of a variable; `none`: nil. -/
def Mem.get (m : Mem) (f : String) : Option Nat := (m.vars.find? (fun x => x.1 = f)).map (·.2)

/-- What is at a place. -/
def Mem.at (m : Mem) (n : Nat) : Cell :=
  match m.cells[n]? with
  | some (_, c) => c
  | none => none

/-- Evaluate an argument: a pointer is passed as it is, nil included; a value is copied to a new place, and that panics when
the variable is nil. -/
def Mem.arg (m : Mem) (owner : String) : Use → Option (Mem × Option Nat)
  | .ptr f => some (m, m.get f)
  | .val f => match m.get f with
    | none => none
    | some n => some ({ m with cells := m.cells ++ [(owner ++ "." ++ f, m.at n)] }, some m.cells.length)

/-- Evaluate the arguments of a constructor. -/
def Mem.args (m : Mem) (owner : String) : List Use → Option (Mem × List (String × Option Nat))
  | [] => some (m, [])
  | u :: us => match m.arg owner u with
    | none => none
    | some (m1, r) => match m1.args owner us with
      | none => none
      | some (m2, rs) => some (m2, (u.name, r) :: rs)

/-- Set a variable. -/
def setVar (vars : List (String × Nat)) (f : String) (n : Nat) : List (String × Nat) := (f, n) :: vars.filter (fun x => x.1 ≠ f)

/-- Run a statement; `none`: it panics. -/
def Mem.step (m : Mem) : Step → Option Mem
  | .new f => some ⟨m.cells ++ [(f, none)], setVar m.vars f m.cells.length⟩
  | .make f us => match m.args f us with
    | none => none
    | some (m1, rs) => some ⟨m1.cells ++ [(f, some rs)], setVar m1.vars f m1.cells.length⟩
  | .fill f us => match m.args f us with
    | none => none
    | some (m1, rs) => match m1.get f with
      | none => none
      | some n => some { m1 with cells := m1.cells.set n (f, some rs) }

def Mem.run (m : Mem) : List Step → Option Mem
  | [] => some m
  | s :: ss => match m.step s with
    | none => none
    | some m1 => m1.run ss

/-- app/keepers/keepers.go:172-581 (`NewAppKeeper`), the keepers and middlewares in order. The parts of the IBC keeper
(channel, port) are copies; the ERC20 and ERC721 keepers copy those of the EVM keeper (lines 567-568). -/
def program : List Step :=
  [.make "consensus" [],                                                                      -- 172-173
   .make "capability" [],                                                                     -- 177
   .new "evm", .new "erc20", .new "erc721",                                                   -- 190-192
   .make "account" [],                                                                        -- 194-203
   .make "bank" [.ptr "account", .ptr "erc20"],                                               -- 205-213
   .make "communityPool" [.ptr "bank"],                                                       -- 215
   .make "marketMap" [],                                                                      -- 222-227
   .make "oracle" [.ptr "marketMap"],                                                         -- 229-235
   .make "opchild" [.ptr "account", .ptr "bank", .ptr "oracle", .ptr "account", .ptr "evm"],  -- 241-255
   .make "crisis" [.ptr "bank"],                                                              -- 257-265
   .make "upgrade" [],                                                                        -- 267-274
   .make "feegrant" [.ptr "account"],                                                         -- 283-284
   .make "authz" [.ptr "account"],                                                            -- 286-287
   .make "group" [.ptr "account"],                                                            -- 290-297
   .make "ibc" [.ptr "opchild", .ptr "upgrade"],                                              -- 300-308
   .make "ibcFee" [.val "ibc", .val "ibc", .val "ibc", .ptr "account", .ptr "bank"],          -- 315-324
   .make "ibcHooks" [],                                                                       -- 326-331
   .make "forwarding" [.ptr "account", .ptr "bank", .val "ibc", .ptr "transfer"],             -- 333-345
   .new "packetForward", .new "rateLimit",                                                    -- 356-357
   .make "transfer" [.ptr "packetForward", .val "ibc", .val "ibc", .ptr "account", .ptr "bank"], -- 360-373
   .make "transferModule" [.val "transfer"],                                                  -- 374
   .make "forwardingLayer" [.ptr "account", .ptr "forwarding"],                               -- 377-382
   .fill "packetForward" [.ptr "transfer", .val "ibc", .ptr "communityPool", .ptr "bank", .ptr "rateLimit"], -- 385-396
   .make "packetForwardLayer" [.ptr "packetForward"],                                         -- 397-404
   .fill "rateLimit" [.ptr "bank", .val "ibc", .ptr "ibcFee"],                                -- 407-417
   .make "rateLimitLayer" [.val "rateLimit"],                                                 -- 420-424
   .make "hooksLayer" [.ptr "evm", .ptr "ibcHooks"],                                          -- 427-435
   .make "feeLayer" [.val "ibcFee"],                                                          -- 438-443
   .make "nftTransfer" [.ptr "ibcFee", .val "ibc", .val "ibc", .ptr "account", .ptr "erc721"], -- 453-464
   .make "nftModule" [.val "nftTransfer"],                                                    -- 465
   .make "nftHooksLayer" [.ptr "evm", .ptr "ibcHooks"],                                       -- 468-476
   .make "nftFeeLayer" [.val "ibcFee"],                                                       -- 478-482
   .make "icaHost" [.ptr "ibcFee", .val "ibc", .val "ibc", .ptr "account"],                   -- 492-504
   .make "icaController" [.ptr "ibcFee", .val "ibc", .val "ibc"],                             -- 506-516
   .make "icaAuth" [.val "icaController"],                                                    -- 518-524
   .make "icaAuthModule" [.val "icaAuth"],                                                    -- 526
   .make "icaHostModule" [.val "icaHost"],                                                    -- 527
   .make "icaHostFeeLayer" [.val "ibcFee"],                                                   -- 528
   .make "icaControllerModule" [.val "icaController"],                                        -- 529
   .make "icaControllerFeeLayer" [.val "ibcFee"],                                             -- 530
   .make "gasPrice" [.ptr "opchild"],                                                         -- 551
   .fill "evm" [.val "account", .val "bank", .ptr "communityPool", .ptr "gasPrice"],          -- 552-566
   .fill "erc20" [.val "evm"],                                                                -- 567
   .fill "erc721" [.val "evm"],                                                               -- 568
   .make "auction" [.ptr "account", .ptr "bank"]]                                             -- 573-581

/-- A reference that cannot be used: nil, or to a place where nothing was put. -/
def Mem.dead (m : Mem) : Option Nat → Bool
  | none => true
  | some n => (m.at n).isNone

/-- Every unusable reference: its owner and what it should be. -/
def Mem.dangling (m : Mem) : List (String × String) :=
  m.cells.flatMap fun c => match c.2 with
    | none => []
    | some rs => (rs.filter (fun r => m.dead r.2)).map (fun r => (c.1, r.1))

/-- Call a method of a keeper's field: `false` when that panics. -/
def Mem.calls (m : Mem) (owner field : String) : Bool :=
  match m.get owner with
  | none => false
  | some n => match m.at n with
    | none => false
    | some rs => match rs.find? (fun r => r.1 = field) with
      | none => false
      | some r => !m.dead r.2

/-! ### Automatic forwards (noble forwarding v2, by contract: not in /repo) -/

/-- What the forwarding module sees: its accounts with their channels, the ones to forward in this block, balances, open
channels, and what was sent. -/
structure Chain where
  account : Addr → Option String
  pending : List Addr
  bal : Addr → List (String × Nat)
  isOpen : String → Bool
  sent : List (Addr × String × String × Nat)

/-- x/bank/keeper/send.go:116-125 (`SendCoins`) with the restriction of app/keepers/keepers.go:346
(`ForwardingKeeper.SendRestrictionFn`): coins that arrive at a forwarding account mark it for this block. -/
def deliver (c : Chain) (to : Addr) (coins : List (String × Nat)) : Chain :=
  { c with
    bal := fun a => if a = to then c.bal a ++ coins else c.bal a
    pending := if (c.account to).isSome ∧ to ∉ c.pending then c.pending ++ [to] else c.pending }

/-- `ExecuteForwards`, inner loop: transfer each coin through the transfer keeper; a transfer that is refused is logged and
the coin stays. `live`: the keeper can be called. -/
def forwardCoins (live : Bool) (accepts : Addr → String → String × Nat → Bool) (a : Addr) (ch : String) :
    List (String × Nat) → Chain → Option Chain
  | [], c => some c
  | k :: ks, c =>
    if live = false then none
    else if accepts a ch k then
      forwardCoins live accepts a ch ks
        { c with bal := fun b => if b = a then (c.bal b).erase k else c.bal b, sent := c.sent ++ [(a, ch, k.1, k.2)] }
    else forwardCoins live accepts a ch ks c

/-- `ExecuteForwards`: for each account marked, if its channel is open, all its coins. -/
def forwardAll (live : Bool) (accepts : Addr → String → String × Nat → Bool) : List Addr → Chain → Option Chain
  | [], c => some c
  | a :: as, c => match c.account a with
    | none => forwardAll live accepts as c
    | some ch =>
      if c.isOpen ch = false then forwardAll live accepts as c
      else match forwardCoins live accepts a ch (c.bal a) c with
        | none => none
        | some c' => forwardAll live accepts as c'

/-- app/modules.go:176: the end of the block for the forwarding module; its marks are transient. `none`: it panics, and the
block is not finalized. -/
def endBlock (m : Mem) (accepts : Addr → String → String × Nat → Bool) (c : Chain) : Option Chain :=
  match forwardAll (m.calls "forwarding" "transfer") accepts c.pending c with
  | none => none
  | some c' => some { c' with pending := [] }

end Verif.Wiring
