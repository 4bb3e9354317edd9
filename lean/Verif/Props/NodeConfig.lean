import Verif.Model.NodeConfig
import Verif.Props.TxPool
/-
C155, C157: what a node says about its pool and its progress. C156: the options of the JSON-RPC servers.
-/
namespace Verif.Props.NodeConfig
open Verif Verif.Text Verif.TxUtils Verif.NodeConfig

/-! ### Texts -/

/-- Reading hexadecimal digits. -/
def hexRead : Nat → Str → Option Nat
  | acc, [] => some acc
  | acc, c :: cs => match hexVal c with
    | none => none
    | some d => hexRead (acc * 16 + d) cs

theorem hexRead_append (s : Str) (c : Char) : ∀ acc, hexRead acc (s ++ [c]) =
    match hexRead acc s with
    | none => none
    | some n => match hexVal c with
      | none => none
      | some d => some (n * 16 + d) := by
  induction s with
  | nil => intro acc; simp only [List.nil_append, hexRead]
  | cons x xs ih =>
    intro acc
    simp only [List.cons_append, hexRead]
    cases hexVal x with
    | none => rfl
    | some d => exact ih _

theorem hexRead_hexNat (n : Nat) : hexRead 0 (hexNat n) = some n := by
  induction n using Nat.strongRecOn with
  | _ n ih =>
    rw [hexNat]
    split
    · rename_i h; simp [hexRead, hexVal_hexDigit n h]
    · rename_i h
      rw [hexRead_append, ih (n / 16) (by omega), hexVal_hexDigit _ (Nat.mod_lt _ (by decide))]
      simp only [Option.some.injEq]
      omega

theorem hexNat_digits (n : Nat) : ∀ c ∈ hexNat n, ∃ d, d < 16 ∧ c = hexDigit d := by
  induction n using Nat.strongRecOn with
  | _ n ih =>
    rw [hexNat]
    split
    · rename_i h; intro c hc; simp at hc; exact ⟨n, h, hc⟩
    · rename_i h
      intro c hc
      rcases List.mem_append.mp hc with hc | hc
      · exact ih (n / 16) (by omega) c hc
      · simp at hc; exact ⟨_, Nat.mod_lt _ (by decide), hc⟩

theorem hexDigit_plain : ∀ d, d < 16 → hexDigit d ≠ ' ' ∧ hexDigit d ≠ '-' ∧ hexDigit d ≠ 'x' := by decide

theorem quantity_inj {m n : Nat} (h : quantity m = quantity n) : m = n := by
  have h' : hexNat m = hexNat n := by simpa [quantity] using h
  have := congrArg (hexRead 0) h'
  rw [hexRead_hexNat, hexRead_hexNat] at this
  exact Option.some.inj this

theorem quantity_space (n : Nat) : ∀ c ∈ quantity n, c ≠ ' ' := by
  intro c hc
  simp only [quantity, List.mem_cons] at hc
  rcases hc with e | e | h
  · subst e; decide
  · subst e; decide
  · obtain ⟨d, hd, e⟩ := hexNat_digits n c h
    rw [e]; exact (hexDigit_plain d hd).1

theorem bigText_space (i : Int) : ∀ c ∈ bigText i, c ≠ ' ' := by
  cases i with
  | ofNat n => exact quantity_space n
  | negSucc n =>
    intro c hc
    rcases List.mem_cons.mp hc with e | h
    · subst e; decide
    · exact quantity_space _ c h

theorem bigText_inj {i j : Int} (h : bigText i = bigText j) : i = j := by
  cases i with
  | ofNat m => cases j with
    | ofNat n => exact congrArg Int.ofNat (quantity_inj h)
    | negSucc n => simp [bigText, quantity] at h
  | negSucc m => cases j with
    | ofNat n => simp [bigText, quantity] at h
    | negSucc n =>
      have : m + 1 = n + 1 := quantity_inj (List.cons.inj h).2
      have : m = n := by omega
      rw [this]

theorem split_space : ∀ (x y r r' : Str), (∀ c ∈ x, c ≠ ' ') → (∀ c ∈ y, c ≠ ' ') → x ++ ' ' :: r = y ++ ' ' :: r' →
    x = y ∧ r = r'
  | [], [], r, r', _, _, h => ⟨rfl, (List.cons.inj h).2⟩
  | [], b :: y, r, r', _, hy, h => absurd (List.cons.inj h).1.symm (hy b (List.mem_cons_self ..))
  | a :: x, [], r, r', hx, _, h => absurd (List.cons.inj h).1 (hx a (List.mem_cons_self ..))
  | a :: x, b :: y, r, r', hx, hy, h => by
    obtain ⟨e, h'⟩ := List.cons.inj h
    obtain ⟨e1, e2⟩ := split_space x y r r' (fun c hc => hx c (List.mem_cons_of_mem _ hc))
      (fun c hc => hy c (List.mem_cons_of_mem _ hc)) h'
    exact ⟨by rw [e, e1], e2⟩

theorem addrHex_space (mask : Str → List Bool) (a : Addr) : ∀ c ∈ addrHex mask a, c ≠ ' ' := by
  intro c hc
  simp only [addrHex, List.mem_cons] at hc
  rcases hc with e | e | h
  · subst e; decide
  · subst e; decide
  · have := sameDigits_all (applyCase_same (mask (hexEnc a.bytes)) (hexEnc a.bytes) (hexEnc_digits _)) c h
    intro e; subst e; revert this; decide

/-! ### C155: the pool -/

/-- Who a line is about. -/
def target (mask : Str → List Bool) (t : EthTx) : Str :=
  match t.to with
  | some a => addrHex mask a
  | none => "contract creation".toList

theorem line_shape (mask : Str → List Bool) (t : EthTx) :
    line mask t = (target mask t ++ [':']) ++ ' ' :: (bigText t.value ++ ' ' :: ("wei + ".toList ++ (quantity t.gas ++ ' ' ::
      ("gas × ".toList ++ (bigText t.feeCap ++ ' ' :: "wei".toList))))) := by
  have e1 : ": ".toList = [':', ' '] := by decide
  have e2 : " wei + ".toList = ' ' :: "wei + ".toList := by decide
  have e3 : " gas × ".toList = ' ' :: "gas × ".toList := by decide
  have e4 : " wei".toList = ' ' :: "wei".toList := by decide
  unfold line target
  rw [e1, e2, e3, e4]
  simp only [List.append_assoc, List.cons_append, List.nil_append]
  cases t.to <;> rfl

theorem target_inj (mask : Str → List Bool) (t t' : EthTx) (r r' : Str)
    (h : (target mask t ++ [':']) ++ ' ' :: r = (target mask t' ++ [':']) ++ ' ' :: r') : t.to = t'.to ∧ r = r' := by
  unfold target at h
  have ns : ∀ a, ∀ c ∈ addrHex mask a ++ [':'], c ≠ ' ' := by
    intro a c hc
    rcases List.mem_append.mp hc with hc | hc
    · exact addrHex_space mask a c hc
    · simp at hc; subst hc; decide
  cases h1 : t.to with
  | some a =>
    cases h2 : t'.to with
    | some b =>
      rw [h1, h2] at h
      obtain ⟨e1, e2⟩ := split_space _ _ _ _ (ns a) (ns b) h
      have e3 : addrHex mask a = addrHex mask b := List.append_cancel_right e1
      have := congrArg hexToAddress e3
      rw [hexToAddress_addrHex, hexToAddress_addrHex] at this
      exact ⟨by rw [this], e2⟩
    | none =>
      rw [h1, h2] at h
      have e : "contract creation".toList = 'c' :: "ontract creation".toList := by decide
      simp only [e, addrHex, List.cons_append] at h
      exact absurd (List.cons.inj h).1 (by decide)
  | none =>
    cases h2 : t'.to with
    | some b =>
      rw [h1, h2] at h
      have e : "contract creation".toList = 'c' :: "ontract creation".toList := by decide
      simp only [e, addrHex, List.cons_append] at h
      exact absurd (List.cons.inj h).1 (by decide)
    | none =>
      rw [h1, h2] at h
      have := List.append_cancel_left h
      exact ⟨rfl, (List.cons.inj this).2⟩

/-- **C155 (the pool).** `txpool_inspect` has a line for exactly the transactions of `txpool_content`, under the same sender
and nonce; two transactions with the same line have the same receiver, value, gas and price. -/
theorem C155_inspect {K : Type} (e : Env K) (pool queued : List (CosmosTx K)) :
    ((inspect e pool queued).isSome = (TxPool.content e pool queued).isSome) ∧
    (∀ c i, TxPool.content e pool queued = some c → inspect e pool queued = some i → ∀ a n,
      i.1 a n = (c.1 a n).map (line e.mask) ∧ i.2 a n = (c.2 a n).map (line e.mask)) ∧
    ∀ t t' : EthTx, line e.mask t = line e.mask t' →
      t.to = t'.to ∧ t.value = t'.value ∧ t.gas = t'.gas ∧ t.feeCap = t'.feeCap := by
  refine ⟨by simp [inspect], ?_, ?_⟩
  · intro c i hc hi a n
    simp only [inspect, hc, Option.map_some, Option.some.injEq] at hi
    rw [← hi]
    exact ⟨rfl, rfl⟩
  · intro t t' h
    rw [line_shape, line_shape] at h
    obtain ⟨e1, h⟩ := target_inj e.mask t t' _ _ h
    obtain ⟨e2, h⟩ := split_space _ _ _ _ (bigText_space _) (bigText_space _) h
    have h := List.append_cancel_left h
    obtain ⟨e3, h⟩ := split_space _ _ _ _ (quantity_space _) (quantity_space _) h
    have h := List.append_cancel_left h
    obtain ⟨e4, _⟩ := split_space _ _ _ _ (bigText_space _) (bigText_space _) h
    exact ⟨e1, bigText_inj e2, quantity_inj e3, bigText_inj e4⟩

/-- The line as Ethereum's documentation of `txpool_inspect` shows it: receiver, then decimal numbers. -/
def documented (mask : Str → List Bool) (t : EthTx) : Str :=
  target mask t ++ ": ".toList ++ intStr t.value ++ " wei + ".toList ++ natStr t.gas ++ " gas × ".toList ++
    intStr t.feeCap ++ " wei".toList

theorem decDigit_plain : ∀ d, d < 10 → decDigit d ≠ ' ' ∧ decDigit d ≠ 'x' := by decide

theorem intStr_plain (i : Int) : ∀ c ∈ intStr i, c ≠ ' ' ∧ c ≠ 'x' := by
  have key : ∀ n, ∀ c ∈ natStr n, c ≠ ' ' ∧ c ≠ 'x' := by
    intro n c hc
    obtain ⟨d, hd, e⟩ := natStr_head n c hc
    rw [e]; exact decDigit_plain d hd
  cases i with
  | ofNat n => exact key n
  | negSucc n =>
    intro c hc
    rcases List.mem_cons.mp hc with e | h
    · subst e; decide
    · exact key _ c h

/-- **C157 (format, violated).** No line is as documented: the numbers are hexadecimal. -/
theorem C157_format_violated (mask : Str → List Bool) (t : EthTx) : line mask t ≠ documented mask t := by
  intro h
  have hs : documented mask t = (target mask t ++ [':']) ++ ' ' :: (intStr t.value ++ ' ' :: ("wei + ".toList ++
      (natStr t.gas ++ (" gas × ".toList ++ (intStr t.feeCap ++ " wei".toList))))) := by
    have e1 : ": ".toList = [':', ' '] := by decide
    have e2 : " wei + ".toList = ' ' :: "wei + ".toList := by decide
    unfold documented
    rw [e1, e2]
    simp only [List.append_assoc, List.cons_append, List.nil_append]
  rw [line_shape, hs] at h
  obtain ⟨_, h⟩ := target_inj mask t t _ _ h
  obtain ⟨e, _⟩ := split_space _ _ _ _ (bigText_space _) (fun c hc => (intStr_plain _ c hc).1) h
  have : 'x' ∈ bigText t.value := by cases t.value <;> simp [bigText, quantity]
  rw [e] at this
  exact (intStr_plain _ _ this).2 rfl

/-- A transfer and a creation. -/
example : String.ofList (line (fun _ => []) (.legacy 0 21000 1000000000 (some (bytesToAddress (List.replicate 20 7))) 255 [] 45 5 6)) =
    "0x0707070707070707070707070707070707070707: 0xff wei + 0x5208 gas × 0x3b9aca00 wei" := by decide +kernel
example : String.ofList (line (fun _ => []) (.legacy 0 16 0 none 0 [] 45 5 6)) =
    "contract creation: 0x0 wei + 0x10 gas × 0x0 wei" := by decide +kernel
example : (inspect (Verif.Props.TxUtils.toyEnv 18) [Verif.TxPool.txN 0] [Verif.TxPool.txN 1]).map (fun i =>
    [(i.1 Verif.TxPool.me 0).isSome, (i.1 Verif.TxPool.me 1).isSome, (i.2 Verif.TxPool.me 1).isSome]) =
    some [true, false, true] := by decide +kernel

/-! ### C155: progress -/

/-- **C155 (progress).** `eth_syncing` is false exactly when the node has caught up, and says how far it is otherwise. -/
theorem C155_syncing (s : SyncInfo) :
    (syncing s = none ↔ s.catchingUp = false) ∧ ∀ p, syncing s = some p → p.currentBlock = s.latest ∧ p.startingBlock = s.earliest := by
  unfold syncing
  cases s.catchingUp <;> simp

/-- **C157 (highest block, violated).** A node that is behind by any number of blocks says that it is at the highest block, and that
as many blocks as it has are still to be indexed. -/
theorem C157_highest_violated (s : SyncInfo) (network : Nat) (_h : s.latest < network) (p : Progress) (hp : syncing s = some p) :
    p.highestBlock = p.currentBlock ∧ p.highestBlock < network ∧ p.txIndexRemainingBlocks = s.latest := by
  unfold syncing at hp
  split at hp
  · cases hp
  · cases hp; exact ⟨rfl, _h, rfl⟩

example : syncing ⟨true, 1, 500⟩ = some ⟨1, 500, 500, 500, 500⟩ := by decide

/-! ### C156 -/

theorem splitComma_word (w : Str) (h : ∀ c ∈ w, c ≠ ',') : splitComma w = [w] := by
  induction w with
  | nil => rfl
  | cons c cs ih =>
    rw [splitComma, if_neg (h c (List.mem_cons_self ..)), ih fun x hx => h x (List.mem_cons_of_mem _ hx)]

theorem splitComma_cons (w : Str) (rest : Str) (h : ∀ c ∈ w, c ≠ ',') : splitComma (w ++ ',' :: rest) = w :: splitComma rest := by
  induction w with
  | nil => simp [splitComma]
  | cons c cs ih =>
    rw [List.cons_append, splitComma, if_neg (h c (List.mem_cons_self ..)), ih fun x hx => h x (List.mem_cons_of_mem _ hx)]

theorem split_join : ∀ (l : List Str), l ≠ [] → (∀ w ∈ l, ∀ c ∈ w, c ≠ ',') → splitComma (joinComma l) = l
  | [], h, _ => absurd rfl h
  | [w], _, h => splitComma_word w (h w (List.mem_cons_self ..))
  | w :: v :: ws, _, h => by
    rw [joinComma, splitComma_cons w _ (h w (List.mem_cons_self ..)),
      split_join (v :: ws) (by simp) fun x hx => h x (List.mem_cons_of_mem _ hx)]
    simp

/-- **C156 (as written).** The configuration that `init` writes is the configuration the node runs with, whatever its values. -/
theorem C156_written (c : Conv) (hd : ∀ d, c.parseDur (c.durStr d) = some d) (g : Cfg) (hne : g.apis ≠ [])
    (hc : ∀ w ∈ g.apis, ∀ x ∈ w, x ≠ ',') : getConfig c ⟨fun _ => none, written c g⟩ = g := by
  have ha := split_join g.apis hne hc
  cases g
  simp only [getConfig, Opts.look, written, Conv.toBool, Conv.toInt, Conv.toDur, toStr, String.reduceEq, if_true, if_false, hd,
    Option.getD_some]
  simp only at ha
  rw [ha]

theorem mem_register {M : Type} (apis : List Str) (ns : Str) (m : M) : ∀ services : List (Str × List M),
    (ns, m) ∈ register apis services ↔ ns ∈ apis ∧ ∃ ms, (ns, ms) ∈ services ∧ m ∈ ms
  | [] => by simp [register]
  | (n, l) :: rest => by
    rw [register]
    have ih := mem_register apis ns m rest
    split
    · rename_i h
      rw [List.mem_append, ih]
      constructor
      · rintro (h1 | ⟨h1, ms, h2, h3⟩)
        · obtain ⟨x, hx, e⟩ := List.mem_map.mp h1
          cases e
          exact ⟨h, l, List.mem_cons_self .., hx⟩
        · exact ⟨h1, ms, List.mem_cons_of_mem _ h2, h3⟩
      · rintro ⟨h1, ms, h2, h3⟩
        rcases List.mem_cons.mp h2 with e | h2
        · cases e; exact .inl (List.mem_map.mpr ⟨m, h3, rfl⟩)
        · exact .inr ⟨h1, ms, h2, h3⟩
    · rename_i h
      rw [ih]
      constructor
      · rintro ⟨h1, ms, h2, h3⟩; exact ⟨h1, ms, List.mem_cons_of_mem _ h2, h3⟩
      · rintro ⟨h1, ms, h2, h3⟩
        rcases List.mem_cons.mp h2 with e | h2
        · cases e; exact absurd h1 h
        · exact ⟨h1, ms, h2, h3⟩

/-- **C156 (namespaces).** A server that is enabled answers exactly the methods of the configured namespaces that exist, if the
names are given with commas and nothing else between them — in app.toml as a text, or in the environment, which wins. -/
theorem C156_served_partial {M : Type} (c : Conv) (o : Opts) (ws : Bool) (services : List (Str × List M)) (names : List Str)
    (hn : names ≠ []) (hc : ∀ w ∈ names, ∀ x ∈ w, x ≠ ',')
    (hv : o.env "json-rpc.apis" = some (joinComma names) ∨
      (o.env "json-rpc.apis" = none ∧ o.file "json-rpc.apis" = some (.str (joinComma names))))
    (he : if ws then (getConfig c o).enableWS = true else (getConfig c o).enable = true) (hq : 0 < (getConfig c o).queuedCap) :
    ∃ l, start (getConfig c o) ws services = .serving l ∧
      ∀ ns m, (ns, m) ∈ l ↔ ns ∈ names ∧ ∃ ms, (ns, ms) ∈ services ∧ m ∈ ms := by
  have ha : (getConfig c o).apis = names := by
    have hl : o.look "json-rpc.apis" = some (.str (joinComma names)) := by
      rcases hv with h | ⟨h1, h2⟩ <;> simp [Opts.look, *]
    show splitComma (toStr (o.look "json-rpc.apis")) = names
    rw [hl]
    exact split_join names hn hc
  refine ⟨register names services, ?_, fun ns m => mem_register names ns m services⟩
  unfold start
  rw [ha]
  cases ws with
  | true =>
    simp only [if_true] at he
    simp only [he, Bool.not_true, Bool.and_false, Bool.false_and, Bool.false_eq_true, if_false]
    rw [if_neg (by omega)]
  | false =>
    simp only [Bool.false_eq_true, if_false] at he
    simp only [he, Bool.not_true, Bool.and_false, Bool.false_and, Bool.false_eq_true, if_false]
    rw [if_neg (by omega)]

/-- The services of a node, jsonrpc/jsonrpc.go:71-105, with their methods. -/
def services : List (Str × List String) :=
  [("eth".toList, ["BlockNumber", "GetBalance", "Call", "SendRawTransaction"]), ("eth".toList, ["NewFilter", "GetLogs"]),
    ("net".toList, ["Listening", "PeerCount", "Version"]), ("web3".toList, ["ClientVersion", "Sha3"]),
    ("txpool".toList, ["Content", "ContentFrom", "Inspect", "Status"]),
    ("cosmos".toList, ["CosmosTxHashByTxHash", "TxHashByCosmosTxHash"])]

/-- **C156 (namespaces, violated).** The default configuration enables `personal`, `debug` and `miner`, of which no method is
answered, without an error. -/
theorem C156_missing_violated (ws : Bool) :
    ∀ ns ∈ ["personal".toList, "debug".toList, "miner".toList], ns ∈ defaults.apis ∧
      ∃ l, start defaults ws services = .serving l ∧ ∀ m, (ns, m) ∉ l := by
  intro ns hns
  refine ⟨?_, register defaults.apis services, ?_, ?_⟩
  · revert ns; decide
  · cases ws <;> rfl
  · intro m hm
    rw [mem_register] at hm
    obtain ⟨_, ms, h, _⟩ := hm
    have key : ∀ ns ∈ ["personal".toList, "debug".toList, "miner".toList], ns ∉ services.map Prod.fst := by decide
    exact key ns hns (List.mem_map.mpr ⟨_, h, rfl⟩)

/-- **C156 (defaults, violated).** An option that is set nowhere is not the documented default: without `enable` the server is
off, without `queued-transaction-cap` the node does not start, and without `apis` nothing is answered. -/
theorem C156_default_violated {M : Type} (c : Conv) (o : Opts) (services : List (Str × List M)) (ws : Bool) :
    (o.look "json-rpc.enable" = none → (start (getConfig c o) false services = .off ∧ defaults.enable = true)) ∧
    (o.look "json-rpc.queued-transaction-cap" = none → (getConfig c o).enable = true →
      start (getConfig c o) false services = .failed ∧ defaults.queuedCap = 1000) ∧
    (o.look "json-rpc.apis" = none → (∀ x ∈ services, x.1 ≠ []) →
      ∀ l, start (getConfig c o) ws services = .serving l → l = []) := by
  refine ⟨fun h => ?_, fun h he => ?_, fun h hs l hl => ?_⟩
  · refine ⟨?_, rfl⟩
    have : (getConfig c o).enable = false := by show c.toBool _ = false; rw [h]; rfl
    simp [start, this]
  · refine ⟨?_, rfl⟩
    have : (getConfig c o).queuedCap = 0 := by show c.toInt _ = 0; rw [h]; rfl
    simp [start, this, he]
  · have ha : (getConfig c o).apis = [[]] := by
      show splitComma (toStr _) = _
      rw [h]; rfl
    have hr : l = register [[]] services := by
      unfold start at hl
      rw [ha] at hl
      split at hl
      · cases hl
      · split at hl
        · cases hl
        · split at hl
          · cases hl
          · injection hl with hl; exact hl.symm
    rw [hr]
    have : ∀ x, x ∉ register [[]] services := by
      rintro ⟨ns, m⟩ hx
      rw [mem_register] at hx
      obtain ⟨h1, ms, h2, _⟩ := hx
      simp only [List.mem_cons, List.not_mem_nil, or_false] at h1
      exact hs _ h2 h1
    exact List.eq_nil_iff_forall_not_mem.mpr this

/-- **C156 (lists, violated).** Names given as a list of app.toml are all ignored, and a name after a blank is. -/
theorem C156_list_violated (c : Conv) (o : Opts) (he : o.env "json-rpc.apis" = none) :
    (∀ l, o.file "json-rpc.apis" = some (.list l) → (getConfig c o).apis = [[]]) ∧
    (o.file "json-rpc.apis" = some (.str "eth, net".toList) → (getConfig c o).apis = ["eth".toList, " net".toList]) := by
  constructor
  · intro l h
    show splitComma (toStr (o.look "json-rpc.apis")) = _
    simp only [Opts.look, he, h]
    rfl
  · intro h
    show splitComma (toStr (o.look "json-rpc.apis")) = _
    simp only [Opts.look, he, h, toStr]
    decide

/-- **C156 (text options that are no text, violated).** An address or a list of namespaces that is given as a number or as `true` or
`false` is no error: it is taken as what one would write, so that a node whose `apis` is a switch or a number serves nothing. -/
theorem C156_text_violated {M : Type} (c : Conv) (o : Opts) (ws : Bool) (services : List (Str × List M)) (v : Val) (s : Str)
    (hv : (∃ i, v = .int i ∧ s = intStr i) ∨ (v = .bool true ∧ s = "true".toList) ∨ (v = .bool false ∧ s = "false".toList)) :
    (o.look "json-rpc.address" = some v → (getConfig c o).address = s) ∧
    (o.look "json-rpc.address-ws" = some v → (getConfig c o).addressWS = s) ∧
    (o.look "json-rpc.apis" = some v → (getConfig c o).apis = splitComma s ∧
      ((∀ x ∈ services, x.1 ∉ splitComma s) → ∀ l, start (getConfig c o) ws services = .serving l → l = [])) := by
  have key : toStr (some v) = s := by
    rcases hv with ⟨i, rfl, rfl⟩ | ⟨rfl, rfl⟩ | ⟨rfl, rfl⟩ <;> rfl
  refine ⟨fun h => ?_, fun h => ?_, fun h => ?_⟩
  · show toStr (o.look "json-rpc.address") = s
    rw [h]; exact key
  · show toStr (o.look "json-rpc.address-ws") = s
    rw [h]; exact key
  · have ha : (getConfig c o).apis = splitComma s := by
      show splitComma (toStr (o.look "json-rpc.apis")) = _
      rw [h, key]
    refine ⟨ha, fun hs l hl => ?_⟩
    have hr : l = register (splitComma s) services := by
      unfold start at hl
      rw [ha] at hl
      split at hl
      · cases hl
      · split at hl
        · cases hl
        · split at hl
          · cases hl
          · injection hl with hl; exact hl.symm
    rw [hr, List.eq_nil_iff_forall_not_mem]
    rintro ⟨ns, m⟩ hm
    rw [mem_register] at hm
    obtain ⟨hn, ms, h, _⟩ := hm
    exact hs _ h hn

example : (getConfig ⟨fun _ => none, fun _ => none, fun _ => none, fun _ => []⟩
    ⟨fun _ => none, fun k => if k = "json-rpc.apis" then some (.int 7) else none⟩).apis = ["7".toList] := by
  decide +kernel

/-- **C156 (switches).** A server runs (with room for waiting transactions) if its switch is `true` or any number but zero, or a text
that means `true`; it is off if the switch is `false`, zero, a text that means `false`, a list, or is nowhere. -/
theorem C156_switch {M : Type} (c : Conv) (o : Opts) (services : List (Str × List M)) (ws on : Bool) (hq : 0 < (getConfig c o).queuedCap)
    (h : ∃ v, o.look (if ws then "json-rpc.enable-ws" else "json-rpc.enable") = v ∧
      (v = some (.bool on) ∨ (∃ i, v = some (.int i) ∧ (on = true ↔ i ≠ 0)) ∨ (∃ s, v = some (.str s) ∧ c.parseBool s = some on) ∨
        ((v = none ∨ ∃ l, v = some (.list l)) ∧ on = false))) :
    start (getConfig c o) ws services = if on then .serving (register (getConfig c o).apis services) else .off := by
  obtain ⟨v, hv, h⟩ := h
  have hb : c.toBool v = on := by
    rcases h with rfl | ⟨i, rfl, hi⟩ | ⟨s, rfl, hs⟩ | ⟨rfl | ⟨l, rfl⟩, rfl⟩
    · rfl
    · simp only [Conv.toBool]
      cases on with
      | true => simpa using hi.mp rfl
      | false =>
        by_cases h0 : i = 0
        · simp [h0]
        · exact absurd (hi.mpr h0) (by simp)
    · simp [Conv.toBool, hs]
    · rfl
    · rfl
  unfold start
  cases ws with
  | false =>
    have he : (getConfig c o).enable = on := by
      show c.toBool (o.look "json-rpc.enable") = on
      simp only [Bool.false_eq_true, if_false] at hv
      rw [hv]; exact hb
    rw [he]
    cases on
    · simp
    · simp only [Bool.not_false, Bool.not_true, Bool.and_false, Bool.false_and, Bool.false_eq_true, if_false, if_true]
      rw [if_neg (by omega)]
  | true =>
    have he : (getConfig c o).enableWS = on := by
      show c.toBool (o.look "json-rpc.enable-ws") = on
      simp only [if_true] at hv
      rw [hv]; exact hb
    rw [he]
    cases on
    · simp
    · simp only [Bool.not_true, Bool.and_false, Bool.false_and, Bool.false_eq_true, if_false, if_true]
      rw [if_neg (by omega)]

/-- **C156 (x/evm).** The options of the EVM keeper and the indexer take their defaults if they are set nowhere, and the values
that are set, if these are positive. -/
theorem C156_evm (c : Conv) (o : Opts) :
    (o.look "evm.contract-simulation-gas-limit" = none → simGasLimit c o = 3000000) ∧
    (o.look "evm.indexer-cache-size" = none → cacheSize c o = 100) ∧
    (∀ n : Nat, 0 < n → o.look "evm.contract-simulation-gas-limit" = some (.int n) → simGasLimit c o = n) ∧
    (∀ n : Nat, 0 < n → o.look "evm.indexer-cache-size" = some (.int n) → cacheSize c o = n) := by
  refine ⟨fun h => ?_, fun h => ?_, fun n hn h => ?_, fun n hn h => ?_⟩
  · simp [simGasLimit, h, Conv.toInt]
  · simp [cacheSize, h, Conv.toInt]
  · simp only [simGasLimit, h, Conv.toInt, Int.toNat_natCast]
    rw [if_neg (by omega)]
  · simp only [cacheSize, h, Conv.toInt]
    rw [if_neg (by omega)]

/-- **C156 (limits).** A server whose limits are set to positive numbers answers a batch exactly if it has no more requests than
the limit, and has at most the configured number of connections open. -/
theorem C156_limits (c : Conv) (o : Opts) (b m : Nat) (hb : 0 < b) (hm : 0 < m)
    (hob : o.look "json-rpc.batch-request-limit" = some (.int b))
    (hom : o.look "json-rpc.max-open-connections" = some (.int m)) (n : Nat) :
    (answersBatch (getConfig c o) n = true ↔ n ≤ b) ∧ (accepts (getConfig c o) n = true ↔ n < m) := by
  have e1 : (getConfig c o).batchLimit = b := by show c.toInt _ = _; rw [hob]; rfl
  have e2 : (getConfig c o).maxOpen = m := by show c.toInt _ = _; rw [hom]; rfl
  unfold answersBatch accepts
  rw [e1, e2, if_pos (by omega)]
  simp only [Bool.or_eq_true, decide_eq_true_eq]
  constructor <;> constructor <;> intro h <;> omega

/-- **C156 (mistyped, violated).** A limit that cannot be read is not reported and is not the default: every batch is answered,
every connection accepted. The options of x/evm take their defaults, silently. -/
theorem C156_mistyped_violated (c : Conv) (o : Opts) (s : Str) (hs : c.parseInt s = none) (n : Nat) :
    (o.look "json-rpc.batch-request-limit" = some (.str s) → answersBatch (getConfig c o) n = true) ∧
    (o.look "json-rpc.max-open-connections" = some (.str s) → accepts (getConfig c o) n = true) ∧
    (o.look "evm.contract-simulation-gas-limit" = some (.str s) → simGasLimit c o = 3000000) ∧
    (o.look "evm.indexer-cache-size" = some (.str s) → cacheSize c o = 100) := by
  refine ⟨fun h => ?_, fun h => ?_, fun h => ?_, fun h => ?_⟩
  · have : (getConfig c o).batchLimit = 0 := by show c.toInt _ = _; rw [h]; simp [Conv.toInt, hs]
    simp [answersBatch, this]
  · have : (getConfig c o).maxOpen = 0 := by show c.toInt _ = _; rw [h]; simp [Conv.toInt, hs]
    simp [accepts, this]
  · simp [simGasLimit, h, Conv.toInt, hs]
  · simp [cacheSize, h, Conv.toInt, hs]

/-- **C156 (a switch for a number, violated).** `true` where a number belongs is the number one, and `false` is zero, which for
the limits of the server means none. -/
theorem C156_switch_number_violated (c : Conv) (o : Opts) (b : Bool) (n : Nat) :
    (o.look "json-rpc.batch-request-limit" = some (.bool b) → (answersBatch (getConfig c o) n = true ↔ b = false ∨ n ≤ 1)) ∧
    (o.look "json-rpc.queued-transaction-cap" = some (.bool b) → (getConfig c o).queuedCap = if b then 1 else 0) ∧
    (o.look "evm.contract-simulation-gas-limit" = some (.bool b) → simGasLimit c o = if b then 1 else 3000000) := by
  refine ⟨fun h => ?_, fun h => ?_, fun h => ?_⟩
  · have : (getConfig c o).batchLimit = if b then 1 else 0 := by show c.toInt _ = _; rw [h]; cases b <;> rfl
    cases b <;> simp [answersBatch, this] <;> omega
  · show c.toInt _ = _; rw [h]; cases b <;> rfl
  · cases b <;> simp [simGasLimit, h, Conv.toInt]

/-- **C156 (mistyped switches and times, violated).** An `enable` that cannot be read switches the server off, whatever the
default; a timeout that cannot be read, or that is set nowhere, is none at all (`http.Server` reads 0 as no limit), although
the default is ten seconds. -/
theorem C156_mistyped_switch_violated {M : Type} (c : Conv) (o : Opts) (s : Str) (ws : Bool) (services : List (Str × List M)) :
    (c.parseBool s = none → o.look "json-rpc.enable" = some (.str s) → start (getConfig c o) false services = .off ∧
      defaults.enable = true) ∧
    (c.parseBool s = none → o.look "json-rpc.enable-ws" = some (.str s) → start (getConfig c o) true services = .off ∧
      defaults.enableWS = true) ∧
    (c.parseDur s = none ∧ o.look "json-rpc.http-timeout" = some (.str s) ∨ o.look "json-rpc.http-timeout" = none →
      (getConfig c o).httpTimeout = 0 ∧ defaults.httpTimeout = 10 * 1000000000) := by
  refine ⟨fun hs h => ⟨?_, rfl⟩, fun hs h => ⟨?_, rfl⟩, fun h => ⟨?_, by decide⟩⟩
  · have : (getConfig c o).enable = false := by show c.toBool _ = false; rw [h]; simp [Conv.toBool, hs]
    simp [start, this]
  · have : (getConfig c o).enableWS = false := by show c.toBool _ = false; rw [h]; simp [Conv.toBool, hs]
    simp [start, this]
  · show c.toDur _ = 0
    rcases h with ⟨hs, h⟩ | h <;> rw [h] <;> simp [Conv.toDur, *]

/-- **C156 (filter timeout).** Filters live as long as the option says; five minutes, the documented default, if it is zero,
set nowhere or cannot be read. -/
theorem C156_filter_timeout (c : Conv) (o : Opts) :
    (∀ t, 0 < t → (getConfig c o).filterTimeout = t → filterLife (getConfig c o) = some t) ∧
    ((o.look "json-rpc.filter-timeout" = none ∨ o.look "json-rpc.filter-timeout" = some (.int 0) ∨
      ∃ s, o.look "json-rpc.filter-timeout" = some (.str s) ∧ c.parseDur s = none) →
      filterLife (getConfig c o) = some (5 * 60 * 1000000000)) := by
  constructor
  · intro t h1 h2
    simp only [filterLife, h2]
    rw [if_neg (by omega), if_neg (by omega)]
  · intro h
    have : (getConfig c o).filterTimeout = 0 := by
      show c.toDur _ = 0
      rcases h with h | h | ⟨s, h, hs⟩ <;> rw [h] <;> simp [Conv.toDur, *]
    simp [filterLife, this]

/-- **C156 (negative filter timeout, violated).** A node with a negative filter timeout dies as soon as one of its two servers
is up, even if no namespace is served at all; with any other it comes up, each server as configured. -/
theorem C156_filter_timeout_violated {M : Type} (g : Cfg) (services : List (Str × List M)) :
    boot g services = none ↔ g.filterTimeout < 0 ∧ 0 < g.queuedCap ∧ (g.enable = true ∨ g.enableWS = true) := by
  have hl : filterLife g = none ↔ g.filterTimeout < 0 := by
    unfold filterLife
    simp only
    split
    · next h => simp [h]
    · next h =>
      split
      · next h2 => simp; omega
      · next h2 => simp; omega
  unfold boot start
  cases g.enable <;> cases g.enableWS <;> by_cases hq : g.queuedCap ≤ 0 <;>
    simp [hq, hl] <;> omega

/-- **C156 (both servers).** A node that comes up serves on each address what `start` says. -/
theorem C156_boot {M : Type} (g : Cfg) (services : List (Str × List M)) (h : 0 ≤ g.filterTimeout) :
    boot g services = some (start g false services, start g true services) := by
  have : boot g services ≠ none := by
    intro e
    have := (C156_filter_timeout_violated g services).mp e
    omega
  unfold boot at this ⊢
  split <;> simp_all
  · cases hf : filterLife g with
    | none => simp [hf] at this
    | some t => exact ⟨t, rfl⟩
  · cases hf : filterLife g with
    | none => simp [hf] at this
    | some t => exact ⟨t, rfl⟩

/-- The default configuration comes up on both addresses; with `-5m` the process ends. -/
example : (boot defaults [("eth".toList, ["eth_call".toList])]).isSome = true ∧
    boot { defaults with filterTimeout := -300000000000, apis := [] } [("eth".toList, ["eth_call".toList])] = none := by
  constructor
  · decide +kernel
  · rw [C156_filter_timeout_violated]; decide

/-- Conversions for the examples: durations as decimal numbers. -/
def toyConv : Conv where
  parseBool s := if s = "true".toList then some true else if s = "false".toList then some false else none
  parseInt := parseInt
  parseDur := parseInt
  durStr := intStr

example : getConfig toyConv ⟨fun _ => none, written toyConv defaults⟩ = defaults :=
  C156_written toyConv parseInt_intStr defaults (by decide) (by decide)

/-- The environment wins. -/
example : (getConfig toyConv ⟨fun k => if k = "json-rpc.apis" then some "eth,web3".toList else none, written toyConv defaults⟩).apis =
    ["eth".toList, "web3".toList] := by decide +kernel

/-- `1k` is no number: with the default file a batch of 1001 requests is refused, with this one it is answered. -/
example : answersBatch (getConfig toyConv ⟨fun _ => none, written toyConv defaults⟩) 1001 = false ∧
    answersBatch (getConfig toyConv ⟨fun k => if k = "json-rpc.batch-request-limit" then some "1k".toList else none,
      written toyConv defaults⟩) 1001 = true := by decide +kernel

/-- Two namespaces served. -/
example : ∃ l, start { defaults with apis := ["net".toList, "web3".toList] } false services = .serving l ∧
    l.map Prod.snd = ["Listening", "PeerCount", "Version", "ClientVersion", "Sha3"] := ⟨_, rfl, by decide +kernel⟩

end Verif.Props.NodeConfig
