/-
The two goroutines of a range query for logs (`eth_getLogs`, `eth_getFilterLogs`):
jsonrpc/namespaces/eth/filters/filter.go:121-185. One walks the blocks and sends what it finds over one unbuffered channel
and the final error over another; the other collects. The index goes on changing meanwhile and the client may go away.
-/
namespace Verif.LogStream

/-- What the walking goroutine asks: jsonrpc/backend `GetHeaderByNumber` and filter.go:188-205 (`blockLogs`), in the state
`D` of the index at that time. -/
structure Backend (D H L E : Type) where
  /-- `.error`: an error; `.ok none`: no such header, no error -/
  header : D → Nat → Except E (Option H)
  logs : D → H → Except E (List L)
  /-- `ctx.Err()` -/
  ctxErr : E

/-- The walking goroutine (filter.go:147-159, 166-185). -/
inductive Walker (H L E : Type) where
  /-- at the head of the loop, with `f.begin` -/
  | look (b : Nat)
  /-- it has the header of block `b` -/
  | scan (b : Nat) (h : H)
  /-- in the inner loop, with the logs left to send -/
  | send (b : Nat) (left : List L)
  /-- at `errChan <- err` -/
  | report (e : Option E)
  /-- the deferred function: `close(errChan)`, then `close(logChan)` -/
  | closing
  | closing2
  | done

/-- The collecting goroutine (filter.go:121-135). -/
inductive Collector (L E : Type) where
  /-- in the loop, with `logs`; `none` would be a nil log -/
  | loop (acc : List (Option L))
  | ret (acc : List (Option L)) (e : Option E)

structure Sys (D H L E : Type) where
  db : D
  /-- `ctx.Done()` is closed -/
  cancelled : Bool
  prod : Walker H L E
  cons : Collector L E
  errClosed : Bool
  logClosed : Bool

variable {D H L E : Type}

/-- filter.go:121-122, 140-145: the state when the query starts with range `b` to `end`. -/
def start (db : D) (b : Nat) : Sys D H L E := ⟨db, false, .look b, .loop [], false, false⟩

/-- One step of the program, by either goroutine or by both at a rendezvous on an unbuffered channel. -/
inductive Step (be : Backend D H L E) (end_ : Nat) : Sys D H L E → Sys D H L E → Prop
  /-- filter.go:167: the loop is over -/
  | over {s b} (hp : s.prod = .look b) (h : end_ < b) : Step be end_ s { s with prod := .report none }
  /-- filter.go:168-171 -/
  | headerErr {s b e} (hp : s.prod = .look b) (hb : b ≤ end_) (h : be.header s.db b = .error e) :
      Step be end_ s { s with prod := .report (some e) }
  | headerNil {s b} (hp : s.prod = .look b) (hb : b ≤ end_) (h : be.header s.db b = .ok none) :
      Step be end_ s { s with prod := .report none }
  | header {s b hd} (hp : s.prod = .look b) (hb : b ≤ end_) (h : be.header s.db b = .ok (some hd)) :
      Step be end_ s { s with prod := .scan b hd }
  /-- filter.go:172-175 -/
  | logsErr {s b hd e} (hp : s.prod = .scan b hd) (h : be.logs s.db hd = .error e) :
      Step be end_ s { s with prod := .report (some e) }
  | logs {s b hd l} (hp : s.prod = .scan b hd) (h : be.logs s.db hd = .ok l) :
      Step be end_ s { s with prod := .send b l }
  /-- filter.go:176: the inner loop is over; `f.begin++` -/
  | next {s b} (hp : s.prod = .send b []) : Step be end_ s { s with prod := .look (b + 1) }
  /-- filter.go:178 with 126-127: a log is handed over -/
  | pass {s b x l acc} (hp : s.prod = .send b (x :: l)) (hc : s.cons = .loop acc) :
      Step be end_ s { s with prod := .send b l, cons := .loop (acc ++ [some x]) }
  /-- filter.go:179-180 -/
  | abort {s b x l} (hp : s.prod = .send b (x :: l)) (hx : s.cancelled = true) :
      Step be end_ s { s with prod := .report (some be.ctxErr) }
  /-- filter.go:154 or 158 with 128-133: the error is handed over -/
  | tell {s e acc} (hp : s.prod = .report e) (hc : s.cons = .loop acc) :
      Step be end_ s { s with prod := .closing, cons := .ret acc e }
  /-- filter.go:149 -/
  | closeErr {s} (hp : s.prod = .closing) : Step be end_ s { s with prod := .closing2, errClosed := true }
  /-- filter.go:150 -/
  | closeLog {s} (hp : s.prod = .closing2) : Step be end_ s { s with prod := .done, logClosed := true }
  /-- filter.go:126-127: receiving from a closed channel gives a nil log -/
  | nilLog {s acc} (hc : s.cons = .loop acc) (h : s.logClosed = true) :
      Step be end_ s { s with cons := .loop (acc ++ [none]) }
  /-- filter.go:128-133: receiving from a closed channel gives a nil error -/
  | nilErr {s acc} (hc : s.cons = .loop acc) (h : s.errClosed = true) :
      Step be end_ s { s with cons := .ret acc none }

/-- What happens around the query: the index changes (as `R` allows), the client goes away. -/
inductive Around (R : D → D → Prop) : Sys D H L E → Sys D H L E → Prop
  | index {s db'} (h : R s.db db') : Around R s { s with db := db' }
  | cancel {s} : Around R s { s with cancelled := true }

/-- Any interleaving. -/
inductive Reach (be : Backend D H L E) (end_ : Nat) (R : D → D → Prop) (s : Sys D H L E) : Sys D H L E → Prop
  | refl : Reach be end_ R s s
  | step {t u} (h : Reach be end_ R s t) (st : Step be end_ t u) : Reach be end_ R s u
  | around {t u} (h : Reach be end_ R s t) (st : Around R t u) : Reach be end_ R s u

end Verif.LogStream
