/-!
# The AXI4-Lite bridges: handshakes, queues and reset

`tlm-bridges/axilite2tlm-bridge.h` and `tlm-bridges/tlm2axilite-bridge.h`, as transition systems whose
actions are the segments of the SystemC processes between two waits.  A schedule is any list of
actions; the signals the other side drives are arguments of the actions.  Fields marked *ghost* record
what happened and are not read.

A reset is one action: reset asserted and released again with nothing in between, except that a TLM
call under way may return later (also after the release).
-/

namespace Verif.AxiLite.Ctl

/-! ## AXI4-Lite to TLM

The part both directions have in common: requests wait for the TLM thread (`rtFifo`, `wtFifo`), are
executed one at a time (`m_cur_TLM_rd`, `m_cur_TLM_wr`), wait for the response channel (`rdDataFifo`,
`wrRespFifo`) and are driven on it. -/

/-- `ρ` is a request, `β` what the target answers. -/
structure Pipe (ρ β : Type) where
  todo : List ρ := []
  /-- the request the TLM thread is executing, and whether its abort is scheduled -/
  cur : Option (ρ × Bool) := none
  done : List (ρ × β) := []
  /-- `rvalid` / `bvalid` asserted for this one -/
  drv : Option (ρ × β) := none
  /-- ghost: requests that entered, since the last reset -/
  acc : List ρ := []
  /-- ghost: TLM calls that returned, since the last reset -/
  res : List (ρ × β) := []
  /-- ghost: responses handed over, since the last reset -/
  ans : List (ρ × β) := []

variable {ρ β α δ : Type}

/-- A request enters the queue (axilite2tlm-bridge.h 385, 491). -/
def Pipe.push (s : Pipe ρ β) (r : ρ) : Pipe ρ β :=
  { s with todo := s.todo ++ [r], acc := s.acc ++ [r] }

/-- `RunTLMTransaction` takes the next request (307). -/
def Pipe.take (s : Pipe ρ β) : Pipe ρ β :=
  match s.cur, s.todo with
  | none, r :: rs => { s with cur := some (r, false), todo := rs }
  | _, _ => s

/-- `b_transport` returns (and the annotated delay passes): the request is thrown away when a reset
came in between (317-347). -/
def Pipe.ret (s : Pipe ρ β) (b : β) : Pipe ρ β :=
  match s.cur with
  | some (r, false) => { s with cur := none, done := s.done ++ [(r, b)], res := s.res ++ [(r, b)] }
  | some (_, true) => { s with cur := none }
  | none => s

/-- The response thread takes the next response and asserts valid (401-421, 500-517). -/
def Pipe.drive (s : Pipe ρ β) : Pipe ρ β :=
  match s.drv, s.done with
  | none, x :: xs => { s with drv := some x, done := xs }
  | _, _ => s

/-- Whether a clock edge with this `rready` / `bready` completes the response. -/
def Pipe.fires (s : Pipe ρ β) (ready : Bool) : Bool := s.drv.isSome && ready

/-- A clock edge of the response thread (424-428, 520-524). -/
def Pipe.edge (s : Pipe ρ β) (ready : Bool) : Pipe ρ β :=
  match s.drv, ready with
  | some x, true => { s with drv := none, ans := s.ans ++ [x] }
  | _, _ => s

/-- `reset` (541-567) and the reactions of the threads. -/
def Pipe.reset (s : Pipe ρ β) : Pipe ρ β := { cur := s.cur.map fun x => (x.1, true) }

/-- Requests in the pipe that count. -/
def Pipe.load (s : Pipe ρ β) : Nat :=
  s.todo.length + (match s.cur with | some (_, false) => 1 | _ => 0) + s.done.length + s.drv.toList.length

/-- `m_maxReadTransactions`, `m_maxWriteTransactions` (112-113); also the capacity of an `sc_fifo`. -/
def maxTr : Nat := 16

/-- The read side; `arready` is the signal of that name. -/
structure Rd (ρ β : Type) where
  num : Nat := 0
  arready : Bool := true
  pipe : Pipe ρ β := {}

inductive RAct (ρ β : Type)
  /-- clock edge of `read_address_phase`, with what the master drives -/
  | ar (r : Option ρ)
  | take
  | ret (b : β)
  | drive
  | edge (ready : Bool)
  | reset

/-- The read threads (axilite2tlm-bridge.h 363-441). -/
def Rd.step (s : Rd ρ β) : RAct ρ β → Rd ρ β
  | .ar (some r) =>
    if s.arready then
      { num := s.num + 1, arready := decide (s.num + 1 < maxTr), pipe := s.pipe.push r }
    else { s with arready := decide (s.num < maxTr) }
  | .ar none => { s with arready := decide (s.num < maxTr) }
  | .take => { s with pipe := s.pipe.take }
  | .ret b => { s with pipe := s.pipe.ret b }
  | .drive => { s with pipe := s.pipe.drive }
  | .edge ready =>
    { s with pipe := s.pipe.edge ready, num := if s.pipe.fires ready then s.num - 1 else s.num }
  | .reset => { num := 0, arready := true, pipe := s.pipe.reset }

def Rd.run (s : Rd ρ β) (as : List (RAct ρ β)) : Rd ρ β := as.foldl Rd.step s

/-- The write side: `wd` is `wrDataFifo`, `hold` the request `write_data_phase` has taken, for which
`wready` is asserted.  `α` is what the address channel carries, `δ` the write data. -/
structure Wr (α δ β : Type) where
  num : Nat := 0
  awready : Bool := true
  wd : List α := []
  hold : Option α := none
  pipe : Pipe (α × δ) β := {}
  /-- ghost: addresses and data accepted, since the last reset -/
  aws : List α := []
  ws : List δ := []

inductive WAct (α δ β : Type)
  | aw (a : Option α)
  /-- `write_data_phase` takes the next request and asserts `wready` -/
  | wtake
  /-- clock edge of `write_data_phase`, with what the master drives -/
  | w (d : Option δ)
  | take
  | ret (b : β)
  | drive
  | edge (ready : Bool)
  | reset

/-- The write threads (axilite2tlm-bridge.h 443-537). -/
def Wr.step (s : Wr α δ β) : WAct α δ β → Wr α δ β
  | .aw (some a) =>
    if s.awready then
      { s with num := s.num + 1, awready := decide (s.num + 1 < maxTr), wd := s.wd ++ [a], aws := s.aws ++ [a] }
    else { s with awready := decide (s.num < maxTr) }
  | .aw none => { s with awready := decide (s.num < maxTr) }
  | .wtake =>
    match s.hold, s.wd with
    | none, a :: rest => { s with hold := some a, wd := rest }
    | _, _ => s
  | .w d =>
    match s.hold, d with
    | some a, some d => { s with hold := none, ws := s.ws ++ [d], pipe := s.pipe.push (a, d) }
    | _, _ => s
  | .take => { s with pipe := s.pipe.take }
  | .ret b => { s with pipe := s.pipe.ret b }
  | .drive => { s with pipe := s.pipe.drive }
  | .edge ready =>
    { s with pipe := s.pipe.edge ready, num := if s.pipe.fires ready then s.num - 1 else s.num }
  | .reset => { num := 0, awready := true, pipe := s.pipe.reset }

def Wr.run (s : Wr α δ β) (as : List (WAct α δ β)) : Wr α δ β := as.foldl Wr.step s

/-! ## TLM to AXI4-Lite

The mutex of `b_transport` admits one call at a time, so a queue is empty or holds that call. -/

/-- The write side of the master. -/
structure MWr where
  /-- a call is waiting for its `DoneEvent` -/
  busy : Bool := false
  /-- in `wrTransFifo`, `awvalid` asserted, in `wrDataFifo`, `wvalid` asserted, in `wrResponses` -/
  tf : Bool := false
  aw : Bool := false
  df : Bool := false
  w : Bool := false
  rf : Bool := false
  /-- `write_resp_phase` has seen `bvalid` and waits for `wrResponses` -/
  got : Bool := false
  /-- ghost: handshakes on the three channels and calls returned after a response, since the last
  reset; calls aborted -/
  nAw : Nat := 0
  nW : Nat := 0
  nB : Nat := 0
  done : Nat := 0
  aborted : Nat := 0
  deriving DecidableEq, Repr

inductive MAct
  /-- `b_transport` called with an acceptable payload -/
  | call
  /-- the address thread takes it and asserts `awvalid` -/
  | ataken
  | awEdge (ready : Bool)
  /-- the data thread takes it and asserts `wvalid` -/
  | wtaken
  | wEdge (ready : Bool)
  | bEdge (valid : Bool)
  | reset
  deriving DecidableEq, Repr

/-- The call returns. -/
def MWr.finish (s : MWr) : MWr := { s with busy := false, rf := false, got := false, done := s.done + 1 }

/-- The write threads (tlm2axilite-bridge.h 250-280, 300-347, 457-504) and `reset` (551-568): the
queues are emptied and their transactions aborted; a transaction the data thread has taken (`w`) is in
no queue, and the thread drops it (470-476). -/
def MWr.step (s : MWr) : MAct → MWr
  | .call => if s.busy then s else { s with busy := true, tf := true }
  | .ataken => if s.tf ∧ ¬ s.aw then { s with tf := false, aw := true, df := true } else s
  | .awEdge ready => if s.aw ∧ ready then { s with aw := false, nAw := s.nAw + 1 } else s
  | .wtaken => if s.df ∧ ¬ s.w then { s with df := false, w := true } else s
  | .wEdge ready =>
    if s.w ∧ ready then
      if s.got then { s with w := false, nW := s.nW + 1 }.finish
      else { s with w := false, nW := s.nW + 1, rf := true }
    else s
  | .bEdge valid =>
    if valid ∧ ¬ s.got then
      if s.rf then { s with nB := s.nB + 1 }.finish
      else { s with nB := s.nB + 1, got := true }
    else s
  | .reset =>
    if s.tf ∨ s.df ∨ s.rf then
      { got := s.got, aborted := s.aborted + 1 }
    else { busy := s.busy, got := s.got, aborted := s.aborted }

def MWr.run (s : MWr) (as : List MAct) : MWr := as.foldl MWr.step s

/-- The read side of the master: in `rdTransFifo`, `arvalid` asserted (the address thread keeps the
transaction), in `rdResponses`; `got`: `read_resp_phase` has seen `rvalid` and waits for
`rdResponses`. -/
structure MRd where
  busy : Bool := false
  tf : Bool := false
  ar : Bool := false
  rf : Bool := false
  got : Bool := false
  /-- ghost, as above -/
  nAr : Nat := 0
  nR : Nat := 0
  done : Nat := 0
  aborted : Nat := 0
  deriving DecidableEq, Repr

inductive MRAct
  | call
  | ataken
  | arEdge (ready : Bool)
  | rEdge (valid : Bool)
  | reset
  deriving DecidableEq, Repr

def MRd.finish (s : MRd) : MRd := { s with busy := false, rf := false, got := false, done := s.done + 1 }

/-- The read threads (tlm2axilite-bridge.h 282-298, 315-455) and `reset`. -/
def MRd.step (s : MRd) : MRAct → MRd
  | .call => if s.busy then s else { s with busy := true, tf := true }
  | .ataken => if s.tf ∧ ¬ s.ar then { s with tf := false, ar := true } else s
  | .arEdge ready =>
    if s.ar ∧ ready then
      if s.got then { s with ar := false, nAr := s.nAr + 1 }.finish
      else { s with ar := false, nAr := s.nAr + 1, rf := true }
    else s
  | .rEdge valid =>
    if valid ∧ ¬ s.got then
      if s.rf then { s with nR := s.nR + 1 }.finish
      else { s with nR := s.nR + 1, got := true }
    else s
  | .reset =>
    if s.tf ∨ s.ar ∨ s.rf then { got := s.got, aborted := s.aborted + 1 }
    else { busy := s.busy, got := s.got, aborted := s.aborted }

def MRd.run (s : MRd) (as : List MRAct) : MRd := as.foldl MRd.step s

end Verif.AxiLite.Ctl
