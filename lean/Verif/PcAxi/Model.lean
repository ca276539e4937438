import Verif.Base.Bytes

/-! # The AXI protocol checker

checkers/checker-axi.h and checkers/checker-utils.h.  Everything is modelled at the granularity of
clock cycles: the values sampled at the rising edge that ends the cycle, on the assumption that all
signals of a channel change together after an edge and keep their value until the next one.  A checker
is a function from its state and the cycle to its new state and the errors it reports
(`SC_REPORT_ERROR`).  `m_pc` wiring, trace output and the texts of the messages are not modelled. -/

namespace Verif.PcAxi

/-- One cycle of one channel; `pay` stands for all the signals that must be stable
(checker-axi.h 58-271, `cmp_eq_stable_valid_cycle_signals`). -/
structure Sample (σ : Type) where
  rst : Bool := false
  valid : Bool
  ready : Bool
  pay : σ
  deriving DecidableEq, Repr

/-! ## Stable signals -/

/-- Where `monitor_xchannel_stable::run` waits (checker-utils.h 640-692): for the release of the reset,
for a rising edge of `valid` (with the last value of `valid`), or inside the loop `while (ready ==
false)` with the saved channel. -/
inductive Stable (σ : Type)
  | release
  | idle (prev : Bool)
  | mon (saved : σ)
  deriving DecidableEq, Repr

/-- checker-utils.h 650-690: one cycle; the result says whether "unstable signals" was reported.  The
comparison at the end of the first cycle compares the sample with itself. -/
def Stable.step {σ : Type} [DecidableEq σ] : Stable σ → Sample σ → Stable σ × Bool
  | .release, s => (if s.rst then .release else .idle s.valid, false)
  | .idle prev, s =>
    if s.rst then (.release, false)
    else if !prev && s.valid then (if s.ready then .idle true else .mon s.pay, false)
    else (.idle s.valid, false)
  | .mon saved, s =>
    if s.rst then (.release, false)
    else (if s.ready then .idle s.valid else .mon saved, decide (saved ≠ s.pay))

/-! ## Handshakes -/

/-- `HandshakeMonitor` (checker-utils.h 521-608); both counters are `uint32_t`. -/
structure Hs where
  validWait : Nat := 0
  readyWait : Nat := 0
  deriving DecidableEq, Repr

inductive HsErr
  | validHang | readyHang | dropped
  deriving DecidableEq, Repr

def inc32 (n : Nat) : Nat := (n + 1) % 2 ^ 32

/-- `HandshakeMonitor::run` (checker-utils.h 537-568) with `inc_valid_w`, `inc_ready_w` (570-594) and
`restart` (596-600): new state, errors, and whether the handshake took place. -/
def Hs.step (max : Nat) (h : Hs) (inc valid ready : Bool) : Hs × List HsErr × Bool :=
  if !valid then
    let h' := if inc then { h with validWait := inc32 h.validWait } else h
    (h', (if inc ∧ h'.validWait = max then [.validHang] else []) ++
      (if h'.readyWait ≠ 0 then [.dropped] else []), false)
  else if !ready then
    let h' := { h with readyWait := inc32 h.readyWait }
    (h', if h'.readyWait = max then [.readyHang] else [], false)
  else ({}, [], true)

/-- The handshakes of one cycle as `axi_handshakes_checker::run` sees them: `AxLEN` of an accepted
address, `WLAST` of an accepted data beat, and the identifiers. -/
structure HsCycle where
  ar : Option Nat := none
  r : Bool := false
  aw : Option (Nat × Nat) := none
  w : Option (Bool × Nat) := none
  b : Option Nat := none
  deriving DecidableEq, Repr

/-- What the checker expects (checker-utils.h 370-374 and 615-617).  `m_rt` and the other counters are
machine integers of the code, unbounded integers here. -/
structure Exp where
  rt : Int := 0
  wd : Int := 0
  b : Int := 0
  aw : Int := 0
  wlast : Int := 0
  awids : List Nat := []
  wids : List Nat := []
  bids : List Nat := []
  deriving DecidableEq, Repr

/-- checker-utils.h 423-447: an accepted write address. -/
def Exp.doAw (axi3 : Bool) (e : Exp) (id len : Nat) : Exp :=
  let e := { e with wd := e.wd + len + 1 }
  if (!axi3 || e.wids.contains id) && decide (e.wlast > e.aw) then
    { e with b := e.b + 1, wlast := e.wlast - 1, wids := if axi3 then e.wids.erase id else e.wids,
             bids := e.bids ++ [id] }
  else { e with aw := e.aw + 1, awids := e.awids ++ [id] }

/-- checker-utils.h 449-498: an accepted data beat.  For AXI4 the code asserts that `m_awids` is not
empty; it never is (`Exp.doW_nonempty`). -/
def Exp.doW (axi3 : Bool) (e : Exp) (last : Bool) (wid : Nat) : Exp :=
  let e := { e with wd := e.wd - 1 }
  if last then
    if (!axi3 || e.awids.contains wid) && decide (e.aw > e.wlast) then
      if axi3 then
        { e with b := e.b + 1, aw := e.aw - 1, awids := e.awids.erase wid, bids := e.bids ++ [wid] }
      else
        match e.awids with
        | [] => { e with b := e.b + 1, aw := e.aw - 1 }
        | id :: ids => { e with b := e.b + 1, aw := e.aw - 1, awids := ids, bids := e.bids ++ [id] }
    else { e with wlast := e.wlast + 1, wids := if axi3 then e.wids ++ [wid] else e.wids }
  else e

/-- checker-utils.h 499-511. -/
def Exp.doB (e : Exp) (bid : Nat) : Exp :=
  if e.bids.contains bid then { e with bids := e.bids.erase bid, b := e.b - 1 } else e

/-- One cycle, in the order of the code (checker-utils.h 402-511). -/
def Exp.step (axi3 : Bool) (e : Exp) (c : HsCycle) : Exp :=
  let e := match c.ar with | some len => { e with rt := e.rt + len + 1 } | none => e
  let e := if c.r then { e with rt := e.rt - 1 } else e
  let e := match c.aw with | some (id, len) => e.doAw axi3 id len | none => e
  let e := match c.w with | some (last, wid) => e.doW axi3 last wid | none => e
  match c.b with | some bid => e.doB bid | none => e

def Exp.run (axi3 : Bool) (e : Exp) (cs : List HsCycle) : Exp := cs.foldl (Exp.step axi3) e

/-! ## Reads -/

/-- `check_rd_tx::Transaction` (checker-axi.h 293-371): the fields the checks use. -/
structure RTx where
  id : Nat
  left : Int
  excl : Bool
  deriving DecidableEq, Repr

inductive RErr
  | resp | burst | unknownId
  deriving DecidableEq, Repr

structure RdCfg where
  respCheck : Bool := true
  orderCheck : Bool := true
  depth : Nat := 64
  deriving DecidableEq, Repr

/-- An accepted read address: identifier, `ARLEN`, exclusive. -/
structure Ar where
  id : Nat
  len : Nat
  excl : Bool := false
  deriving DecidableEq, Repr

/-- An accepted read beat. -/
structure R where
  id : Nat
  resp : Nat := 0
  last : Bool
  deriving DecidableEq, Repr

/-- checker-axi.h 424-428. -/
def rdAr (c : RdCfg) (l : List RTx) (a : Ar) : List RTx :=
  if l.length < c.depth then l ++ [⟨a.id, a.len + 1, a.excl⟩] else l

/-- checker-axi.h 400-409. -/
def respOk (excl : Bool) (resp : Nat) : Bool := if excl then resp == 1 || resp == 0 else resp == 0

/-- Replace the first transaction with the identifier (`GetFirst` 373-385, then the update through the
pointer), or remove it. -/
def updFirst (id : Nat) (f : RTx → Option RTx) : List RTx → List RTx
  | [] => []
  | t :: l => if t.id = id then (match f t with | some t' => t' :: l | none => l) else t :: updFirst id f l

/-- checker-axi.h 430-478. -/
def rdR (c : RdCfg) (l : List RTx) (r : R) : List RTx × List RErr :=
  match l.find? (fun t => t.id = r.id) with
  | none => (l, [.unknownId])
  | some t =>
    let t' : RTx := { t with left := t.left - 1 }
    (updFirst r.id (fun _ => if r.last then none else some t') l,
      (if c.respCheck && !respOk t.excl r.resp then [.resp] else []) ++
      (if c.orderCheck && (r.last != decide (t'.left = 0)) then [.burst] else []))

/-- The read channels of one cycle. -/
inductive RdCycle
  | reset
  | clk (ar : Option Ar) (r : Option R)
  deriving DecidableEq, Repr

/-- `rd_check` (checker-axi.h 411-480). -/
def rdStep (c : RdCfg) (l : List RTx) : RdCycle → List RTx × List RErr
  | .reset => ([], [])
  | .clk ar r =>
    let l := match ar with | some a => rdAr c l a | none => l
    match r with | some r => rdR c l r | none => (l, [])

def rdRun (c : RdCfg) : List RTx → List RdCycle → List RTx × List RErr
  | l, [] => (l, [])
  | l, x :: xs =>
    let (l1, e1) := rdStep c l x
    let (l2, e2) := rdRun c l1 xs
    (l2, e1 ++ e2)

/-! ## Writes -/

/-- An accepted write address.  `burst`: 0 fixed, 1 incrementing, 2 wrapping (tlm-bridges/amba.h 40-44). -/
structure Aw where
  id : Nat
  addr : Nat
  len : Nat
  size : Nat
  burst : Nat
  excl : Bool := false
  deriving DecidableEq, Repr

/-- An accepted write data beat; `strb l` for lane `l` of the bus. -/
structure W where
  wid : Nat := 0
  strb : List Bool
  last : Bool
  deriving DecidableEq, Repr

/-- `check_wr_tx::Transaction` (checker-axi.h 503-684): the address and the number of the next beat,
counted from 1. -/
structure WTx where
  aw : Aw
  beat : Nat := 1
  deriving DecidableEq, Repr

def align (a n : Nat) : Nat := a / n * n

/-- `lower_byte_lane` and `upper_byte_lane` of `CheckWstrb` (checker-axi.h 546-575); the address is a
64-bit number, taken here without the wrap at the end of the address space. -/
def lanes (db : Nat) (t : WTx) : Nat × Nat :=
  let nb := 2 ^ t.aw.size
  let al := align t.aw.addr nb
  if t.beat = 1 then
    (t.aw.addr - align t.aw.addr db, al + (nb - 1) - align t.aw.addr db)
  else
    let addr := if t.aw.burst ≠ 0 then al + (t.beat - 1) * nb else al
    (addr - align addr db, addr - align addr db + (nb - 1))

def bit (strb : List Bool) (i : Nat) : Bool := strb.getD i false

/-- The two loops `for (; i <= upper_byte_lane; i++)` that stop at the first lane not enabled
(checker-axi.h 610-614, 621-625): the lane after the last one enabled, at most `n` lanes on. -/
def ones (strb : List Bool) : Nat → Nat → Nat
  | i, 0 => i
  | i, n + 1 => if bit strb i then ones strb (i + 1) n else i

/-- `CheckWstrb` (checker-axi.h 538-646).  Lanes beyond the bus read as 0 (the code would fault; that
takes an `AWSIZE` wider than the bus). -/
def checkWstrb (db : Nat) (gaps : Bool) (t : WTx) (strb : List Bool) : Bool :=
  let lo := (lanes db t).1
  let up := (lanes db t).2
  if !(List.range lo).all (fun i => !bit strb i) then false
  else if gaps then (List.range db).all (fun i => decide (i < up + 1) || !bit strb i)
  else if t.beat = t.aw.len + 1 then
    if !bit strb lo then false
    else
      let i := ones strb (lo + 1) (up - lo)
      (List.range db).all (fun j => decide (j < i) || !bit strb j)
  else if ones strb lo (up + 1 - lo) ≠ up + 1 then false
  else (List.range db).all (fun j => decide (j < up + 1) || !bit strb j)

inductive WErr
  | strb | burst | maxAw | maxW | maxResp | resp | unknownId
  deriving DecidableEq, Repr

structure WrCfg where
  db : Nat
  strbCheck : Bool := true
  gaps : Bool := true
  burstsCheck : Bool := true
  respCheck : Bool := true
  depth : Nat := 64
  deriving DecidableEq, Repr

/-- The three lists of `check_wr_tx` (checker-axi.h 1121-1123).  A response entry is the `WData` with
`wlast` and the transaction attached to it. -/
structure Wr where
  wt : List WTx := []
  wd : List W := []
  resp : List (W × Aw) := []
  deriving DecidableEq, Repr

def strbErr (c : WrCfg) (t : WTx) (w : W) : List WErr :=
  if c.strbCheck && !checkWstrb c.db c.gaps t w.strb then [.strb] else []

/-- `!wt->Done()` after the increment (checker-axi.h 529, 886-902). -/
def burstErr (c : WrCfg) (t : WTx) : List WErr :=
  if c.burstsCheck && !decide (t.beat + 1 > t.aw.len + 1) then [.burst] else []

/-- The end of the address and data phases (checker-axi.h 904-924). -/
def pushResp (c : WrCfg) (resp : List (W × Aw)) (w : W) (a : Aw) : List (W × Aw) × List WErr :=
  if resp.length < c.depth then (resp ++ [(w, a)], []) else (resp, [.maxResp])

/-- `process_aw_w_axi4` (checker-axi.h 862-933). -/
def proc4 (c : WrCfg) : List WTx → List W → List (W × Aw) → Wr × List WErr
  | [], wd, resp => (⟨[], wd, resp⟩, [])
  | wt, [], resp => (⟨wt, [], resp⟩, [])
  | t :: wt, w :: wd, resp =>
    if w.last then
      let (resp', e) := pushResp c resp w t.aw
      let (s, es) := proc4 c wt wd resp'
      (s, strbErr c t w ++ burstErr c t ++ e ++ es)
    else
      let (s, es) := proc4 c ({ t with beat := t.beat + 1 } :: wt) wd resp
      (s, strbErr c t w ++ es)

/-- The inner loop of `process_aw_w_axi3` (checker-axi.h 944-1008) for one transaction: the data beats
with its identifier are consumed up to the first with `wlast`.  Result: the transaction (if it is not
done), the data left, the beat with `wlast`, the errors. -/
def beats3 (c : WrCfg) (t : WTx) : List W → Option WTx × List W × Option W × List WErr
  | [] => (some t, [], none, [])
  | w :: wd =>
    if w.wid = t.aw.id then
      if w.last then (none, wd, some w, strbErr c t w ++ burstErr c t)
      else
        let (t', rest, l, es) := beats3 c { t with beat := t.beat + 1 } wd
        (t', rest, l, strbErr c t w ++ es)
    else
      let (t', rest, l, es) := beats3 c t wd
      (t', w :: rest, l, es)

/-- `process_aw_w_axi3` (checker-axi.h 935-1014). -/
def proc3 (c : WrCfg) : List WTx → List W → List (W × Aw) → Wr × List WErr
  | [], wd, resp => (⟨[], wd, resp⟩, [])
  | t :: wt, wd, resp =>
    match beats3 c t wd with
    | (t', rest, l, es) =>
      let (resp', e) := match l with | some w => pushResp c resp w t.aw | none => (resp, [])
      let (s, es') := proc3 c wt rest resp'
      ({ s with wt := t'.toList ++ s.wt }, es ++ e ++ es')

/-- An accepted write response. -/
structure B where
  id : Nat
  resp : Nat := 0
  deriving DecidableEq, Repr

/-- checker-axi.h 757-783: the identifier of a response entry. -/
def respId (axi3 : Bool) (x : W × Aw) : Nat := if axi3 then x.1.wid else x.2.id

/-- checker-axi.h 1075-1117. -/
def wrB (c : WrCfg) (axi3 : Bool) (resp : List (W × Aw)) (b : B) : List (W × Aw) × List WErr :=
  match resp.find? (fun x => respId axi3 x = b.id) with
  | none => (resp, [.unknownId])
  | some x =>
    (resp.eraseP (fun y => respId axi3 y = b.id),
      if c.respCheck && !respOk x.2.excl b.resp then [.resp] else [])

structure WrClk where
  aw : Option Aw := none
  w : Option W := none
  b : Option B := none
  deriving DecidableEq, Repr

/-- Accepting an address (checker-axi.h 1041-1049). -/
def wrAw (c : WrCfg) (wt : List WTx) : Option Aw → List WTx × List WErr
  | none => (wt, [])
  | some a => if wt.length < c.depth then (wt ++ [{ aw := a }], []) else (wt, [.maxAw])

/-- Accepting data (checker-axi.h 1051-1065); `max_wdata_depth` is 16 or 256 times the depth
(1019-1026). -/
def wrW (c : WrCfg) (axi3 : Bool) (wd : List W) : Option W → List W × List WErr
  | none => (wd, [])
  | some w =>
    if wd.length < c.depth * (if axi3 then 16 else 256) then (wd ++ [w], []) else (wd, [.maxW])

/-- `wr_check` (checker-axi.h 1016-1119), one cycle without reset. -/
def wrStep (c : WrCfg) (axi3 : Bool) (s : Wr) (x : WrClk) : Wr × List WErr :=
  let (wt, e1) := wrAw c s.wt x.aw
  let (wd, e2) := wrW c axi3 s.wd x.w
  let (s', e3) := (if axi3 then proc3 else proc4) c wt wd s.resp
  match x.b with
  | none => (s', e1 ++ e2 ++ e3)
  | some b =>
    let (resp, e4) := wrB c axi3 s'.resp b
    ({ s' with resp := resp }, e1 ++ e2 ++ e3 ++ e4)

def wrRun (c : WrCfg) (axi3 : Bool) : Wr → List WrClk → Wr × List WErr
  | s, [] => (s, [])
  | s, x :: xs =>
    let (s1, e1) := wrStep c axi3 s x
    let (s2, e2) := wrRun c axi3 s1 xs
    (s2, e1 ++ e2)

/-- `check_wr_tx::enabled` (checker-axi.h 497-500): whether the thread runs at all. -/
def wrEnabled (c : WrCfg) : Bool := c.strbCheck || c.burstsCheck

/-! ## Addresses -/

/-- `check_address_alignment` (checker-axi.h 1147-1178) in 64-bit arithmetic; `axlen` is passed as
`uint8_t`, `burstlen * numberBytes` is 32 bits wide. -/
def checkAlign (addr : BitVec 64) (burst size : Nat) (len : BitVec 8) : Bool :=
  let nb : BitVec 64 := BitVec.ofNat 64 (2 ^ size)
  let aligned := addr / nb * nb
  if burst = 2 then aligned == addr
  else if burst = 1 then
    let last := aligned + BitVec.ofNat 64 ((len.toNat + 1) * 2 ^ size) - 1
    (aligned &&& ~~~(4095 : BitVec 64)) == (last &&& ~~~(4095 : BitVec 64))
  else true

/-- `check_burst_length` (checker-axi.h 1180-1197). -/
def checkLen (burst len : Nat) : Bool :=
  if burst = 2 then len + 1 == 2 || len + 1 == 4 || len + 1 == 8 || len + 1 == 16 else true

/-- The address of a read is taken with `to_uint`, that is 32 bits of it (checker-axi.h 1218-1219); the
address of a write with `to_uint64` (1254-1255). -/
def readAddr (addr : BitVec 64) : BitVec 64 := BitVec.ofNat 64 (addr.toNat % 2 ^ 32)

end Verif.PcAxi
