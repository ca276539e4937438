import Verif.Base.Tlm
import Verif.Genattr.Model
/-!
# The traffic generator with programmed transfers

Models `/repo/traffic-generators/tg-tlm.h` driving a `TrafficDesc`
(`/repo/traffic-generators/traffic-desc.h`) of `DataTransfer`s
(`/repo/traffic-generators/data-transfer.h`). `SC_REPORT_ERROR` throws by
default, which ends the generating process, or continues if so configured: a
parameter. What `new uint8_t[n]` contains is a parameter. The debug output and
time are not modelled.
-/

namespace Verif.TgTlm
open Verif

/-- `DataTransfer::ext.gen_attr` (data-transfer.h 45-67). -/
structure Attr where
  enabled : Bool := false
  masterId : Nat := 0
  secure : Bool := false
  eop : Bool := false
  wrap : Bool := false
  burstWidth : Nat := 0
  transactionId : Nat := 0
  exclusive : Bool := false
  locked : Bool := false
  bufferable : Bool := false
  modifiable : Bool := false
  readAllocate : Bool := false
  writeAllocate : Bool := false
  qos : Nat := 0
  region : Nat := 0
  snoop : Nat := 0
  domain : Nat := 0
  barrier : Bool := false
  isRead : Bool := false
  deriving DecidableEq, Repr

/-- `DataTransfer` (data-transfer.h 28-69): pointers are null or point to the bytes
listed. -/
structure Xfer where
  addr : Nat
  cmd : Nat
  data : Option (List Byte)
  length : Nat
  byteEnable : Option (List Byte)
  byteEnableLength : Nat
  sw : Nat
  expect : Option (List Byte)
  attr : Attr := {}
  deriving DecidableEq, Repr

/-- `TrafficDesc::getCmd` (traffic-desc.h 45-56) with the constants of data-transfer.h 30-34. -/
def getCmd (x : Xfer) : Cmd :=
  if x.cmd = 1 then .write else if x.cmd = 0 then .read else .ignore

/-- `TrafficDesc::setExtensions` (traffic-desc.h 83-112). -/
def setExtensions (x : Xfer) : Option Genattr.Ext :=
  if x.attr.enabled then
    some <|
      [ (Genattr.Name.masterId, x.attr.masterId),
        (.secure, x.attr.secure.toNat),
        (.eop, x.attr.eop.toNat),
        (.wrap, x.attr.wrap.toNat),
        (.burstWidth, x.attr.burstWidth),
        (.transactionId, x.attr.transactionId),
        (.exclusive, x.attr.exclusive.toNat),
        (.locked, x.attr.locked.toNat),
        (.bufferable, x.attr.bufferable.toNat),
        (.modifiable, x.attr.modifiable.toNat),
        (.readAllocate, x.attr.readAllocate.toNat),
        (.writeAllocate, x.attr.writeAllocate.toNat),
        (.qos, x.attr.qos),
        (.region, x.attr.qos),
        (.snoop, x.attr.snoop),
        (.domain, x.attr.domain),
        (.barrier, x.attr.barrier.toNat),
        (.isReadTx, x.attr.isRead.toNat) ].foldl (fun e p => Genattr.set e p.1 p.2) Genattr.ctor
  else none

/-- What a target is given: the payload and its attributes. -/
structure Req where
  gp : Gp
  ext : Option Genattr.Ext

/-- The first `n` bytes behind a pointer; `none` if there are fewer, or it is null. -/
def bytes (p : Option (List Byte)) (n : Nat) : Option (List Byte) :=
  match p with
  | some l => if n ≤ l.length then some (l.take n) else none
  | none => if n = 0 then some [] else none

/-- The payload of one transfer (tg-tlm.h 202-226). `junk`: the bytes of a buffer just
allocated. `none`: the pointers do not cover the lengths. -/
def request (junk : Nat → Byte) (x : Xfer) : Option Req :=
  let data := if getCmd x = .write then bytes x.data x.length else some ((List.range x.length).map junk)
  let be := match x.byteEnable with
    | some _ => bytes x.byteEnable x.byteEnableLength
    | none => some []
  match data, be with
  | some d, some b =>
    some { gp := { cmd := getCmd x, addr := x.addr, data := d, be := b.map (· == 0xff), sw := x.sw },
           ext := setExtensions x }
  | _, _ => none

/-- A target: from its state and a request to its new state, the status and the
initiator's buffer afterwards. -/
abbrev Target (σ : Type) := σ → Req → σ × Status × List Byte

inductive Report where
  /-- an error response (234-241) -/
  | response (st : Status)
  /-- data other than expected (247-252) -/
  | mismatch
  deriving DecidableEq, Repr

/-- The end of one transfer (234-252): the reports, in order. -/
def check (x : Xfer) (st : Status) (d : List Byte) : Option (List Report) :=
  let r1 := if st.isError then [Report.response st] else []
  match x.expect with
  | none => some r1
  | some _ =>
    match bytes x.expect x.length with
    | none => none
    | some e => some (r1 ++ if e = d then [] else [.mismatch])

/-- What a run of the generator leaves: the state of the target, the requests made, the
reports, and whether it got to the end. -/
structure Run (σ : Type) where
  tgt : σ
  reqs : List Req := []
  reports : List Report := []
  ended : Bool := true

/-- `generate` (189-257), transfer by transfer. `throws`: an error report ends the
process. `junk k`: the buffer of transfer `k`. -/
def generate {σ : Type} (throws : Bool) (t : Target σ) (junk : Nat → Nat → Byte) : Nat → List Xfer → σ → Option (Run σ)
  | _, [], s => some { tgt := s }
  | k, x :: xs, s =>
    match request (junk k) x with
    | none => none
    | some q =>
      match t s q with
      | (s', st, d) =>
        if throws && st.isError then some { tgt := s', reqs := [q], reports := [.response st], ended := false }
        else
          match check x st d with
          | none => none
          | some r =>
            if throws && !r.isEmpty then some { tgt := s', reqs := [q], reports := r, ended := false }
            else
              match generate throws t junk (k + 1) xs s' with
              | none => none
              | some u => some { u with reqs := q :: u.reqs, reports := r ++ u.reports }

/-! ## Threads of the generator -/

/-- Where `process` (172-187) is. -/
inductive At where
  /-- not spawned yet (162-170) -/
  | before
  /-- at the top of the loop -/
  | top
  /-- in `generate` -/
  | running (id : Nat)
  /-- in the callback -/
  | calling
  /-- in `wait` -/
  | waiting
  deriving DecidableEq, Repr

/-- A thread (`ThreadData`, 91-159): set of transfers to do next, callback, place; what
was added, what was run to the end, and the callbacks made. Sets and callbacks are
numbers. -/
structure Thr where
  pending : Option Nat := none
  cb : Option Nat := none
  at_ : At := .before
  added : List (Nat × Option Nat) := []
  taken : List Nat := []
  done : List Nat := []
  calls : List Nat := []
  deriving DecidableEq, Repr

inductive Move where
  /-- `addTransfers` (67-75) with a valid thread number, called by anyone, the callback included -/
  | add (id : Nat) (cb : Option Nat)
  | spawn
  | take
  | finish
  | back
  deriving DecidableEq, Repr

def Thr.move (s : Thr) : Move → Option Thr
  | .add id cb =>
    some { s with pending := some id, cb := cb, added := s.added ++ [(id, cb)],
                  at_ := if s.at_ = .waiting then .top else s.at_ }
  | .spawn => if s.at_ = .before then some { s with at_ := .top } else none
  | .take =>
    if s.at_ = .top then
      match s.pending with
      | some id => some { s with pending := none, taken := s.taken ++ [id], at_ := .running id }
      | none => some { s with calls := s.calls ++ s.cb.toList, at_ := .calling }
    else none
  | .finish =>
    match s.at_ with
    | .running id => some { s with done := s.done ++ [id], calls := s.calls ++ s.cb.toList, at_ := .calling }
    | _ => none
  | .back => if s.at_ = .calling then some { s with at_ := if s.pending = none then .waiting else .top } else none

inductive Reach : Thr → Prop where
  | init : Reach {}
  | move {s s' : Thr} (m : Move) : Reach s → s.move m = some s' → Reach s'

def Thr.runs : Thr → List Move → Option Thr
  | s, [] => some s
  | s, m :: ms =>
    match s.move m with
    | some s' => s'.runs ms
    | none => none

end Verif.TgTlm
