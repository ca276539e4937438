import Verif.Base.Range

/-!
# UMI bridges

Models `/repo/tlm-bridges/tlm2umi-bridge.h` and `/repo/tlm-bridges/umi2tlm-bridge.h`,
one step per rising clock edge; a signal written after an edge is seen at the next
one.  Both include `tlm-bridges/umi.h`, which is not in the repository: the layout
of a command word is therefore not modelled, a command is its fields, and the
width `lw` of the length field is a parameter.
-/

namespace Verif.Umi
open Verif

/-- The opcodes used by the bridges. -/
inductive Opc | reqRead | reqWrite | reqPosted | respRead | respWrite
  deriving DecidableEq, Repr

/-- A UMI message: command fields, addresses and data lanes. -/
structure Msg where
  opc : Opc
  size : Nat
  len : Nat
  eom : Bool
  src : Nat
  dst : Nat
  data : List Byte
  deriving DecidableEq, Repr

/-- The `switch` computing size and length fields (tlm2umi-bridge.h 92-103).  The
length field is assigned modulo `2^lw`. -/
def encLen (lw tlen : Nat) : Nat × Nat :=
  if tlen = 2 then (1, 0) else if tlen = 4 then (2, 0) else if tlen = 8 then (3, 0)
  else if tlen = 16 then (4, 0) else if tlen = 32 then (5, 0) else if tlen = 64 then (6, 0)
  else if tlen = 128 then (7, 0)
  else (0, (tlen + 2 ^ lw - 1) % 2 ^ lw)

/-- `nbytes` (umi2tlm-bridge.h 108). -/
def nbytes (m : Msg) : Nat := (m.len + 1) <<< m.size

/-! ## TLM to UMI -/

/-- Where `b_transport` (tlm2umi-bridge.h 50-131) waits. -/
inductive MPhase | start | send | wait | fin | done
  deriving DecidableEq, Repr

/-- A `b_transport` call that owns the mutex: byte enables and the streaming width
are not looked at. `buf` is the data of the access, updated by reads. -/
structure Mst where
  isWrite : Bool
  addr : Nat
  src : Nat
  buf : List Byte
  pos : Nat
  phase : MPhase
  deriving DecidableEq, Repr

/-- `tlen` (81); `bw` is `DATA_WIDTH / 8`. -/
def Mst.tlen (bw : Nat) (m : Mst) : Nat := min bw (m.buf.length - m.pos)

/-- The request driven in phase `send` (80-113).  Unused data lanes are zero; `eom`
is not set by the code. -/
def Mst.req (bw lw : Nat) (m : Mst) : Msg :=
  let e := encLen lw (m.tlen bw)
  { opc := if m.isWrite then .reqWrite else .reqRead, size := e.1, len := e.2, eom := false
    src := m.src + m.pos, dst := m.addr + m.pos
    data := if m.isWrite then (m.buf.drop m.pos).take (m.tlen bw) ++ List.replicate (bw - m.tlen bw) 0
            else List.replicate bw 0 }

/-- Copying a response's lanes to the buffer (123-125). -/
def Mst.fill (bw : Nat) (m : Mst) (lanes : List Byte) : List Byte :=
  if m.isWrite then m.buf
  else m.buf.take m.pos ++ lanes.take (m.tlen bw) ++ m.buf.drop (m.pos + m.tlen bw)

/-- `req_valid`. -/
def Mst.reqValid (m : Mst) : Bool := m.phase == .send

/-- `resp_ready`, when no other call has been made. -/
def Mst.respReady (m : Mst) : Bool := m.phase == .send || m.phase == .wait

/-- One rising edge of the master bridge. -/
def mstep (bw : Nat) (m : Mst) (reqReady respValid : Bool) (lanes : List Byte) : Mst :=
  match m.phase with
  | .start => { m with phase := .send }
  | .send => if reqReady then { m with phase := .wait } else m
  | .wait =>
    if respValid then
      let pos := m.pos + m.tlen bw
      { m with buf := m.fill bw lanes, pos := pos, phase := if pos < m.buf.length then .send else .fin }
    else m
  | .fin => { m with phase := .done }
  | .done => m

/-! ## UMI to TLM -/

/-- The TLM target: new state and data buffer. The response status is not looked at. -/
abbrev Target (σ : Type) := Gp → σ → σ × List Byte

/-- Where `umi_thread` (65-179) waits: for a request (90), inside `b_transport`
(137) for `k` more edges, for one edge with back-pressure (141), for a response
to be taken (58-60), for the edge after it (62).  `fault`: an assert fails or
`range` is called outside the lanes. -/
inductive SPhase
  | idle | target (k : Nat) (rs : List Msg) | hold (rs : List Msg)
  | resp (r : Msg) (rs : List Msg) | gap (rs : List Msg) | fault
  deriving DecidableEq, Repr

structure Sst (σ : Type) where
  phase : SPhase
  /-- the 1024-byte `data` array -/
  data : List Byte
  tgt : σ

/-- The responses to a read of `n` bytes (144-170): `lanes` are the lanes left over
from the message before, `d` the bytes not sent yet. `fuel` bounds the loop. -/
def readResps (bw : Nat) (sa da : Nat) (lanes : List Byte) : Nat → List Byte → List Msg
  | 0, _ => []
  | fuel + 1, d =>
    let tlen := min bw d.length
    let lanes := d.take tlen ++ lanes.drop tlen
    { opc := .respRead, size := 0, len := tlen - 1, eom := d.length == tlen, src := da, dst := sa, data := lanes } ::
      if tlen < d.length then readResps bw (sa + tlen) (da + tlen) lanes fuel (d.drop tlen) else []

/-- A request taken from the wires (96-137): the access, its effect and the
responses to send. -/
def handle {σ : Type} (T : Target σ) (bw : Nat) (s : Sst σ) (r : Msg) : Option (Sst σ × List Msg) :=
  let n := nbytes r
  if r.opc = .respRead ∨ r.opc = .respWrite then none
  else if 1024 < n then none
  else if r.opc = .reqRead then
    let res := T ⟨.read, r.dst, s.data.take n, [], n⟩ s.tgt
    some ({ s with data := res.2 ++ s.data.drop n, tgt := res.1 }, readResps bw r.src r.dst r.data n res.2)
  else if bw < n then none
  else
    let d := r.data.take n
    let res := T ⟨.write, r.dst, d, [], n⟩ s.tgt
    some ({ s with data := res.2 ++ s.data.drop n, tgt := res.1 },
      if r.opc = .reqPosted then []
      else [{ r with opc := .respWrite, eom := true, src := r.dst, dst := r.src }])

/-- `req_ready`: it falls only after the target has returned (140). -/
def Sst.reqReady {σ : Type} (s : Sst σ) : Bool :=
  match s.phase with
  | .idle | .target _ _ => true
  | _ => false

/-- The response on the wires. -/
def Sst.resp {σ : Type} (s : Sst σ) : Option Msg :=
  match s.phase with
  | .resp r _ => some r
  | _ => none

/-- Sending the next response or becoming ready again. -/
def next (rs : List Msg) : SPhase :=
  match rs with
  | [] => .idle
  | r :: rs => .resp r rs

/-- One rising edge of the slave bridge; `k` is how many edges the target takes for
an access starting at this edge. -/
def sstep {σ : Type} (T : Target σ) (bw : Nat) (s : Sst σ) (req : Option Msg) (respReady : Bool) (k : Nat) : Sst σ :=
  match s.phase with
  | .idle =>
    match req with
    | none => s
    | some r =>
      match handle T bw s r with
      | none => { s with phase := .fault }
      | some (s', rs) => { s' with phase := if k = 0 then .hold rs else .target k rs }
  | .target k rs => { s with phase := if k ≤ 1 then .hold rs else .target (k - 1) rs }
  | .hold rs => { s with phase := next rs }
  | .resp _ rs => if respReady then { s with phase := .gap rs } else s
  | .gap rs => { s with phase := next rs }
  | .fault => s

/-! ## Both bridges back to back -/

/-- One rising edge of a master and a slave bridge wired to each other. -/
def sysStep {σ : Type} (T : Target σ) (bw lw : Nat) (ms : Mst × Sst σ) (k : Nat) : Mst × Sst σ :=
  let (m, s) := ms
  (mstep bw m s.reqReady s.resp.isSome (match s.resp with | some r => r.data | none => []),
   sstep T bw s (if m.reqValid then some (m.req bw lw) else none) m.respReady k)

def sysRun {σ : Type} (T : Target σ) (bw lw : Nat) (ms : Mst × Sst σ) (ks : List Nat) : Mst × Sst σ :=
  ks.foldl (sysStep T bw lw) ms

end Verif.Umi
