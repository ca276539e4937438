import Verif.RP.Model
import Verif.Base.Tlm

/-!
# Remote memory accesses over remote-port

Models `remoteport_tlm_memory_slave::b_transport`
(`/repo/libremote-port/remote-port-tlm-memory-slave.cc` 66-194) on the
initiator's side and `remoteport_tlm_memory_master`
(`remote-port-tlm-memory-master.cc` 51-184) on the target's side, connected by
the byte-level codec of `Verif.RP.Model`.  Time stamps are arbitrary values;
scheduling and the response table are the subject of `Verif.RPSlots`.
-/

namespace Verif.RPMem
open Verif Verif.RP

/-- The generic attributes (`tlm-extensions/genattr.h`) that matter here, plus
the ATS "physical address" attribute. -/
structure Attrs where
  posted : Bool := false
  eop : Bool := false
  secure : Bool := false
  ioAccess : Bool := false
  masterId : U64 := 0
  physAddr : Bool := false
  deriving DecidableEq, Repr

/-- `genattr_to_rpattr` (memory-slave 66-77) and the ATS bit (111-114). -/
def rpAttr (a : Attrs) : U64 :=
  (if a.eop then 1 else 0) ||| (if a.secure then 2 else 0) ||| (if a.physAddr then 8 else 0)

/-- The encoder input built by `b_transport` (memory-slave 104-128).
`master_id` is a `uint16_t` local (line 94). -/
def slaveIn (id dev : U32) (clk : U64) (g : Gp) (a : Attrs) : BusIn :=
  { cmd := if g.cmd = .read then cmdRead else cmdWrite, id,
    flags := if a.posted then flagPosted else 0, dev, clk,
    masterId := (a.masterId.truncate 16).zeroExtend 64, addr := BitVec.ofNat 64 g.addr, attr := rpAttr a,
    size := BitVec.ofNat 32 g.data.length, width := 0, streamWidth := BitVec.ofNat 32 g.sw,
    beLen := BitVec.ofNat 32 g.be.length }

/-- Byte-enable array contents (`TLM_BYTE_ENABLED` = 0xff). -/
def beBytes (be : List Bool) : List Byte := be.map fun b => if b then 0xff else 0

/-- The bytes written to the socket (memory-slave 131-141). -/
def slaveTx (c : Caps) (i : BusIn) (g : Gp) : Option (List Byte) :=
  (encBus c i).map fun p =>
    p.1 ++ ((if g.cmd = .write then g.data else []) ++ beBytes g.be)

/-- A TLM target: attributes, payload and memory to new memory, data buffer and
response status. -/
abbrev Target := Attrs → Gp → Mem → Mem × List Byte × Status

/-- Attributes the master passes on (memory-master 71-78). -/
def masterAttrs (h : Hdr) (attr : U64) (mid : U16) : Attrs :=
  { posted := isPosted h.flags, eop := attr &&& 1 != 0, secure := attr &&& 2 != 0,
    ioAccess := attr &&& 16 != 0, masterId := mid.zeroExtend 64 }

/-- Status code on the wire (memory-master 82-92). -/
def respCode : Status → U64
  | .ok => 0
  | .address => 2
  | _ => 1

/-- The two command handlers `cmd_read_null`/`cmd_write_null` with a device
(memory-master 102-173) on a decoded packet: new memory and the response bytes,
if any.  `none`: an assert fails (`width != 0`, old-layout master id) or the
data is not in the packet. -/
def masterHandle (c : Caps) (T : Target) (clk : U64) (m : Mem) (p : Pkt) : Option (Mem × Option (List Byte)) :=
  match p.body with
  | .bus ts attr addr len width sw mid _ =>
    if width ≠ 0 then none
    else if p.hdr.cmd = cmdRead then
      let g : Gp := { cmd := .read, addr := addr.toNat, data := List.replicate len.toNat 0, sw := sw.toNat }
      let r := T (masterAttrs p.hdr attr mid) g m
      let i : BusIn := { rspInit p.hdr len width sw addr mid with
        clk := clk + ts, attr := respCode r.2.2 <<< 8 }
      match encBus c i with
      | none => none
      | some b => some (r.1, some (b.1 ++ r.2.1))
    else if p.hdr.cmd = cmdWrite then
      let g : Gp := { cmd := .write, addr := addr.toNat, data := p.raw.drop (20 + p.used), sw := sw.toNat }
      let r := T (masterAttrs p.hdr attr mid) g m
      if isPosted p.hdr.flags then some (r.1, none)
      else
        let i : BusIn := { rspInit p.hdr len width sw addr mid with
          clk := clk + ts, attr := respCode r.2.2 <<< 8 }
        match encBus c i with
        | none => none
        | some b => some (r.1, some b.1)
    else none
  | _ => none

/-- Status the slave reports (memory-slave 150-160). -/
def slaveStatus (attr : U64) : Status :=
  if getResp attr = 0 then .ok else if getResp attr = 2 then .address else .generic

/-- Copying read data into the initiator's buffer (memory-slave 179-190). -/
def copyIn (be : List Bool) (i : Nat) : List Byte → List Byte → List Byte
  | d :: ds, r :: rs => (if beEnabled be i then r else d) :: copyIn be (i + 1) ds rs
  | _, _ => []

/-- The slave's handling of the response packet (memory-slave 147-193). -/
def slaveRx (id : U32) (g : Gp) (p : Pkt) : Option (List Byte × Status) :=
  if p.hdr.id ≠ id then none
  else
    match p.body with
    | .bus _ attr _ _ _ _ _ _ =>
      if g.cmd = .read then
        match rxData p g.data.length with
        | none => none
        | some rx => some (copyIn g.be 0 g.data rx, slaveStatus attr)
      else some (g.data, slaveStatus attr)
    | _ => none

/-- One complete remote access: `cs` are the slave's recorded peer
capabilities, `cm` the master's.  Result: target memory, initiator's buffer,
response status.  `none`: some assert failed, a process exited or waits for
ever. -/
def remoteAccess (cs cm : Caps) (T : Target) (id dev : U32) (clk clk' : U64) (g : Gp) (a : Attrs) (m : Mem) :
    Option (Mem × List Byte × Status) :=
  if g.be ≠ [] ∧ ¬ cs.extByteEn then some (m, g.data, .byteEnable)
  else
    match slaveTx cs (slaveIn id dev clk g a) g with
    | none => none
    | some w =>
      match recv w with
      | none => none
      | some (p, _) =>
        match masterHandle cm T clk' m p with
        | none => none
        | some (m', resp) =>
          if a.posted then some (m', g.data, .incomplete)
          else
            match resp with
            | none => none
            | some rw =>
              match recv rw with
              | none => none
              | some (rp, _) =>
                if isResponse rp.hdr.flags ∧ ¬ isPosted rp.hdr.flags then
                  match slaveRx id g rp with
                  | none => none
                  | some (d, st) => some (m', d, st)
                else none

end Verif.RPMem
