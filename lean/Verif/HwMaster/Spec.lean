import Verif.HwMaster.Model
import Verif.HwSlave.Spec

/-! # The hardware's side of the contract

What the master of the hardware bridge does with a descriptor, taken from its
RTL (`rtl-bridges/pcie-host/axi/rtl/common/axi_master_control.v` 2295-2450,
`master/wdata_channel_control_uc_master.v` 495-770), in the terms of the AXI
specification, and a memory as the AXI slave behind it. -/

namespace Verif.HwMaster
open Verif Verif.Axi

/-- The address channel: `AxLEN` has 8 bits; AXI-Lite has neither length nor
size. -/
def hwAx (db : Nat) (lite : Bool) (d : Desc) : Ax :=
  { addr := d.addr, nb := if lite then db else 2 ^ d.axsize, beats := if lite then 1 else (d.size / db - 1) % 256 + 1,
    burst := .incr }

/-- Strobe of lane `l` when the descriptor asks for no strobe buffer: for a narrow
single beat, the lanes of `2 ^ axsize` bytes from the address on that lie in the
block of `2 ^ axsize` bytes around the address; otherwise all lanes. -/
def autoStrb (db : Nat) (a : Ax) (l : Nat) : Bool :=
  if a.beats = 1 ∧ a.nb < db then
    let off := a.addr % db
    let blk := off / a.nb * a.nb
    decide (off ≤ l ∧ l < off + a.nb) && decide (blk ≤ l ∧ l < blk + a.nb)
  else true

/-- The write data channel: beat `n` takes the bytes `n * db`, … of the buffers. -/
def hwBeats (db : Nat) (lite : Bool) (d : Desc) (b : Bufs) : List WBeat :=
  let a := hwAx db lite d
  (List.range a.beats).map fun n =>
    { data := fun l => b.wdata (n * db + l)
      strb := fun l => if d.strbs then (b.wstrb (n * db + l)).getLsbD 0 else autoStrb db a l
      last := decide (n + 1 = a.beats) }

/-- What lies behind the bridge: a memory (`none` after a protocol violation) and
the bursts it has seen with their directions. -/
structure Slave where
  mem : Option Mem
  log : List (Ax × Bool)

/-- The hardware with a memory behind it.  `junk` is what the lanes outside a read
beat's addresses carry, freely chosen for each burst; `resp` the response code of
each burst. -/
def hw (db : Nat) (lite : Bool) (junk : Nat → Nat → Byte) (resp : Nat → AxiResp.Resp) : Hw Slave := fun d b s =>
  let a := hwAx db lite d
  let k := s.log.length
  if d.isWrite then
    ({ mem := s.mem.bind fun m => (a.slaveWrite db (hwBeats db lite d b)).map (HwSlave.applyWrites m)
       log := s.log ++ [(a, true)] }, b.rdata, resp k)
  else
    ({ s with log := s.log ++ [(a, false)] },
      fun i => if i < a.beats * db then
          if a.laneOk db (i / db) (i % db) then (s.mem.getD fun _ => 0) (a.laneAddr db (i / db) (i % db)) else junk k i
        else b.rdata i,
      resp k)

/-- The data buses the hardware exists for: 32, 64 and 128 bits. -/
def Bus (db : Nat) : Prop := db = 4 ∨ db = 8 ∨ db = 16

/-- What the reset thread may find: bus widths of the hardware; the burst limits
of `AXI3`, `AXI4` and AXI-Lite; an offset of whole 4 KB pages. -/
structure Cfg.Ok (c : Cfg) : Prop where
  bus : Bus c.db
  some_beat : 0 < c.maxBeats
  beats : c.maxBeats ≤ 255
  lite : c.lite = true → c.maxBeats = 1
  page : c.baseOff % 4096 = 0

/-- What a response code means to the initiator (AXI A3.4.4). -/
def statusOf : AxiResp.Resp → Status
  | .okay | .exokay => .ok
  | .slverr => .generic
  | .decerr => .address

/-- The access as the bus behind the bridge is to see it. -/
def Cfg.shifted (c : Cfg) (g : Gp) : Gp := { g with addr := g.addr + c.baseOff }

/-- `AxPROT[1]`, set for non-secure accesses (AXI A4.7): bit 9 of the attribute
register (`int_wire_desc_n_attr_axprot`, bits 8 to 10). -/
def axprotNonSecure (v : BitVec 32) : Bool := v.getLsbD 9

/-- `AxLOCK[0]`, set for exclusive accesses: bit 2 of the attribute register. -/
def axlock (v : BitVec 32) : Bool := v.getLsbD 2

end Verif.HwMaster
