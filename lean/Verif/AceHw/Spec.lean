import Verif.AceHw.Model
import Verif.HwMaster.Spec

/-! # The hardware's side, from its RTL

Master: `rtl-bridges/pcie-host/ace/rtl/master/ace_mst_inf.v` 726-745, 1589-1608,
1935-1966 (addresses, lengths, data rows) and `common/ace_ctrl_valid.v` 733-737
(strobes).  Slave: `slave/ace_slv_inf.v` 689-694, 1271-1276. -/

namespace Verif.AceHw
open Verif Verif.Axi

/-- The buses the hardware exists for. -/
def Bus (db : Nat) : Prop := db = 4 ∨ db = 8 ∨ db = 16

/-- A burst code on the bus. -/
def burstOf (v : BitVec 32) : Burst :=
  if v.extractLsb' 0 2 = 0 then .fixed else if v.extractLsb' 0 2 = 1 then .incr else .wrap

/-- The address channel of a request: `AxLEN` is the size in bus words less one, in 8
bits. -/
def hwAx (db : Nat) (d : Desc) : Ax :=
  { addr := d.addr, nb := 2 ^ d.axsize, beats := (d.size / db + 255) % 256 + 1, burst := burstOf d.attr }

/-- The write data channel: beat `n` takes row `n` of the memories. -/
def hwBeats (db : Nat) (d : Desc) (b : Bufs) : List WBeat :=
  let a := hwAx db d
  (List.range a.beats).map fun n =>
    { data := fun l => b.wdata (n * db + l)
      strb := fun l => if d.strbs then (b.wstrb (n * db + l)).getLsbD 0 else true
      last := decide (n + 1 = a.beats) }

/-- The hardware with a memory behind it.  Read data is put into rows of the read
memory from row `alloc k` on for the `k`-th burst; `junk` is what lanes outside the
beat's addresses carry, `resp` the responses. -/
def hw (db : Nat) (junk : Nat → Nat → Byte) (alloc : Nat → Nat) (resp : Nat → AxiResp.Resp) : Hw HwMaster.Slave := fun w d b s =>
  let a := hwAx db d
  let k := s.log.length
  if w then
    ({ mem := s.mem.bind fun m => (a.slaveWrite db (hwBeats db d b)).map (HwSlave.applyWrites m)
       log := s.log ++ [(a, true)] }, b.rdata, 0, resp k)
  else
    ({ s with log := s.log ++ [(a, false)] },
      fun i => if alloc k * db ≤ i ∧ i < (alloc k + a.beats) * db then
          if a.laneOk db ((i - alloc k * db) / db) (i % db) then
            (s.mem.getD fun _ => 0) (a.laneAddr db ((i - alloc k * db) / db) (i % db))
          else junk k i
        else b.rdata i,
      alloc k * db, resp k)

/-- The request descriptor of the slave hardware for a burst. -/
def slvDesc (db axsize : Nat) (a : Ax) (attr : BitVec 32) : SDesc :=
  { addr := a.addr, size := a.beats * db, axsize := axsize, attr := attr }

/-- The write memories of the slave hardware after a burst: row `r + n` holds the
lanes of beat `n`, strobes as `0xFF` and `0`. -/
def slvData (db r : Nat) (bs : List WBeat) (old : Nat → Byte) : Nat → Byte := fun i =>
  if r * db ≤ i then match bs[(i - r * db) / db]? with | some w => w.data (i % db) | none => old i else old i
def slvStrb (db r : Nat) (bs : List WBeat) (old : Nat → Byte) : Nat → Byte := fun i =>
  if r * db ≤ i then match bs[(i - r * db) / db]? with | some w => if w.strb (i % db) then 0xFF else 0 | none => old i
  else old i

/-- The widths of the attribute lines on the bus. -/
structure Attr.Ok (a : Attr) : Prop where
  burst : a.burst.toNat < 3
  lock : a.lock.toNat < 2
  cache : a.cache.toNat < 16
  prot : a.prot.toNat < 8
  qos : a.qos.toNat < 16
  region : a.region.toNat < 16
  bar : a.bar.toNat < 4
  domain : a.domain.toNat < 4
  snoop : a.snoop.toNat < 16

/-- The accesses the bridge gets right: whole bus words from a bus-aligned address,
or, for writes, less than one bus word; addresses counting up or starting again every
bus word; every byte of a read enabled. -/
structure Fits (db : Nat) (g : Gp) : Prop where
  cmd : g.cmd ≠ .ignore
  nonempty : 0 < g.len
  aligned : g.addr % db = 0
  whole : g.len % db = 0 ∨ (g.cmd = .write ∧ g.len < db)
  short : g.len ≤ 256 * db
  walk : g.len ≤ g.sw ∨ g.sw = db
  plain : g.cmd = .read → ∀ i, i < g.len → beEnabled g.be i = true

end Verif.AceHw
