import Verif.HwMaster.Model
import Verif.HwSlave.Spec

/-! # The ACE hardware bridges: accesses, bursts and attributes through descriptors

`rtl-bridges/pcie-host/ace/tlm/tlm2ace-hw-bridge.h` (TLM accesses handed to the
hardware's ACE master) and `ace2tlm-hw-bridge.h` (ACE bursts of the hardware's slave
handed to TLM), with the register fields of `private/regfields.h`.  One access or
burst at a time: what several of them do to each other is in `AceHwConc`.  Modelled:
reads and writes with data.  Barriers, DVM and cache-maintenance commands only as far
as the size they announce.  Not modelled: the snoop channels (`AceSnoop`), reset. -/

namespace Verif.AceHw
open Verif Verif.Axi
open Verif.HwMaster (write32 read32 axsizeOf)

/-! ## Register fields -/

/-- `fname(r)` of `GEN_FIELD_FUNCS` (regfields.h 29): `(r >> shift) & mask` as
`uint8_t`. -/
def getF (shift mask : Nat) (r : BitVec 32) : BitVec 8 := ((r >>> shift) &&& BitVec.ofNat 32 mask).setWidth 8

/-- `gen_fname(v)` (regfields.h 30); `v` is promoted from `uint8_t`. -/
def genF (shift mask : Nat) (v : BitVec 8) : BitVec 32 := (v.setWidth 32 &&& BitVec.ofNat 32 mask) <<< shift

/-- The attribute lines of an address channel. -/
structure Attr where
  burst : BitVec 8
  lock : BitVec 8
  cache : BitVec 8
  prot : BitVec 8
  qos : BitVec 8
  region : BitVec 8
  bar : BitVec 8
  domain : BitVec 8
  snoop : BitVec 8
deriving DecidableEq, Repr

/-- Masks of `arburst` and `awburst` (regfields.h 39, 49). -/
def arBurstMask : Nat := 0x3
def awBurstMask : Nat := 0x1

/-- The attribute register written by `read_address_phase` / `write_address_phase`
(tlm2ace 326-334, 429-437), `bm` being the mask of the burst field. -/
def genAttr (bm : Nat) (a : Attr) : BitVec 32 :=
  genF 0 bm a.burst ||| genF 2 0x1 a.lock ||| genF 4 0xF a.cache ||| genF 8 0x7 a.prot ||| genF 11 0xF a.qos |||
    genF 15 0xF a.region ||| genF 20 0x3 a.bar ||| genF 22 0x3 a.domain ||| genF 24 0xF a.snoop

/-- The attribute register read by `pop_ar_ch_fifo` / `pop_aw_ch_fifo` (ace2tlm
726-753, 840-866). -/
def getAttr (bm : Nat) (r : BitVec 32) : Attr :=
  { burst := getF 0 bm r, lock := getF 2 0x1 r, cache := getF 4 0xF r, prot := getF 8 0x7 r, qos := getF 11 0xF r,
    region := getF 15 0xF r, bar := getF 20 0x3 r, domain := getF 22 0x3 r, snoop := getF 24 0xF r }

/-- `AxADDR_0`, `AxADDR_1` (tlm2ace 301-304, 397-400) and back (ace2tlm 713-717,
825-829). -/
def addrLo (a : BitVec 64) : BitVec 32 := (a &&& 0xFFFFFFFF).setWidth 32
def addrHi (a : BitVec 64) : BitVec 32 := ((a >>> 32) &&& 0xFFFFFFFF).setWidth 32
def addrJoin (hi lo : BitVec 32) : BitVec 64 := (hi.setWidth 64 <<< 32) ||| lo.setWidth 64

/-! ## Bytes through the data memories -/

/-- One word put together from up to four bytes (ace2tlm 472-484, tlm2ace 470-482):
`val |= data[0] << shift`.  (`data[0] << 24` of a byte of 128 or more overflows `int`;
the usual result is taken.) -/
def wordOf : Nat → List Byte → BitVec 32
  | _, [] => 0
  | sh, b :: bs => (b.setWidth 32 <<< sh) ||| wordOf (sh + 8) bs

/-- The loop of `push_rd_data` (ace2tlm 460-489) and of `push_wdata_wstrb` (tlm2ace
466-486): four bytes, or those left, at a time. -/
def pushBytes (f : Nat → Byte) (a : Nat) (d : List Byte) : Nat → Byte :=
  if d = [] then f else pushBytes (write32 f a (wordOf 0 (d.take 4))) (a + 4) (d.drop 4)
termination_by d.length
decreasing_by
  rename_i h
  have := List.length_pos_iff.mpr h
  rw [List.length_drop]
  omega

/-- `n` bytes of a word from byte `k` on: `(w >> shift) & 0xFF`. -/
def wordBytes (w : BitVec 32) (k n : Nat) : List Byte := (List.range' k n).map fun i => (w >>> (i * 8)).setWidth 8

/-- The loop over whole words of `pop_rdata` (tlm2ace 812-829) and `pop_wdata_wstrb`
(ace2tlm 939-964). -/
def popWords (f : Nat → Byte) (a len : Nat) : List Byte :=
  if len = 0 then [] else wordBytes (read32 f a) 0 (min len 4) ++ popWords f (a + 4) (len - min len 4)
termination_by len
decreasing_by omega

/-- `pop_rdata` (tlm2ace 775-831) and, once for the data and once for the strobes,
`pop_wdata_wstrb` (ace2tlm 894-965).  The first byte of an unaligned start is stored
before the length is looked at, so one byte is stored for a length of 0. -/
def popBytes (f : Nat → Byte) (off len : Nat) : List Byte :=
  if off % 4 ≠ 0 then
    let n := max 1 (min len (4 - off % 4))
    wordBytes (read32 f (off - off % 4)) (off % 4) n ++ popWords f (off - off % 4 + 4) (len - n)
  else popWords f off len

/-! ## TLM to ACE -/

/-- The configuration: bytes of the data bus. -/
structure Cfg where
  db : Nat
deriving DecidableEq, Repr

/-- The data memories of the master. -/
structure Bufs where
  wdata : Nat → Byte
  wstrb : Nat → Byte
  rdata : Nat → Byte

/-- `SetupBurstType` (80-108): burst type and `burst_width` of the attributes
afterwards; `none` is the reported error. -/
def setupBurst (c : Cfg) (len sw : Nat) (wrap : Bool) (bw : Nat) : Option (Burst × Nat) :=
  if sw = len ∧ wrap = true then some (.wrap, bw)
  else if sw ≥ len then some (.incr, bw)
  else if sw = c.db then some (.fixed, bw)
  else if sw < c.db then some (.fixed, if sw > 1 then sw - sw % 2 else sw)
  else none

/-- `GetBurstWidth` (125-134). -/
def burstWidth (c : Cfg) (bw : Nat) : Nat := if bw = 0 then c.db else bw

/-- `SetupNumBeats` (110-121). -/
def numBeats (addr len bw : Nat) : Nat := (len + (addr - addr / bw * bw) + bw - 1) / bw

/-- `Validate` (242-273) of an access with data. -/
def validate (addr len sw bw : Nat) : Bool :=
  decide (len ≠ 0) && decide (sw ≠ 0) && (axsizeOf bw).isSome && decide (numBeats addr len bw ≤ 256)

/-- The burst type as its code on the bus (amba.h). -/
def burstCode : Burst → BitVec 8
  | .fixed => 0
  | .incr => 1
  | .wrap => 2

/-- The size register of a write (tlm2ace 407-421). -/
def writeSize (c : Cfg) (barrier : Bool) (len : Nat) : Nat :=
  if barrier then 0 else if len < c.db then c.db else len

/-- The size register of a read (tlm2ace 307-318). -/
def readSize (single : Bool) (len : Nat) : Nat := if single then 16 else len

/-- A request descriptor: `strbs` is bit 1 of `TXN_TYPE`. -/
structure Desc where
  addr : Nat
  size : Nat
  axsize : Nat
  attr : BitVec 32
  strbs : Bool
deriving DecidableEq, Repr

/-- The bytes put into the strobe memory by `push_wdata_wstrb` (490-568); `none`: the
memory is not touched and the strobe bit of `TXN_TYPE` stays clear.  With byte
enables the words beyond the data are filled with zeros up to the bus width
(529-533), and the rest of the last word is zero (505-521). -/
def strobeBytes (c : Cfg) (len : Nat) (be : List Bool) : Option (List Byte) :=
  let en (b : Bool) : Byte := if b then 0xFF else 0
  let pad (d : List Byte) := d ++ List.replicate (c.db - d.length) 0
  if be ≠ [] then some (pad ((List.range len).map fun i => en (be.getD (i % be.length) false)))
  else if len < c.db then some ((List.range c.db).map fun i => en (decide (i < len)))
  else none

/-- What the hardware does with a request: new state of everything behind it, the
read memory, the offset it put the read data at, and the response. -/
abbrev Hw (σ : Type) := Bool → Desc → Bufs → σ → σ × (Nat → Byte) × Nat × AxiResp.Resp

/-- `b_transport` (634-661) with the address phases (278-455), `push_wdata_wstrb`
(457-569) and the response phases (711-865), for one plain access: `wrap` and `bw`
are `get_wrap()` and `get_burst_width()` of the attributes, `at` the other attribute
lines.  The data goes to offset 0 of the write memory; the offset register is never
written and keeps its reset value 0.  `none`: an error is reported or an assertion
fails. -/
def bridge {σ : Type} (c : Cfg) (hw : Hw σ) (wrap : Bool) (bw : Nat) (at' : Attr) (g : Gp) (s : σ × Bufs) :
    Option ((σ × Bufs) × List Byte × Status) :=
  match setupBurst c g.len g.sw wrap bw with
  | none => none
  | some (burst, bw) =>
    let w := burstWidth c bw
    if validate g.addr g.len g.sw w = false ∨ g.cmd = .ignore then some (s, g.data, .generic)
    else
      match axsizeOf w with
      | none => none
      | some x =>
        let at' := { at' with burst := burstCode burst }
        if g.cmd = .read then
          let d : Desc := { addr := g.addr, size := readSize false g.len, axsize := x, attr := genAttr arBurstMask at', strbs := false }
          let r := hw false d s.2 s.1
          some ((r.1, { s.2 with rdata := r.2.1 }), popBytes r.2.1 r.2.2.1 g.len, (AxiResp.setAxiResp none r.2.2.2).1)
        else
          let st := strobeBytes c g.len g.be
          let d : Desc := { addr := g.addr, size := writeSize c false g.len, axsize := x, attr := genAttr awBurstMask at', strbs := st.isSome }
          let b := { s.2 with wdata := pushBytes s.2.wdata 0 g.data, wstrb := pushBytes s.2.wstrb 0 (st.getD []) }
          let r := hw true d b s.1
          some ((r.1, b), g.data, (AxiResp.setAxiResp none r.2.2.2).1)

/-! ## ACE to TLM -/

/-- The request descriptor of the slave as `pop_ar_ch_fifo` / `pop_aw_ch_fifo` read
it (ace2tlm 694-753, 801-866). -/
structure SDesc where
  addr : Nat
  size : Nat
  axsize : Nat
  attr : BitVec 32
deriving DecidableEq, Repr

/-- The payload's address and streaming width in the constructor of `Transaction`
(ace2tlm 99-129), from the burst code. -/
def gpAddr (c : Cfg) (burst : BitVec 8) (addr : Nat) : Nat := if burst = 0 then addr / c.db * c.db else addr
def gpSw (c : Cfg) (burst : BitVec 8) (len : Nat) : Nat := if burst = 1 then len else if burst = 0 then c.db else len

/-- The constructor's assertions (82-84): the size code is taken for a number of bytes
and must not be zero.  (`dataLen` is never zero in hardware.) -/
def accepted (d : SDesc) : Bool := decide (0 < d.axsize) && decide (0 < d.size)

/-- The access of a write burst (`pop_aw_ch_fifo`, `pop_wdata_wstrb`); `none`: an
assertion fails. The bytes of the strobe memory become the byte enables as they are;
a target takes a byte as enabled when it is `0xFF`. -/
def writeGp (c : Cfg) (d : SDesc) (wdata wstrb : Nat → Byte) (off : Nat) : Option Gp :=
  if accepted d then
    let a := getAttr awBurstMask d.attr
    some { cmd := .write, addr := gpAddr c a.burst d.addr, data := popBytes wdata off d.size,
           be := (popBytes wstrb off d.size).map fun b => decide (b = 0xFF), sw := gpSw c a.burst d.size }
  else none

/-- The access of a read burst (`pop_ar_ch_fifo`); the buffer's contents are left to
`junk`. -/
def readGp (c : Cfg) (d : SDesc) (junk : List Byte) : Option Gp :=
  if accepted d then
    let a := getAttr arBurstMask d.attr
    some { cmd := .read, addr := gpAddr c a.burst d.addr, data := junk, sw := gpSw c a.burst d.size }
  else none

/-- The data of a read response (ace2tlm 757-763, 460-489, 556-560): for commands with a
single data transfer the length is set to 16 whatever the buffer's; `none`: bytes
behind the buffer are read. -/
def readReply (single : Bool) (ram : Nat → Byte) (d : List Byte) : Option (Nat → Byte) :=
  if single then
    if 16 ≤ d.length then some (pushBytes ram 0 (d.take 16)) else none
  else some (pushBytes ram 0 d)

/-- The response bits (ace2tlm 503-522, 586-602): status, and whether an exclusive
access was handled. -/
def respOf (st : Status) (exclusive handled : Bool) : AxiResp.Resp :=
  match st with
  | .address => .decerr
  | .generic => .slverr
  | _ => if exclusive && handled then .exokay else .okay

end Verif.AceHw
