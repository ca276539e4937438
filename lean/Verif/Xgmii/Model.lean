import Verif.Base.Bytes

/-!
# XGMII bridges

Models `/repo/tlm-bridges/tlm2xgmii-bridge.h` and
`/repo/tlm-bridges/xgmii2tlm-bridge.h`.

The wires `xxd` (64 data bits) and `xxc` (8 control bits) are a list with one
column per rising clock edge as seen by the receiver.
-/

namespace Verif.Xgmii
open Verif

/-- One clock of the wires. -/
structure Col where
  d : BitVec 64
  c : BitVec 8
  deriving DecidableEq, Repr

/-- `mode`; the number of lanes used (tlm2xgmii 87, xgmii2tlm 144). -/
inductive Mode | m10g | m1g
  deriving DecidableEq, Repr

def Mode.lanes : Mode → Nat
  | .m10g => 8
  | .m1g => 1

/-- The inner loop of `push_data_buf` (tlm2xgmii 98-104): fill at most `n` lanes
from lane `l` on; returns data, control, remaining control bits and remaining
bytes. -/
def fillLanes : Nat → Nat → BitVec 64 → BitVec 8 → BitVec 64 → List Byte → BitVec 64 × BitVec 8 × BitVec 64 × List Byte
  | 0, _, data, c, ctrl, bs => (data, c, ctrl, bs)
  | _ + 1, _, data, c, ctrl, [] => (data, c, ctrl, [])
  | n + 1, l, data, c, ctrl, b :: bs =>
    fillLanes n (l + 1) (data ||| (b.setWidth 64 <<< (l * 8)))
      ((c &&& ~~~ ((1 : BitVec 8) <<< l)) ||| ((ctrl &&& 1).setWidth 8 <<< l)) (ctrl >>> 1) bs

/-- `push_data_buf` (tlm2xgmii 84-115).  `fuel` bounds the number of columns. -/
def pushBufN : Nat → Mode → List Byte → BitVec 64 → List Col
  | 0, _, _, _ => []
  | fuel + 1, m, buf, ctrl =>
    if buf = [] then []
    else
      let r := fillLanes m.lanes 0 0 0xff ctrl buf
      ⟨r.1, r.2.1⟩ :: pushBufN fuel m r.2.2.2 r.2.2.1

def pushBuf (m : Mode) (buf : List Byte) (ctrl : BitVec 64) : List Col := pushBufN buf.length m buf ctrl

def idleSeq : List Byte := [0x07, 0x07, 0x07, 0x07, 0x07, 0x07, 0x07, 0x07]
def preambleSeq : List Byte := [0xfb, 0x55, 0x55, 0x55, 0x55, 0x55, 0x55, 0xd5]

/-- The last part of a packet (tlm2xgmii 134-153): the remaining bytes, four
constant "checksum" bytes, the end-of-frame character, padding; `last.d` has 16
bytes. -/
def lastD (tail : List Byte) : List Byte :=
  let d := tail ++ [0xC0, 0xC1, 0xC2, 0xC3, 0xFD]
  d ++ List.replicate (16 - d.length) 0x07

/-- `last.c = ~0U << (last.len - 1)` (32-bit arithmetic, then widened). -/
def lastC (lastLen : Nat) : BitVec 64 := ((0xffffffff : BitVec 32) <<< (lastLen - 1)).setWidth 64

/-- `process_packet` (tlm2xgmii 117-159). -/
def txPacket (m : Mode) (data : List Byte) : List Col :=
  let full := data.length - data.length % 8
  let tail := data.drop full
  let lastLen := tail.length + 5
  pushBuf m idleSeq 0xff ++ pushBuf m idleSeq 0xff ++ pushBuf m preambleSeq 1 ++
    pushBuf m (data.take full) 0 ++
    pushBuf m ((lastD tail).take (if lastLen > 8 then 16 else 8)) (lastC lastLen) ++
    pushBuf m idleSeq 0xff

/-- A packet queued after `gap` clocks during which the wires keep their last
value, which is that of an idle column (`⟨0x07.., 0xff⟩`; in 1G mode lane 0). -/
structure Item where
  gap : Nat
  data : List Byte

def idleCol (m : Mode) : Col := match m with
  | .m10g => ⟨0x0707070707070707, 0xff⟩
  | .m1g => ⟨0x07, 0xff⟩

def tx (m : Mode) (l : List Item) : List Col :=
  l.flatMap fun i => List.replicate i.gap (idleCol m) ++ txPacket m i.data

/-- Receiver state (xgmii2tlm 53-59). -/
structure Rx where
  buf : List Byte
  sof : Bool
  p55 : Bool
  d5 : Bool
  out : List (List Byte)
  deriving DecidableEq, Repr

/-- `reset` (xgmii2tlm 78-86). -/
def Rx.reset (r : Rx) : Rx := { r with buf := [], sof := false, p55 := false, d5 := false }
def Rx.init : Rx := { buf := [], sof := false, p55 := false, d5 := false, out := [] }

def bufSize : Nat := 8 * 1024

/-- `process_byte` (xgmii2tlm 88-141).  `none`: a write past the buffer or, for a
frame of fewer than four bytes, the wrapped length `len - 4`. -/
def procByte (r : Rx) (x : Byte × Bool) : Option Rx :=
  let data := x.1
  if x.2 then
    let r := if data = 0xfb then { r with sof := true, p55 := false, d5 := false, buf := [] } else r
    let r := if data = 0xfe then r.reset else r
    if data = 0xfd then
      if !r.d5 then some r.reset
      else if r.buf.length < 4 then none
      else some ({ r with out := r.out ++ [r.buf.take (r.buf.length - 4)] } : Rx).reset
    else some r
  else
    let r' : Option Rx :=
      if r.sof then
        if r.d5 then (if r.buf.length < bufSize then some { r with buf := r.buf ++ [data] } else none)
        else if r.p55 then some (if data = 0xd5 then { r with d5 := true } else r)
        else some (if data = 0x55 then { r with p55 := true } else r)
      else some r
    r'.map fun r => if r.buf.length = bufSize then r.reset else r

/-- `d8 = d64 >> l * 8; c1 = c8 & (1 << l)` (xgmii2tlm 178-181). -/
def lane (col : Col) (l : Nat) : Byte × Bool :=
  ((col.d >>> (l * 8)).setWidth 8, decide (col.c &&& ((1 : BitVec 8) <<< l) ≠ 0))

def lanesOf (m : Mode) (col : Col) : List (Byte × Bool) := (List.range m.lanes).map (lane col)

/-- One iteration of `process` (xgmii2tlm 163-184), with the unchecked fast path
(`memcpy` of a little-endian host). -/
def clock (m : Mode) (r : Rx) (col : Col) : Option Rx :=
  if m = .m10g ∧ r.d5 ∧ col.c = 0 then
    if r.buf.length + 8 ≤ bufSize then
      some { r with buf := r.buf ++ (List.range 8).map fun k => (col.d >>> (k * 8)).setWidth 8 }
    else none
  else (lanesOf m col).foldlM procByte r

def rx (m : Mode) (r : Rx) (l : List Col) : Option Rx := l.foldlM (clock m) r

end Verif.Xgmii
