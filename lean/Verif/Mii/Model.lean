import Verif.Crc32.Model

/-!
# MII bridges

Models `/repo/tlm-bridges/tlm2mii-bridge.h` and `/repo/tlm-bridges/mii2tlm-bridge.h`.

The wires (`enable`, 4-bit `data`) are a list with one entry per rising clock edge
as seen by the receiver.  Both processes run on the rising edge, so what the
transmitter writes is seen at the next edge; since the whole stream is delayed by
one entry this only adds an idle entry at the front.
-/

namespace Verif.Mii
open Verif

/-- One clock of the wires. -/
structure Sample where
  en : Bool
  d : BitVec 4
  deriving DecidableEq, Repr

/-- `push_data_buf` (tlm2mii 79-101): low nibble, then high nibble. -/
def pushBuf (en : Bool) (buf : List Byte) : List Sample :=
  buf.flatMap fun (b : BitVec 8) => [⟨en, b.setWidth 4⟩, ⟨en, (b >>> 4).setWidth 4⟩]

/-- The four checksum bytes (tlm2mii 122-128): `crc_d[k] = crc; crc >>= 8`. -/
def csumBytes (data : List Byte) : List Byte :=
  let crc := Crc32.crc32 0 data
  [crc.setWidth 8, (crc >>> 8).setWidth 8, (crc >>> 8 >>> 8).setWidth 8, (crc >>> 8 >>> 8 >>> 8).setWidth 8]

def idleSeq : List Byte := [0x07, 0x07, 0x07, 0x07, 0x07, 0x07, 0x07, 0x07]
def preambleSeq : List Byte := [0x55, 0x55, 0x55, 0x55, 0x55, 0x55, 0x55, 0xd5]

/-- `process_packet` (tlm2mii 103-137).  The last entry is the final
`enable.write(0)`; the data wires keep the last nibble `x`. -/
def txPacket (csum : Bool) (data : List Byte) (x : BitVec 4) : List Sample :=
  pushBuf false idleSeq ++ pushBuf true preambleSeq ++ pushBuf true data ++
    (if csum then pushBuf true (csumBytes data) else []) ++ [⟨false, x⟩]

/-- A packet queued `gap` clocks after the transmitter became ready, with the
data wires at `x` meanwhile and `y` afterwards. -/
structure Item where
  gap : Nat
  data : List Byte
  x : BitVec 4
  y : BitVec 4

/-- `process_thread` (tlm2mii 54-62). -/
def tx (csum : Bool) (l : List Item) : List Sample :=
  l.flatMap fun i => List.replicate i.gap ⟨false, i.x⟩ ++ txPacket csum i.data i.y

/-- Receiver state (mii2tlm 49-64). -/
inductive St | idle | preamble | data
  deriving DecidableEq, Repr

structure Rx where
  buf : List Byte
  d8 : BitVec 8
  cnt : Nat
  st : St
  /-- generic payloads sent so far -/
  out : List (List Byte)
  deriving DecidableEq, Repr

/-- `reset` (mii2tlm 78-87). -/
def Rx.reset (r : Rx) : Rx := { r with buf := [], d8 := 0, cnt := 0, st := .idle }

def Rx.init : Rx := { buf := [], d8 := 0, cnt := 0, st := .idle, out := [] }

/-- Size of `buf`. -/
def bufSize : Nat := 8 * 1024

/-- `process_nibble` (mii2tlm 89-125); `none`: write past the end of the buffer
(there is no overrun check). -/
def nibble (r : Rx) (d4 : BitVec 4) : Option Rx :=
  match r.st with
  | .idle => some (if d4 = 5 then { r with st := .preamble } else r)
  | .preamble =>
    some (if d4 = 5 then r else { r with st := if d4 = 0xd then .data else .idle })
  | .data =>
    if r.cnt = 0 then some { r with d8 := d4.setWidth 8, cnt := 1 }
    else
      if r.buf.length < bufSize then
        some { r with buf := r.buf ++ [r.d8 ||| (d4.setWidth 8 <<< 4)], d8 := 0, cnt := 0 }
      else none

/-- One iteration of `process` (mii2tlm 145-171). -/
def clock (r : Rx) (s : Sample) : Option Rx :=
  if s.en then nibble r s.d
  else
    let r := if r.buf ≠ [] then { r with out := r.out ++ [r.buf] } else r
    some r.reset

def rx (r : Rx) (l : List Sample) : Option Rx := l.foldlM clock r

end Verif.Mii
