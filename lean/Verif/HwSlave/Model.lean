import Verif.WrapExpander.Model
import Verif.Axi.Spec
import Verif.AxiResp.Model

/-! # AXI slave of the PCIe hardware bridge: bursts carried to TLM

`rtl-bridges/pcie-host/axi/tlm/axi2tlm-hw-bridge.h`.  The hardware collects an
AXI burst in a descriptor and two buffers (data and strobes, one byte per lane);
`process_desc_free` (265-499) turns the descriptor into one TLM access and hands
the buffers back.  Modelled: everything that depends on the burst.  Not modelled:
the register accesses that fetch the descriptor, `mode0` (the same bytes copied
through device memory), AXI3 locks, QoS and protection attributes. -/

namespace Verif.HwSlave
open Verif Verif.Axi
open Verif.Aligner (Target)

/-- One position of the two buffers: the data byte and whether the strobe byte is
non-zero (the hardware stores `0xff` or `0`). -/
abbrev Cell := Byte × Bool

abbrev Buf := Nat → Cell

/-- Bytes in each of a descriptor's buffers: `AXI4_MAX_BURSTLENGTH * 1024 / 8`
(132-134). -/
def cap : Nat := 32768

/-- `memmove` inside both buffers (401-402); `none`: outside them. -/
def move (f : Buf) (dst src len : Nat) : Option Buf :=
  if dst + len ≤ cap ∧ src + len ≤ cap then
    some fun i => if dst ≤ i ∧ i < dst + len then f (src + (i - dst)) else f i
  else none

/-- What a descriptor announces: the address channel, the transfer size in bytes
and, for writes, whether some strobe is unset (`type & 2`). -/
structure Desc where
  ax : Ax
  size : Nat
  isWrite : Bool
  partialStrb : Bool

/-- `burst_length` (333-334); the bus has `db` bytes. -/
def Desc.beats (db : Nat) (d : Desc) : Nat := (d.size - 1) / db + 1

/-- `offset` (356). -/
def offsetOf (db addr : Nat) : Nat := addr - addr / db * db

/-- Bytes of the first beat: `number_bytes` less the unaligned part (383-384,
430-431, 457-458). -/
def firstLen (a : Ax) : Nat := a.nb - (a.addr &&& (a.nb - 1))

/-- Narrow or fixed bursts of several beats are rearranged (371-372, 445-446). -/
def Desc.rearranged (db : Nat) (d : Desc) : Bool :=
  decide (1 < d.beats db) && (decide (d.ax.burst = .fixed) || decide (d.ax.nb < db))

/-- The loop that closes the gaps of a narrow write (388-404): `k` beats to go,
the next being `b`. -/
def squeeze (db nb off : Nat) (fx : Bool) : Nat → Nat → Nat → Nat → Buf → Option (Buf × Nat)
  | 0, _, pos, _, f => some (f, pos)
  | k + 1, b, pos, len, f =>
    let len' := if fx then len else nb
    let src := (if fx then off else pos % db) + b * db
    match move f pos src len' with
    | none => none
    | some f' => squeeze db nb off fx k (b + 1) (pos + len') len' f'

/-- Buffers and `tx_size` before the access: writes (359-408), reads (409-416). -/
def prepare (db : Nat) (d : Desc) (f : Buf) : Option (Buf × Nat) :=
  let off := offsetOf db d.ax.addr
  if d.isWrite then
    if d.rearranged db then
      squeeze db d.ax.nb off (d.ax.burst = .fixed) (d.beats db - 1) 1 (off + firstLen d.ax) (firstLen d.ax) f
    else some (f, d.size)
  else if 1 < d.beats db ∧ d.ax.nb < db then
    some (f, off + d.ax.nb * d.beats db - (d.ax.addr &&& (d.ax.nb - 1)))
  else some (f, d.size)

/-- The access (418-433). -/
def payload (db : Nat) (d : Desc) (f : Buf) (tx : Nat) : Gp :=
  let off := offsetOf db d.ax.addr
  { cmd := if d.isWrite then .write else .read
    addr := d.ax.addr
    data := (List.range (tx - off)).map fun i => (f (off + i)).1
    be := if d.isWrite ∧ d.partialStrb then (List.range (tx - off)).map fun i => (f (off + i)).2 else []
    sw := if d.ax.burst = .fixed then firstLen d.ax else tx - off }

/-- Where the access goes: wrapping bursts through the wrap expander, which the
constructor (127) builds in its two-access configuration (435-440). -/
def issue {σ : Type} (wrap : Bool) (T : Target σ) (g : Gp) (s : σ) : Option (σ × List Byte × Status) :=
  if wrap then (WrapExpander.transport true true T g s).map fun r => (r.1, r.2.1, r.2.2.1)
  else some (T g s)

/-- The buffer after a read: the target's bytes from `off` on. -/
def filled (f : Buf) (off : Nat) (d : List Byte) : Buf :=
  fun i => if off ≤ i ∧ i < off + d.length then (d.getD (i - off) 0, (f i).2) else f i

/-- The loop that spreads a narrow read out again (460-473), from the bounce
buffer `g` holding `tx` bytes; `none`: outside a buffer, or from bytes of the
bounce buffer that were never written. -/
def spread (db nb off tx : Nat) (fx : Bool) (g : Buf) : Nat → Nat → Nat → Nat → Buf → Option Buf
  | 0, _, _, _, f => some f
  | k + 1, b, pos, len, f =>
    let len' := if fx then len else nb
    let dst := (if fx then off else pos % db) + b * db
    if dst + len' ≤ cap ∧ pos + len' ≤ tx then
      spread db nb off tx fx g k (b + 1) (pos + len') len'
        (fun i => if dst ≤ i ∧ i < dst + len' then g (pos + (i - dst)) else f i)
    else none

/-- After the access (442-475): `bounce_d8` has 4096 bytes. -/
def finish (db : Nat) (d : Desc) (tx : Nat) (f : Buf) : Option Buf :=
  let off := offsetOf db d.ax.addr
  if !d.isWrite && d.rearranged db then
    if tx ≤ 4096 then
      spread db d.ax.nb off tx (d.ax.burst = .fixed) f (d.beats db - 1) 1 (off + firstLen d.ax) (firstLen d.ax) f
    else none
  else some f

/-- `process_desc_free` (265-499): the target's new state, the buffers handed back
and the access's status; `none`: undefined behaviour. -/
def process {σ : Type} (db : Nat) (d : Desc) (T : Target σ) (s : σ) (f : Buf) : Option (σ × Buf × Status) :=
  match prepare db d f with
  | none => none
  | some (f', tx) =>
    match issue (d.ax.burst = .wrap) T (payload db d f' tx) s with
    | none => none
    | some (s', data, st) =>
      (finish db d tx (if d.isWrite then f' else filled f' (offsetOf db d.ax.addr) data)).map fun f'' => (s', f'', st)

/-- The response register after descriptor `d` (483-486): two bits each. -/
def setResp (r : BitVec 32) (d : Nat) (resp : BitVec 32) : BitVec 32 :=
  (r &&& ~~~(3#32 <<< (d * 2))) ||| (resp <<< (d * 2))

/-- Numeric response codes (tlm-bridges/amba.h 33-38). -/
def respCode : AxiResp.Resp → BitVec 32
  | .okay => 0 | .exokay => 1 | .slverr => 2 | .decerr => 3

/-- The part of the attribute extension kept with a descriptor's payload that the
response depends on.  The extension is allocated once (310-314) and
`process_desc_free` sets its wrap, exclusive, locked, secure and QoS fields
(344-348), but not the "exclusive handled" flag: `flag` is the one left by earlier
accesses and `marks` says whether this access's target sets it.  Result: the flag
afterwards and the response (483). -/
def respond (flag marks excl : Bool) (st : Status) : Bool × AxiResp.Resp :=
  (flag || marks, AxiResp.getAxiResp st (some ⟨excl, flag || marks⟩))

end Verif.HwSlave
