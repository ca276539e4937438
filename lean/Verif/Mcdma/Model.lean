import Verif.Base.Range
import Verif.Regapi.Model
/-
The multi-channel DMA of `/repo/soc/dma/xilinx/mcdma/mcdma.cc`.

Registers of a channel are kept together (the code finds them at a stride of 0x40
bytes, line 50); the ones no code reads are left out. Memory is the reference
memory; an access that fails is only reported on stdout by the code (158-160).
-/
namespace Verif.Mcdma
open Verif

/-- Registers of one channel and direction (regs-mcdma.h 37-54, 179-197). -/
structure Ch where
  cr : BitVec 32
  sr : BitVec 32
  curL : BitVec 32
  curH : BitVec 32
  tailL : BitVec 32
  tailH : BitVec 32
  deriving DecidableEq

/-- `mm2s_cur` (197-202), `s2mm_cur` (211-216). -/
def Ch.cur (c : Ch) : Nat := c.curH.toNat * 2 ^ 32 + c.curL.toNat

/-- `mm2s_tail` (204-209), `s2mm_tail` (218-223). -/
def Ch.tail (c : Ch) : Nat := c.tailH.toNat * 2 ^ 32 + c.tailL.toNat

/-- A descriptor as loaded: 52 bytes (mcdma.h 28-37). -/
def field (raw : List Byte) (off n : Nat) : Nat := leDec ((raw.drop off).take n)

/-- A frame piece pushed on a stream: channel, bytes, end of packet. -/
structure Push where
  ch : Nat
  data : List Byte
  eop : Bool
  deriving DecidableEq, Repr

/-- Moving on to the next descriptor (295-296, 377-378). -/
def Ch.goto (x : Ch) (next : Nat) : Ch :=
  { x with curL := BitVec.ofNat 32 next, curH := BitVec.ofNat 32 (next / 2 ^ 32) }

/-- MM2S side. -/
structure St where
  ccr : BitVec 32
  chen : BitVec 32
  ch : Nat → Ch
  mem : Mem
  out : List Push

def St.setCh (s : St) (c : Nat) (x : Ch) : St := { s with ch := fun i => if i = c then x else s.ch i }

/-- `mm2s_set_idle` (225-228); the idle bit is bit 0. -/
def Ch.setIdle (x : Ch) (b : Bool) : Ch :=
  { x with sr := (x.sr &&& ~~~ 1#32) ||| (if b then 1#32 else 0#32) }

/-- The interrupt bookkeeping (298-306): `tmp == 0 || 1` is always true. -/
def Ch.irq (x : Ch) : Ch :=
  let thr := (x.cr >>> 16) &&& 0xff#32
  { x with sr := ((x.sr ||| 0x20#32) &&& ~~~ 0x00ff0000#32) ||| (thr <<< 16) }

/-- Whether the thread turns to a channel (251-269). -/
def active (s : St) (c : Nat) : Bool :=
  s.ccr.getLsbD 0 && s.chen.getLsbD c && (s.ch c).cr.getLsbD 0 && !(s.ch c).sr.getLsbD 0

/-- The size of `buf` (237). -/
def bufSize : Nat := 128 * 1024

/-- Processing one descriptor (272-310). `none`: the frame does not fit in `buf`.
The result tells whether the channel counts as running. -/
def process (s : St) (c : Nat) : Option (St × Bool) :=
  let x := s.ch c
  let raw := s.mem.range x.cur 52
  let status := field raw 28 4
  if status.testBit 31 then some (s.setCh c (x.setIdle true), false)
  else
    let ctrl := field raw 20 4
    let len := ctrl % 2 ^ 26
    if bufSize < len then none
    else
      let buf := s.mem.range (field raw 8 8) len
      let status' := status ||| 2 ^ 31 ||| len
      let raw' := raw.take 28 ++ leEnc 4 status' ++ raw.drop 32
      let next := field raw 0 8
      let x := if x.cur = x.tail then x.setIdle true else x
      some ({ s.setCh c (x.goto next).irq with
        mem := s.mem.store (s.ch c).cur raw', out := s.out ++ [⟨c, buf, ctrl.testBit 30⟩] }, true)

/-- One channel of a round. -/
def serve (s : St) (c : Nat) : Option (St × Bool) :=
  if active s c then process s c else some (s, false)

/-- A round over channels `0 .. n-1` (244-311): the state and whether any channel ran. -/
def round (s : St) : Nat → Option (St × Bool)
  | 0 => some (s, false)
  | n + 1 =>
    match round s n with
    | none => none
    | some (s1, r1) =>
      match serve s1 n with
      | none => none
      | some (s2, r2) => some (s2, r1 || r2)

/-- The thread (239-317) until it waits; `none` if it overruns its buffer,
`some none` if it has not come to rest after `fuel` rounds. -/
def thread (n : Nat) : Nat → St → Option (Option St)
  | 0, _ => some none
  | fuel + 1, s =>
    match round s n with
    | none => none
    | some (s1, true) => thread n fuel s1
    | some (s1, false) => some (some s1)

/-! ### The thread as seen by software running in between -/

/-- Where the thread is: waiting for `ev_dma`, about to look at channel `k` with
`r` channels found running, or inside the descriptor load of channel `k`. -/
inductive Pos
  | asleep
  | scan (k : Nat) (r : Bool)
  | loading (k : Nat) (r : Bool)
  deriving DecidableEq, Repr

/-- One move of the thread; `n` channels. -/
def move (n : Nat) (s : St) : Pos → Option (St × Pos)
  | .asleep => some (s, .asleep)
  | .scan k r =>
    if k < n then
      if active s k then some (s, .loading k r) else some (s, .scan (k + 1) r)
    else some (s, if r then .scan 0 false else .asleep)
  | .loading k r =>
    match process s k with
    | none => none
    | some (s', b) => some (s', .scan (k + 1) (r || b))

/-- Software writes the upper half of a tail pointer (415-431). The range of
registers tested ends with channel 15 (index 14). `ev_dma.notify()` is immediate:
only a sleeping thread sees it. -/
def writeTailMsb (s : St) (p : Pos) (c : Nat) (v : BitVec 32) : St × Pos :=
  let s1 := s.setCh c { s.ch c with tailH := v }
  if c < 15 ∧ (s.ch c).cr.getLsbD 0 then
    (s1.setCh c ((s1.ch c).setIdle false), if p = .asleep then .scan 0 false else p)
  else (s1, p)

/-! ### Receiving (S2MM) -/

/-- The idle bit of the receive side is bit 1 (regs-mcdma.h 193). -/
def Ch.setIdleRx (x : Ch) (b : Bool) : Ch :=
  { x with sr := (x.sr &&& ~~~ 2#32) ||| (if b then 2#32 else 0#32) }

/-- Receive side: registers, the channel looked at, memory. -/
structure Rx where
  ccr : BitVec 32
  chen : Bool
  ch : Ch
  mem : Mem

/-- The status of a received packet (363-366): completed, first, last, length. -/
def rxDone (len : Nat) : Nat := 2 ^ 31 ||| 2 ^ 27 ||| 2 ^ 26 ||| len

/-- `stream_b_transport` (319-401) for a packet. The loop body runs once unless the
packet is empty, as `pos += len` ends it. `none`: the assert that the packet fits
fails. The flag: delivered, not dropped. -/
def receive (s : Rx) (pkt : List Byte) : Option (Rx × Bool) :=
  if pkt = [] then some (s, true)
  else if !s.ccr.getLsbD 0 || !s.chen || !s.ch.cr.getLsbD 0 || s.ch.sr.getLsbD 1 then some (s, false)
  else
    let raw := s.mem.range s.ch.cur 52
    let bdlen := field raw 20 4 % 2 ^ 26
    if bdlen < pkt.length then none
    else
      let m := s.mem.store (field raw 8 8) pkt
      if (field raw 24 4).testBit 31 then some ({ s with ch := s.ch.setIdleRx true, mem := m }, false)
      else
        let raw' := raw.take 24 ++ leEnc 4 (rxDone pkt.length) ++ raw.drop 28
        let next := field raw 0 8
        let x := if s.ch.cur = s.ch.tail then s.ch.setIdleRx true else s.ch
        some ({ s with ch := (x.goto next).irq, mem := m.store s.ch.cur raw' }, true)

/-! ### Interrupts -/

/-- The status register built by `update_irqs` (97-119), one direction. -/
def intrStatus (ch : Nat → Ch) (old : BitVec 32) : Nat → BitVec 32
  | 0 => old
  | n + 1 =>
    let r := intrStatus ch old n
    let irq := decide ((ch n).sr &&& 0xe0#32 &&& ((ch n).cr &&& 0xe0#32) ≠ 0)
    (r &&& ~~~ (1#32 <<< n)) ||| ((if irq then 1#32 else 0#32) <<< n)

end Verif.Mcdma
