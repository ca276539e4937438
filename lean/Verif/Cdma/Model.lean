import Verif.Base.Range
/-
The copy engine of `/repo/soc/dma/xilinx-cdma.h`.

The target of the engine's accesses is the reference memory; `BadTarget` below is
one that fails. Times are dropped; interleavings with register accesses are kept:
the thread gives up control inside its accesses and at `wait(SC_ZERO_TIME)`, so a
round is cut into `start` and `finish`.
-/
namespace Verif.Cdma
open Verif

/-- `regs[R_MAX]` (73), indexed by word. The constructor does not initialise it. -/
abbrev Regs := Nat → BitVec 32

def Regs.put (r : Regs) (i : Nat) (v : BitVec 32) : Regs := fun j => if j = i then v else r j

/-- Register numbers and bits (47-71). -/
def R_CR := 0
def R_SR := 1
def R_SA := 6
def R_SA_MSB := 7
def R_DA := 8
def R_DA_MSB := 9
def R_BTT := 10
def R_MAX := 11
def CR_RESET : BitVec 32 := 4#32
def SR_IDLE : BitVec 32 := 2#32
def SR_IOC_IRQ : BitVec 32 := 0x1000#32

/-- The 64-bit address in a register pair (89-95). -/
def Regs.pair (r : Regs) (lo hi : Nat) : Nat := (r hi).toNat * 2 ^ 32 + (r lo).toNat

/-- What the thread keeps on its stack between the two halves of a round. -/
structure Latch where
  tlen : Nat
  sa : Nat
  da : Nat
  buf : List Byte

/-- First half (88-101): length and addresses are taken from the registers and the
block is read. `buf` has 64 bytes; the stale rest is dropped. -/
def start (r : Regs) (m : Mem) : Latch :=
  let tlen := min (r R_BTT).toNat 64
  let sa := r.pair R_SA R_SA_MSB
  let da := r.pair R_DA R_DA_MSB
  ⟨tlen, sa, da, ((⟨.read, sa, List.replicate tlen 0#8, [], tlen⟩ : Gp).run m).2⟩

/-- Second half (103-117): the block is written and the registers are updated. -/
def finish (l : Latch) (r : Regs) (m : Mem) : Regs × Mem :=
  let m := ((⟨.write, l.da, l.buf, [], l.tlen⟩ : Gp).run m).1
  let sa := (l.sa + l.tlen) % 2 ^ 64
  let da := (l.da + l.tlen) % 2 ^ 64
  let r := r.put R_BTT (r R_BTT - BitVec.ofNat 32 l.tlen)
  let r := r.put R_SA (BitVec.ofNat 32 sa)
  let r := r.put R_SA_MSB (BitVec.ofNat 32 (sa / 2 ^ 32))
  let r := r.put R_DA (BitVec.ofNat 32 da)
  let r := r.put R_DA_MSB (BitVec.ofNat 32 (da / 2 ^ 32))
  let r := if r R_BTT = 0 then r.put R_SR (r R_SR ||| (SR_IDLE ||| SR_IOC_IRQ)) else r
  (r, m)

/-- A round without interference. -/
def round (r : Regs) (m : Mem) : Regs × Mem := finish (start r m) r m

/-- The thread (77-119) until it waits for the event; `none`: still copying after
`fuel` rounds. -/
def thread : Nat → Regs → Mem → Option (Regs × Mem)
  | 0, r, m => if r R_BTT = 0 then some (r, m) else none
  | fuel + 1, r, m =>
    if r R_BTT = 0 then some (r, m) else thread fuel (round r m).1 (round r m).2

/-- The thread woken by the event: one round whatever the registers say, then on. -/
def wake (fuel : Nat) (r : Regs) (m : Mem) : Option (Regs × Mem) :=
  thread fuel (round r m).1 (round r m).2

/-- A register write (137-178) of a 4-byte word. `none`: outside the array, which
nothing checks. The flag tells whether the event is notified. -/
def regWrite (r : Regs) (addr : Nat) (v : BitVec 32) : Option (Regs × Bool) :=
  let i := addr / 4
  if i < R_MAX then
    if i = R_CR then some (r.put i (v &&& ~~~ CR_RESET), false)
    else if i = R_SR then some (r.put i (r i &&& ~~~ (v &&& SR_IOC_IRQ)), false)
    else if i = R_BTT then some ((r.put i v).put R_SR (r R_SR &&& ~~~ SR_IDLE), true)
    else some (r.put i v, false)
  else none

/-- A register read. -/
def regRead (r : Regs) (addr : Nat) : Option (BitVec 32) :=
  if addr / 4 < R_MAX then some (r (addr / 4)) else none

/-- A round against a target that fails every read without touching the buffer:
the response status is not looked at, so the old contents `stale` of the buffer
are written (121-135). -/
def roundBadRead (stale : List Byte) (r : Regs) (m : Mem) : Regs × Mem :=
  let l := start r m
  finish { l with buf := stale.take l.tlen } r m

end Verif.Cdma
