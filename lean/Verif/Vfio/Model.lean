import Verif.DevAccess.Model
import Verif.Base.Range

/-!
# TLM to VFIO bridge

Model of `/repo/tlm-bridges/tlm2vfio-bridge.h` (accesses, DMI, interrupt
forwarding, DMA buffers) on top of `/repo/utils/vfio/vfio-ll.h` and
`/repo/utils/async_event.h`.

The kernel's side of an INTx interrupt (VFIO masks the line when it signals the
event descriptor, and signals again when unmasked with the line still active) is
taken from the VFIO interface; reads of the event descriptor are taken to succeed.
-/

namespace Verif.Vfio
open Verif

/-! ### Accesses -/

/-- A mapped region of the device (`map[region]`, `map_size[region]`, vfio-ll.h
100-101): its bytes by offset, and its size. -/
structure Region where
  io : Mem
  size : Nat

/-- What an access does: refused with a status and no effect; carried out (new
region, caller's buffer, status, whether the interrupt is acknowledged); or a copy
that leaves the mapping. -/
inductive Outcome
  | refused (st : Status)
  | done (io : Mem) (data : List Byte) (st : Status) (ack : Bool)
  | outside

/-- `b_transport`, tlm2vfio-bridge.h 248-301.  A failed range check (276-278) only sets
a status, which 300 overwrites: the copy is made all the same.  Every command but
READ is taken as a write (257). -/
def bTransport (r : Region) (offset : Nat) (g : Gp) : Outcome :=
  if g.be ≠ [] then .refused .byteEnable
  else if g.sw ≠ 0 ∧ g.sw < g.len then .refused .burst
  else
    let addr := (g.addr + offset) % 2 ^ 64
    if r.size < addr + g.len then .outside
    else
      let ack := decide (g.len < 8)
      match g.cmd with
      | .read => .done r.io (DevAccess.fromIo .little r.io addr g.len).1 .ok ack
      | _ => .done (DevAccess.toIo r.io addr g.data).1 g.data .ok ack

/-- A DMI grant: the region offset its pointer stands for, and the bus addresses. -/
structure Dmi where
  ptr : Nat
  first : Nat
  last : Nat
deriving DecidableEq

/-- `get_direct_mem_ptr`, 303-313: the `offset` of the bridge is not applied. -/
def dmi (r : Region) : Dmi := { ptr := 0, first := 0, last := r.size - 1 }

/-- The region byte a DMI user touches for a bus address. -/
def Dmi.byte (d : Dmi) (addr : Nat) : Nat := d.ptr + (addr - d.first)

/-! ### DMA buffers -/

/-- `tlm_mm_vfio` constructor, 51, 87-91: where descriptor `i` keeps its data and its
byte enables in the mapping (`unsigned int` arithmetic). -/
def dataOff (size i : Nat) : Nat := (i * size) % 2 ^ 32
/-- 89 -/
def beOff (nr size i : Nat) : Nat := (nr * size) % 2 ^ 32 + (i * size) % 2 ^ 32
/-- `map_size`, 51 (`unsigned int` product), and what is mapped (71). -/
def mapSize (nr size : Nat) : Nat := (nr * size * 2) % 2 ^ 32
/-- Length passed to `mmap`, 71. -/
def mapped (nr size : Nat) : Nat := mapSize nr size * 2
/-- Length passed to `munmap`, 100. -/
def unmapped (nr size : Nat) : Nat := mapSize nr size

/-! ### Interrupts -/

/-- Where the polling thread is: before its first unmask (217); blocked in or before
`read` (219); between `read` and the lock; holding the lock with `irq_val` set but the
event not yet notified (224-227). -/
inductive Poll | start | reading | got | holding
deriving DecidableEq

/-- Where `irq_ack` (200-209) is: not running; `irq_val` cleared; interrupt unmasked. -/
inductive Ack | idle | cleared | unmasked
deriving DecidableEq

/-- Interrupt state: the device's line, the kernel's mask and event counter, the two
threads, `irq_val`, the SystemC event (requested, then fired) and the output port. -/
structure Irq where
  line : Bool := false
  masked : Bool := false
  efd : Nat := 0
  poll : Poll := .start
  ack : Ack := .idle
  val : Bool := false
  requested : Bool := false
  fired : Bool := true
  out : Bool := false
  /-- ghost: the line was active at some moment since the interrupt was last re-armed
  by an acknowledgement -/
  seen : Bool := false
deriving DecidableEq

/-- The mutex is taken by whoever is inside its section. -/
def Irq.locked (s : Irq) : Bool := decide (s.poll = .holding) || decide (s.ack ≠ .idle)

/-- The kernel unmasks: signal at once if the line is active. -/
def Irq.unmask (s : Irq) : Irq :=
  if s.line then { s with masked := true, efd := s.efd + 1 } else { s with masked := false }

/-- One step of the system. -/
inductive Move
  | raise | lower
  | pollStart | pollRead | pollSet | pollNotify
  | access (len : Nat)
  | ackUnmask | ackNotify
  | update | proxy
deriving DecidableEq

/-- The step, if it can be taken. -/
def Irq.move (s : Irq) : Move → Option Irq
  -- the device's line; the kernel signals an unmasked line and masks it
  | .raise =>
    some (if s.masked then { s with line := true, seen := true }
      else { s with line := true, seen := true, masked := true, efd := s.efd + 1 })
  | .lower => some { s with line := false }
  -- irq_poll 217
  | .pollStart => if s.poll = .start then some { s.unmask with poll := .reading } else none
  -- irq_poll 219: reading an event descriptor takes its whole count
  | .pollRead => if s.poll = .reading ∧ 0 < s.efd then some { s with efd := 0, poll := .got } else none
  -- irq_poll 224-225
  | .pollSet =>
    if s.poll = .got ∧ s.locked = false then some { s with val := true, poll := .holding } else none
  -- irq_poll 226-227
  | .pollNotify => if s.poll = .holding then some { s with requested := true, poll := .reading } else none
  -- b_transport 296-297, irq_ack 202-204: nothing to do without `irq_val`
  | .access len =>
    if len < 8 then
      if s.locked = false then
        some (if s.val then { s with val := false, ack := .cleared } else s)
      else none
    else some s
  -- irq_ack 205
  | .ackUnmask =>
    if s.ack = .cleared then some { s.unmask with ack := .unmasked, seen := s.line } else none
  -- irq_ack 206-208
  | .ackNotify => if s.ack = .unmasked then some { s with requested := true, ack := .idle } else none
  -- async_event::update
  | .update => if s.requested then some { s with requested := false, fired := true } else none
  -- irq_proxy 192-198
  | .proxy => if s.fired then some { s with fired := false, out := s.val } else none

/-- The state once the bridge is constructed: the device was reset (vfio-ll.h 353). -/
def Irq.init : Irq := {}

/-- The same once the polling thread has unmasked the interrupt for the first time. -/
def Irq.started : Irq := { poll := .reading }

/-- Reachable states. -/
inductive Reach (s₀ : Irq) : Irq → Prop
  | init : Reach s₀ s₀
  | step {s t : Irq} (m : Move) : Reach s₀ s → s.move m = some t → Reach s₀ t

end Verif.Vfio
