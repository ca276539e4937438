import Verif.RtlFifo.Spec

/-!
# The descriptor allocator of the RTL master bridge: model

`/repo/rtl-bridges/pcie-host/axi/rtl/common/descriptor_allocator_uc_master.v`
(the same text as `ace/rtl/common/descriptor_allocator_uc_master.v`): software
gives the hardware the ownership of descriptors, and the allocator hands them
out one after the other, writes and reads apart.

One `step` is one rising clock edge.  The two FIFOs (lines 445-474) are the
queues `RtlFifo.fifo_is_queue` proves them to be, with room for 16.

Simplifications: `MAX_DESC` is 16, as in the only instance
(`axi_master_control.v` 2693, which does not set it); the reset is the start
state `reset` and does not come back; vectors are functions of which indices
0 to 15 count.
-/

namespace Verif.RtlDesc

open RtlFifo (Queue)

/-- The inputs of a cycle, lines 41-76: the ownership register, the type of
every descriptor (`true` is a read), the handshakes on the two address
channels, and what holds the next descriptor back. -/
structure In where
  own : Nat → Bool
  typ : Nat → Bool
  arnext : Bool
  awnext : Bool
  dataFull : Bool
  wrBusy : Bool
  rdBusy : Bool

/-- The registers, lines 94-104. -/
structure Regs where
  /-- `OWNERSHIP_reg_ff`, `OWNERSHIP_reg_ff2` -/
  ff : Nat → Bool
  ff2 : Nat → Bool
  /-- `desc_fifo_write_pend`, `desc_fifo_write_done` -/
  pend : Nat → Bool
  done : Nat → Bool
  /-- `desc_alloc_fifo_state` is `DESC_ALLOC_FIFO_WRITE` -/
  writing : Bool
  /-- `desc_write_id`, `desc_write_en` -/
  wid : Nat
  wen : Bool
  /-- `desc_wr_req_read_en`, `fetch_wr_req_fifo_state` is
  `FETCH_WR_REQ_FIFO_READ`, and the same of the reads -/
  wrEn : Bool
  wrRead : Bool
  rdEn : Bool
  rdRead : Bool
  /-- the FIFOs -/
  wq : Queue Nat
  rq : Queue Nat

def reset : Regs where
  ff := fun _ => false
  ff2 := fun _ => false
  pend := fun _ => false
  done := fun _ => false
  writing := false
  wid := 0
  wen := false
  wrEn := false
  wrRead := false
  rdEn := false
  rdRead := false
  wq := ⟨[], none⟩
  rq := ⟨[], none⟩

/-- `OWNERSHIP_reg_pulse`, line 158. -/
def pulse (s : Regs) (i : In) (d : Nat) : Bool := i.own d && !s.ff2 d

/-- Lines 165-183. -/
def pendNext (s : Regs) (i : In) (d : Nat) : Bool :=
  if pulse s i d && !s.pend d then true else if s.done d then false else s.pend d

/-- The descriptor the chain of lines 207-336 takes: the first which is
pending, if neither FIFO is full. -/
def pick (s : Regs) : Option Nat :=
  (List.range 16).find? fun d => s.pend d && !decide (s.rq.items.length = 16) && !decide (s.wq.items.length = 16)

/-- Lines 196-348: write enable, descriptor, `desc_fifo_write_done` and state. -/
def alloc (s : Regs) : Bool × Nat × (Nat → Bool) × Bool :=
  if s.writing then (false, 0, s.done, false)
  else
    match pick s with
    | some d => (true, d, fun k => if k = d then true else s.done k, true)
    | none => (false, 0, fun _ => false, false)

/-- Lines 363-393 and 405-436: read enable and state; `go` is the condition
to fetch the next descriptor and `next` the handshake. -/
def fetch (en read go next : Bool) : Bool × Bool :=
  if read then (false, !next) else if go then (true, true) else (en, false)

def step (s : Regs) (i : In) : Regs :=
  let a := alloc s
  let w := fetch s.wrEn s.wrRead (!s.wq.items.isEmpty && !i.dataFull && !i.wrBusy) i.awnext
  let r := fetch s.rdEn s.rdRead (!s.rq.items.isEmpty && !i.rdBusy) i.arnext
  { ff := i.own
    ff2 := s.ff
    pend := pendNext s i
    done := a.2.2.1
    writing := a.2.2.2
    wid := a.2.1
    wen := a.1
    wrEn := w.1
    wrRead := w.2
    rdEn := r.1
    rdRead := r.2
    wq := s.wq.next 16 ⟨s.wen && !i.typ s.wid, s.wrEn, s.wid⟩
    rq := s.rq.next 16 ⟨s.wen && i.typ s.wid, s.rdEn, s.wid⟩ }

end Verif.RtlDesc
