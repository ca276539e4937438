import Verif.RtlAceSend.Model

/-!
# The acknowledges of the ACE RTL bridge: model

A master of ACE acknowledges each read and each write with a pulse of its own,
after the response.  The bridge reports a response to software as completed
when the acknowledge is there.  A pulse does not say of which response it is:
the bridge counts the pulses and keeps the indices of the responses taken in a
FIFO.

File: `/repo/rtl-bridges/pcie-host/ace/rtl/common/ace_ctrl_valid.v`, the
channels `SLV_RD_RESP` and `SLV_WR_RESP` of full ACE (189-191, 1029-1186), on
top of the sending channel of `Verif.RtlAceSend`.

One `step` is one rising clock edge.

Simplifications: those of `Verif.RtlAceSend`; `XACK_fifo` is the queue which
`Verif.RtlFifo` proves it to be, its early output not being used.
-/

namespace Verif.RtlAck

open RtlFifo (Queue)

structure In (δ σ : Type) where
  /-- the inputs of the channel -/
  chan : RtlAceSend.In δ σ
  /-- `inf_xack` -/
  ack : Bool
  /-- `intr_comp_clear_clr_comp` -/
  clear : Nat → Bool

structure Regs (δ σ : Type) where
  chan : RtlAceSend.Regs δ σ
  /-- `XACK_wren`, `XACK_fifo`, `XACK_rden`, `XACK_rden_ff` -/
  wren : Bool
  fifo : Queue Nat
  rden : Bool
  rdenFf : Bool
  /-- `xack_cntr` -/
  cntr : Nat
  /-- `xack_done`, which is `txn_cmpl` and `comp` (1139-1155), `comp_ff` -/
  done : Nat → Bool
  doneFf : Nat → Bool
  /-- `intr_comp_clear_clr_comp_ff`, `intr_comp_status_comp` -/
  clearFf : Nat → Bool
  status : Nat → Bool

section
variable {δ σ : Type}

def reset : Regs δ σ :=
  { chan := RtlAceSend.reset, wren := false, fifo := ⟨[], none⟩, rden := false, rdenFf := false, cntr := 0, done := fun _ => false,
    doneFf := fun _ => false, clearFf := fun _ => false, status := fun _ => false }

/-- `usr_idx`, the index in the output of `USR_fifo`, 926; it is `XACK_din`,
1033.  An unknown value is 0. -/
def usrIdx (s : Regs δ σ) : Nat :=
  match s.chan.back.r.last with
  | some e => e.idx
  | none => 0

/-- `XACK_wren`, 1035-1044. -/
def wrenNext (s : Regs δ σ) (i : In δ σ) : Bool :=
  match RtlAceSend.shown s.chan with
  | some e => i.chan.ready && e.last
  | none => false

/-- `xack_cntr`, five bits, 1073-1093. -/
def cntrNext (s : Regs δ σ) (i : In δ σ) : Nat :=
  if i.ack then (s.cntr + 1) % 32
  else if s.rden then s.cntr
  else if s.cntr ≠ 0 ∧ s.fifo.items ≠ [] then s.cntr - 1
  else s.cntr

/-- `XACK_rden`, 1073-1093. -/
def rdenNext (s : Regs δ σ) (i : In δ σ) : Bool :=
  if i.ack then false
  else if s.rden then false
  else if s.cntr ≠ 0 ∧ s.fifo.items ≠ [] then true
  else false

/-- `xack_done`, 1107-1123. -/
def doneNext (s : Regs δ σ) : Nat → Bool := fun k => s.rdenFf && decide (s.fifo.last.getD 0 = k)

/-- `intr_comp_status_comp`, 1175-1186: set when `comp` rises, and cleared when
the bit of software rises. -/
def statusNext (s : Regs δ σ) (i : In δ σ) : Nat → Bool := fun k =>
  if s.done k && !s.doneFf k then true
  else if i.clear k && !s.clearFf k then false
  else s.status k

/-- One clock edge. -/
def step (words : Nat) (s : Regs δ σ) (i : In δ σ) : Regs δ σ :=
  { chan := RtlAceSend.step words s.chan i.chan
    wren := wrenNext s i
    fifo := s.fifo.next 16 ⟨s.wren, s.rden, usrIdx s⟩
    rden := rdenNext s i
    rdenFf := s.rden
    cntr := cntrNext s i
    done := doneNext s
    doneFf := s.done
    clearFf := i.clear
    status := statusNext s i }

end

end Verif.RtlAck
