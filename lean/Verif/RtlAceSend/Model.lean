import Verif.RtlRdata.Model

/-!
# The sending channels of the ACE RTL bridges: model

Software writes the index of a descriptor to a push register.  The bridge
keeps the indices in a FIFO, moves them to a second one, reads for each the
words of its burst from a RAM, stores them with the fields of the descriptor in
a third FIFO, and puts them on the channel.  One module does this for read
data, write responses and snoop requests of the slave bridge, and for write
requests, write data, snoop responses and snoop data of the master bridge.

File: `/repo/rtl-bridges/pcie-host/ace/rtl/common/ace_ctrl_valid.v`.

One `step` is one rising clock edge.  The first FIFO is that of
`Verif.RtlFifo` with its memory, since its early output is used.

From the second FIFO on (lines 678-1030) the text is that of the read channel
of the AXI slave bridge, `Verif.RtlRdata.Model`, but for three things: the
length and the place of a burst are given in words (lines 803-809), so that the
unit is one word, and `USR_fifo` is almost full with 28 elements in place of 27
(lines 260 and 903).  The registers and the RAM before it
(`master/ace_regs_mst.v` 28444-28532 and the same of the slave) take three
cycles, as there.

Simplifications: `MAX_DESC` is 16; the reset is the start state and does not
come back; mode 0; not the channel `MST_RD_REQ`, which waits for a place in
the RAM for each read (lines 498-607); `XACK_fifo` is left out
(`Verif.RtlAck`); a channel without data has bursts of one word which nobody
looks at; write strobes are part of a word; the fields of a descriptor are one
value.
-/

namespace Verif.RtlAceSend

/-- The parameters of `ORDER_fifo`, 468-485, in a synthesised memory. -/
def fc : RtlFifo.Cfg := { depth := 16, bits := 4, cut := true, almostFull := 14, almostEmpty := 2 }

/-- The part from the second FIFO on, with a RAM of so many words. -/
def back (words : Nat) : RtlRdata.Cfg := { bytes := 1, words := words, high := 28 }

structure In (δ σ : Type) where
  /-- `fifo_wren` with `fifo_din` -/
  push : Option Nat
  /-- `descbus_len`: one less than the words of the burst -/
  len : Nat → Nat
  /-- `descbus_dtoffset`, in words -/
  off : Nat → Nat
  /-- `descbus` -/
  fields : Nat → σ
  /-- the memory of the RAM -/
  ram : Nat → δ
  /-- `infbus_ready` -/
  ready : Bool

structure Regs (δ σ : Type) where
  order : RtlFifo.Regs Nat
  /-- `ORDER_rden`, `order_desc_idx` -/
  rden : Bool
  idx : Nat
  /-- `IDX_wren`, `IDX_din` -/
  wren : Bool
  din : Nat
  /-- the rest -/
  back : RtlRdata.Regs δ σ

section
variable {δ σ : Type}

def reset : Regs δ σ := { order := RtlFifo.reset, rden := false, idx := 0, wren := false, din := 0, back := RtlRdata.reset }

/-- `ORDER_rden`, 648-655. -/
def rdenNext (s : Regs δ σ) : Bool := if s.rden then false else if s.order.preValid then true else s.rden

/-- `order_desc_idx`, 648-655; an unknown value is 0. -/
def idxNext (s : Regs δ σ) : Nat := if s.rden then 0 else if s.order.preValid then s.order.pre.getD 0 else s.idx

/-- `fifo_free_level`, 462. -/
def free (s : Regs δ σ) : Nat := 16 - s.order.cnt

/-- The inputs of the rest, 678-693. -/
def feed (s : Regs δ σ) (i : In δ σ) : RtlRdata.In δ σ :=
  { push := if s.wren then some s.din else none, len := i.len, off := i.off, resp := i.fields, ram := i.ram, rready := i.ready }

/-- One clock edge. -/
def step (words : Nat) (s : Regs δ σ) (i : In δ σ) : Regs δ σ :=
  { order := RtlFifo.step fc s.order ⟨!s.order.full && i.push.isSome, s.rden, i.push.getD 0⟩
    rden := rdenNext s
    idx := idxNext s
    wren := s.rden
    din := s.idx
    back := RtlRdata.step (back words) s.back (feed s i) }

/-- What is on the channel, 923-932. -/
def shown (s : Regs δ σ) : Option (RtlRdata.Beat δ σ) := RtlRdata.shown s.back

end

end Verif.RtlAceSend
