import Verif.RtlFifo.Props

/-!
# Write responses of the AXI RTL slave bridge in the order software says: model

Software writes the descriptor of each request to a register, in the order in
which the responses are to go out, and answers the requests in any order.  A
response goes from the FIFO of the order to a FIFO of indices, from there with
its payload to a FIFO of responses, and then to the B channel.

File: `/repo/rtl-bridges/pcie-host/axi/rtl/slave/slave_inf.v`, lines
1475-1600, 1643-1690 (with `FORCE_RESP_ORDER` 1 and `imm_bresp` 0), 1764-2007.

One `step` is one rising clock edge.  The FIFO of the order is that of
`Verif.RtlFifo`, with its memory, since its early output is used; the two
others are the queues which `RtlFifo.fifo_is_queue` shows the same FIFO to be.

Simplifications: `MAX_DESC` is 16; the reset is the start state and does not
come back; vectors are functions of which indices 0 to 15 count; the pulse
`sig_resp_order_valid` for a write descriptor is an input; the fields of a
descriptor which make up the payload of its response are one value.
-/

namespace Verif.RtlResp

open RtlFifo (Queue)

/-- The parameters of the FIFO, 1507-1509. -/
def fc : RtlFifo.Cfg := { depth := 16, bits := 4, cut := true, almostFull := 14, almostEmpty := 2 }

/-- `wr_resp_state`. -/
inductive St where
  | idle
  | strt
  | wait
  deriving DecidableEq, Repr

structure In (ρ : Type) where
  /-- `sig_resp_order_valid` with `sig_resp_order_desc_idx` -/
  order : Option Nat
  /-- `RD_RESP_ORDER_fifo_counter` -/
  reads : Nat
  /-- `bresp_init` -/
  init : Nat → Bool
  /-- the fields of `B_din` for each descriptor, 1826-1860 -/
  resp : Nat → ρ
  bready : Bool

structure Regs (ρ : Type) where
  /-- `WR_RESP_ORDER_fifo` -/
  order : RtlFifo.Regs Nat
  /-- `bresp_init_ff`, `bresp_init_order_req`, `bresp_init_order_ser` -/
  initFf : Nat → Bool
  req : Nat → Bool
  ser : Nat → Bool
  /-- `WR_RESP_ORDER_rden`, `wr_resp_order_desc_idx` -/
  rden : Bool
  idx : Nat
  /-- `BIDX_wren`, `BIDX_din`, `BIDX_fifo`, `BIDX_rden` -/
  xWren : Bool
  xDin : Nat
  x : Queue Nat
  xRden : Bool
  /-- `B_wren`, `B_fifo`, `B_rden` -/
  bWren : Bool
  b : Queue (Nat × ρ)
  bRden : Bool
  st : St
  bvalid : Bool
  /-- `bresp_done` -/
  done : Nat → Bool

def reset {ρ : Type} : Regs ρ :=
  { order := RtlFifo.reset, initFf := fun _ => false, req := fun _ => false, ser := fun _ => false, rden := false, idx := 0,
    xWren := false, xDin := 0, x := ⟨[], none⟩, xRden := false, bWren := false, b := ⟨[], none⟩, bRden := false, st := .idle,
    bvalid := false, done := fun _ => false }

section
variable {ρ : Type}

/-- `resp_free_entry` is not 0, 1479-1485. -/
def free (s : Regs ρ) (i : In ρ) : Bool := decide (i.reads + s.order.cnt < 16)

/-- `WR_RESP_ORDER_wren`, 1485-1492. -/
def push (s : Regs ρ) (i : In ρ) : Bool := i.order.isSome && free s i

/-- The oldest of the order is answered, 1581: the descriptor. -/
def serve (s : Regs ρ) : Option Nat :=
  if s.order.preValid then
    match s.order.pre with
    | some d => if s.req d then some d else none
    | none => none
  else none

/-- `bresp_init_order_req`, 1556-1568. -/
def reqNext (s : Regs ρ) (i : In ρ) : Nat → Bool := fun k =>
  if s.ser k then false else if i.init k && !s.initFf k then true else s.req k

/-- `WR_RESP_ORDER_rden`, 1572-1593. -/
def rdenNext (s : Regs ρ) : Bool := if s.rden then false else if (serve s).isSome then true else s.rden

/-- `wr_resp_order_desc_idx`, 1572-1593. -/
def idxNext (s : Regs ρ) : Nat :=
  if s.rden then 0
  else match serve s with
    | some d => d
    | none => s.idx

/-- `bresp_init_order_ser`, 1572-1593. -/
def serNext (s : Regs ρ) : Nat → Bool :=
  if s.rden then fun _ => false
  else match serve s with
    | some d => fun k => decide (k = d)
    | none => s.ser

/-- `wr_resp_state`, 1962-2003. -/
def stNext (s : Regs ρ) (i : In ρ) : St :=
  match s.st with
  | .idle => if s.b.items.isEmpty then .idle else .strt
  | .strt => .wait
  | .wait => if s.bvalid && i.bready then (if s.b.items.isEmpty then .idle else .strt) else .wait

/-- `B_rden`, 1962-2003. -/
def bRdenNext (s : Regs ρ) (i : In ρ) : Bool :=
  match s.st with
  | .idle => !s.b.items.isEmpty
  | .strt => false
  | .wait => s.bvalid && i.bready && !s.b.items.isEmpty

/-- `s_axi_usr_bvalid`, 1937-1952. -/
def bvalidNext (s : Regs ρ) (i : In ρ) : Bool :=
  if s.bvalid && i.bready then false else if s.bRden then true else s.bvalid

/-- `B_din`, from the index which `BIDX_fifo` gave, 1815-1868. -/
def bDin (s : Regs ρ) (i : In ρ) : Option (Nat × ρ) := s.x.last.map fun d => (d, i.resp d)

/-- The response on the B channel, 1893-1906. -/
def shown (s : Regs ρ) : Option (Nat × ρ) := if s.bvalid then s.b.last else none

/-- `B_fifo`; nothing has been given before the first read, so that there is
always an element when `B_wren` is high. -/
def bNext (s : Regs ρ) (i : In ρ) : Queue (Nat × ρ) :=
  match bDin s i with
  | some e => s.b.next 16 ⟨s.bWren, s.bRden, e⟩
  | none => s.b.next 16 ⟨false, s.bRden, (0, i.resp 0)⟩

/-- One clock edge. -/
def step (s : Regs ρ) (i : In ρ) : Regs ρ :=
  { order := RtlFifo.step fc s.order ⟨push s i, s.rden, i.order.getD 0⟩
    initFf := i.init
    req := reqNext s i
    ser := serNext s
    rden := rdenNext s
    idx := idxNext s
    xWren := s.rden
    xDin := s.idx
    x := s.x.next 16 ⟨s.xWren, s.xRden, s.xDin⟩
    xRden := if s.xRden then false else !s.x.items.isEmpty
    bWren := s.xRden
    b := bNext s i
    bRden := bRdenNext s i
    st := stNext s i
    bvalid := bvalidNext s i
    done := fun k => i.bready && (match shown s with
      | some e => decide (e.1 = k)
      | none => false) }

end

end Verif.RtlResp
