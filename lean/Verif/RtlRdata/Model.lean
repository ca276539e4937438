import Verif.RtlFifo.Props

/-!
# Read data of the AXI RTL slave bridge: model

The descriptors whose read is answered come, one after the other, through a
FIFO of indices.  For each of them the bridge reads the words of the burst from
a RAM, three cycles a word, and stores them with the signals beside them in a
FIFO, from which they go to the R channel.

Files: `/repo/rtl-bridges/pcie-host/axi/rtl/slave/slave_inf.v`, lines 858
and 2445-2809; `slave/regs_slave.v`, lines 16901-16932;
`common/data_ram.v`; `common/synchronizer.v`.

One `step` is one rising clock edge.  The two FIFOs are the queues which
`RtlFifo.fifo_is_queue` shows `sync_fifo` to be.

Simplifications: AXI4 or AXI3, `MAX_DESC` is 16; the reset is the start state
and does not come back; `RIDX_wren` with `RIDX_din` is an input; the RAM is an
input, as the port by which software writes it is not modelled; `rresp`,
`ruser` and `rid` of a descriptor are one value; a register which is 0 or not
set after the reset, and which is not used before it is written, has no value.
-/

namespace Verif.RtlRdata

open RtlFifo (Queue)

/-- `DATA_WIDTH` is `8 * bytes`, `RAM_SIZE / bytes` is `words`,
`ALMOST_FULL_DEPTH` of `R_fifo` (2659) is `high`. -/
structure Cfg where
  bytes : Nat
  words : Nat
  high : Nat

/-- The AXI slave bridge, 2659. -/
def axi (bytes words : Nat) : Cfg := { bytes := bytes, words := words, high := 27 }

/-- `DATA_WIDTH`. -/
def Cfg.dw (c : Cfg) : Nat := 8 * c.bytes

structure In (δ σ : Type) where
  /-- `RIDX_wren` with `RIDX_din` -/
  push : Option Nat
  /-- `arlen` of the request under each descriptor -/
  len : Nat → Nat
  /-- `int_desc_n_data_offset_addr` -/
  off : Nat → Nat
  /-- `int_status_resp_resp`, `int_desc_n_xuser_0_xuser`, `int_desc_n_axid_0_axid` -/
  resp : Nat → σ
  /-- `mem` of `u_rdata_ram` -/
  ram : Nat → δ
  rready : Bool

/-- The part of `r_din` which is not data. -/
structure Side (σ : Type) where
  idx : Nat
  resp : σ
  last : Bool
  deriving DecidableEq

/-- An element of `R_fifo`. -/
structure Beat (δ σ : Type) where
  idx : Nat
  resp : σ
  last : Bool
  data : δ
  deriving DecidableEq

/-- `rd_data_state`. -/
inductive DSt where
  | idle
  | new
  | newRead
  | conRead
  | conWait
  deriving DecidableEq, Repr

/-- `rd_resp_state`. -/
inductive RSt where
  | idle
  | strt
  | wait
  deriving DecidableEq, Repr

structure Regs (δ σ : Type) where
  /-- `RIDX_fifo`, `RIDX_rden` -/
  x : Queue Nat
  xRden : Bool
  dst : DSt
  /-- `uc2rb_rd_valid`, `uc2rb_rd_addr`, `r_din` -/
  v0 : Bool
  a0 : Nat
  d0 : Option (Side σ)
  /-- `rd_offset`, `rdata_count`, `arlen`, `rd_idx` -/
  next : Nat
  count : Nat
  len : Nat
  idx : Nat
  /-- the three registers of each synchronizer, `R_wren` being `v3` -/
  v1 : Bool
  v2 : Bool
  v3 : Bool
  d1 : Option (Side σ)
  d2 : Option (Side σ)
  d3 : Option (Side σ)
  /-- `uc2rb_rd_addr_reg`, `memreg_b`, `memreg_b_reg` -/
  a1 : Nat
  m2 : Option δ
  m3 : Option δ
  /-- `R_fifo`, `R_rden` -/
  r : Queue (Beat δ σ)
  rRden : Bool
  rst : RSt
  rvalid : Bool
  /-- `rresp_done` -/
  done : Nat → Bool

section
variable {δ σ : Type}

def reset : Regs δ σ :=
  { x := ⟨[], none⟩, xRden := false, dst := .idle, v0 := false, a0 := 0, d0 := none, next := 0, count := 0, len := 0, idx := 0,
    v1 := false, v2 := false, v3 := false, d1 := none, d2 := none, d3 := none, a1 := 0, m2 := none, m3 := none, r := ⟨[], none⟩,
    rRden := false, rst := .idle, rvalid := false, done := fun _ => false }

/-- `int_desc_n_size_txn_size`, 16 bits, 858. -/
def size (c : Cfg) (i : In δ σ) (d : Nat) : Nat := ((i.len d + 1) * c.dw / 8) % 65536

/-- `int_desc_n_size_txn_size * 8 / DATA_WIDTH`, 2556. -/
def beats (c : Cfg) (i : In δ σ) (d : Nat) : Nat := size c i d * 8 / c.dw

/-- `int_desc_n_data_offset_addr * 8 / DATA_WIDTH`, 2553. -/
def base (c : Cfg) (i : In δ σ) (d : Nat) : Nat := i.off d * 8 / c.dw

/-- `R_almost_full`, 2659. -/
def almostFull (c : Cfg) (s : Regs δ σ) : Bool := decide (c.high ≤ s.r.items.length)

/-- `RIDX_dout`. -/
def dout (s : Regs δ σ) : Nat := s.x.last.getD 0

/-- `rlast` in `RD_DATA_CON_RDRAM`, 2609: `arlen-1` has 32 bits. -/
def conLast (s : Regs δ σ) : Bool := decide (s.count + 1 = s.len)

/-- `rd_data_state`, 2508-2645. -/
def dstNext (c : Cfg) (s : Regs δ σ) (i : In δ σ) : DSt :=
  match s.dst with
  | .idle => if s.x.items.isEmpty then .idle else .new
  | .new => if almostFull c s then .new else .newRead
  | .newRead => if beats c i (dout s) = 1 then .idle else if almostFull c s then .conWait else .conRead
  | .conRead => if conLast s then .idle else if almostFull c s then .conWait else .conRead
  | .conWait => if almostFull c s then .conWait else .conRead

/-- `RIDX_rden`, 2508-2645. -/
def xRdenNext (s : Regs δ σ) : Bool :=
  match s.dst with
  | .idle => !s.x.items.isEmpty
  | _ => false

/-- `uc2rb_rd_valid`, 2508-2645. -/
def v0Next (s : Regs δ σ) : Bool :=
  match s.dst with
  | .newRead => true
  | .conRead => true
  | _ => false

/-- `uc2rb_rd_addr`, 2508-2645. -/
def a0Next (c : Cfg) (s : Regs δ σ) (i : In δ σ) : Nat :=
  match s.dst with
  | .newRead => base c i (dout s) % c.words
  | .conRead => s.next
  | .conWait => s.a0
  | _ => 0

/-- `r_din` without the data, 2508-2645. -/
def d0Next (c : Cfg) (s : Regs δ σ) (i : In δ σ) : Option (Side σ) :=
  match s.dst with
  | .idle => none
  | .newRead => some ⟨dout s, i.resp (dout s), decide (beats c i (dout s) = 1)⟩
  | .conRead => some ⟨s.idx, i.resp s.idx, conLast s⟩
  | _ => s.d0

/-- `rd_offset`, 2554 and 2603. -/
def nextNext (c : Cfg) (s : Regs δ σ) (i : In δ σ) : Nat :=
  match s.dst with
  | .newRead => (base c i (dout s) + 1) % c.words
  | .conRead => (s.next + 1) % c.words
  | _ => s.next

/-- `rdata_count`, 2555 and 2604. -/
def countNext (s : Regs δ σ) : Nat :=
  match s.dst with
  | .newRead => 0
  | .conRead => (s.count + 1) % 256
  | _ => s.count

/-- `arlen`, 2556. -/
def lenNext (c : Cfg) (s : Regs δ σ) (i : In δ σ) : Nat :=
  match s.dst with
  | .newRead => (beats c i (dout s) + 255) % 256
  | _ => s.len

/-- `rd_idx`, 2557. -/
def idxNext (s : Regs δ σ) : Nat :=
  match s.dst with
  | .newRead => dout s
  | _ => s.idx

/-- `R_din`, 2471-2500. -/
def rDin (s : Regs δ σ) : Option (Beat δ σ) :=
  match s.d3, s.m3 with
  | some d, some m => some ⟨d.idx, d.resp, d.last, m⟩
  | _, _ => none

/-- `R_fifo`, 2653-2670; with `R_wren` there is always an element. -/
def rNext (s : Regs δ σ) : Queue (Beat δ σ) :=
  match rDin s with
  | some e => s.r.next 32 ⟨s.v3, s.rRden, e⟩
  | none => if s.rRden then ⟨s.r.items.drop 1, if s.r.items.isEmpty then s.r.last else s.r.items.head?⟩ else s.r

/-- The beat on the R channel, 2676-2690. -/
def shown (s : Regs δ σ) : Option (Beat δ σ) := if s.rvalid then s.r.last else none

/-- `rd_resp_state`, 2760-2809. -/
def rstNext (s : Regs δ σ) (i : In δ σ) : RSt :=
  match s.rst with
  | .idle => if s.r.items.isEmpty then .idle else .strt
  | .strt => .wait
  | .wait => if s.rvalid && i.rready then (if s.r.items.isEmpty then .idle else .strt) else .wait

/-- `R_rden`, 2760-2809. -/
def rRdenNext (s : Regs δ σ) (i : In δ σ) : Bool :=
  match s.rst with
  | .idle => !s.r.items.isEmpty
  | .strt => false
  | .wait => s.rvalid && i.rready && !s.r.items.isEmpty

/-- `s_axi_usr_rvalid`, 2738-2752. -/
def rvalidNext (s : Regs δ σ) (i : In δ σ) : Bool :=
  if s.rvalid && i.rready then false else if s.rRden then true else s.rvalid

/-- `rresp_done`, 2700-2712. -/
def doneNext (s : Regs δ σ) (i : In δ σ) : Nat → Bool := fun k =>
  match shown s with
  | some e => i.rready && e.last && decide (e.idx = k)
  | none => false

/-- One clock edge. -/
def step (c : Cfg) (s : Regs δ σ) (i : In δ σ) : Regs δ σ :=
  { x := s.x.next 16 ⟨i.push.isSome, s.xRden, i.push.getD 0⟩
    xRden := xRdenNext s
    dst := dstNext c s i
    v0 := v0Next s
    a0 := a0Next c s i
    d0 := d0Next c s i
    next := nextNext c s i
    count := countNext s
    len := lenNext c s i
    idx := idxNext s
    v1 := s.v0
    v2 := s.v1
    v3 := s.v2
    d1 := s.d0
    d2 := s.d1
    d3 := s.d2
    a1 := s.a0
    m2 := some (i.ram s.a1)
    m3 := s.m2
    r := rNext s
    rRden := rRdenNext s i
    rst := rstNext s i
    rvalid := rvalidNext s i
    done := doneNext s i }

end

end Verif.RtlRdata
