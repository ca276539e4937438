import Verif.RtlFifo.Spec

/-!
# How the AXI RTL slave bridge stores write data: model

The beats of the W channel go through a FIFO of 8 into the data RAM, each
burst to the piece of RAM its request was given; when the last beat is
written, the descriptor of the request is announced.

File: `/repo/rtl-bridges/pcie-host/axi/rtl/slave/slave_inf.v`, lines 1005-1006
(the offsets), 1139-1469 (the two FIFOs, `wready`, the state machine) and
3340-3390 (the error status).

One `step` is one rising clock edge.  The two FIFOs are the queues
`RtlFifo.fifo_is_queue` proves `sync_fifo.v` to be.  When a request is given
its descriptor (`Verif.RtlTxn`) is an input here.

Simplifications: `MAX_DESC` is 16; the reset is the start state and does not
come back; vectors are functions of which indices 0 to 15 count; the data and
the strobes of a beat, which go to two RAMs at the same address, are one
number, and `full` says that all strobes are set; `wuser` and `wid` are left
out; the length of a request is kept as the number of beats less one (`awlen`,
which the code computes back from the size in bytes) and is there as soon as
the descriptor is given (the code writes it one cycle later when a read gets
its descriptor in the same cycle, which is before it is used).
-/

namespace Verif.RtlWdata

open RtlFifo (Queue)

structure Cfg where
  /-- `EN_INTFS_AXI4LITE` -/
  lite : Bool
  /-- the number of words of the RAM: `uc2rb_wr_addr` and the offsets are this
  wide -/
  words : Nat

/-- One transfer of the W channel. -/
structure Beat where
  data : Nat
  last : Bool
  full : Bool
  deriving DecidableEq, Repr, Inhabited

/-- A write request with its descriptor and the place of its data. -/
structure Req where
  idx : Nat
  off : Nat
  len : Nat
  deriving DecidableEq, Repr

/-- `wr_state`. -/
inductive St where
  | idle | newTxn | newWait | conTxn | conWait | waitData
  deriving DecidableEq, Repr

structure In where
  /-- `wr_txn_valid` and `wr_alc_valid`: a request is given its descriptor -/
  aw : Option Req
  /-- `wvalid` with the beat -/
  w : Option Beat
  /-- `error_wr_bresp`, `error_wr_buser` -/
  other : Bool
  /-- `int_intr_error_clear_clr_err_0` -/
  clear : Bool

structure Regs where
  /-- `s_axi_usr_wready` -/
  ready : Bool
  /-- `W_wren` with `W_din` -/
  din : Option Beat
  /-- `W_fifo`, `AW_W_fifo` -/
  w : Queue Beat
  aw : Queue Nat
  /-- `wr_desc_offset`, and what `int_desc_n_size_txn_size` stands for -/
  off : Nat → Nat
  len : Nat → Nat
  /-- `wr_state`, `AW_W_rden`, `W_rden`, `W_rden_ff` -/
  st : St
  awRden : Bool
  wRden : Bool
  wRdenFf : Bool
  /-- `uc2rb_wr_we`, `uc2rb_wr_addr`, `uc2rb_wr_data` -/
  we : Bool
  addr : Nat
  data : Nat
  /-- `wr_fifo_pop_offset`, `wr_fifo_pop_idx`, `wlast_cntr`, `awlen_sig` -/
  popOff : Nat → Nat
  popIdx : Nat
  cntr : Nat
  awlen : Nat
  /-- `wr_req_avail`, `error_wr_wlast`, `int_desc_n_txn_type_wr_strb` -/
  avail : Nat → Bool
  err : Nat → Bool
  strb : Nat → Bool
  /-- the data RAM -/
  ram : Nat → Nat
  /-- `error_ctl_hw`, `error_ctl_hw_ff`, `int_intr_error_status_err_0`,
  `int_intr_error_clear_clr_err_0_ff` -/
  ctl : Bool
  ctlFf : Bool
  status : Bool
  clearFf : Bool

def reset : Regs :=
  { ready := false, din := none, w := ⟨[], none⟩, aw := ⟨[], none⟩, off := fun _ => 0, len := fun _ => 0, st := .idle,
    awRden := false, wRden := false, wRdenFf := false, we := false, addr := 0, data := 0, popOff := fun _ => 0,
    popIdx := 0, cntr := 0, awlen := 0, avail := fun _ => false, err := fun _ => false, strb := fun _ => false,
    ram := fun _ => 0, ctl := false, ctlFf := false, status := false, clearFf := false }

def set {β : Type} (f : Nat → β) (j : Nat) (x : β) : Nat → β := fun k => if k = j then x else f k

/-- `W_dout`, `AW_W_dout`. -/
def Regs.beat (s : Regs) : Beat := s.w.last.getD default
def Regs.desc (s : Regs) : Nat := s.aw.last.getD 0

/-- The beat at `W_dout` ends its burst, 1341-1343, 1376-1380, 1412, 1443. -/
def ends (c : Cfg) (s : Regs) : Bool := c.lite || s.beat.last

/-- `W_empty`. -/
def Regs.none (s : Regs) : Bool := s.w.items.isEmpty

/-- A request and a beat are there, 1287. -/
def Regs.begin? (s : Regs) : Bool := !s.aw.items.isEmpty && !s.none

/-- `wr_state`, 1280-1465. -/
def stNext (c : Cfg) (s : Regs) : St :=
  match s.st with
  | .idle => if s.begin? then .newTxn else .idle
  | .newTxn => .newWait
  | .newWait => if ends c s then .idle else if !s.none then .conTxn else .waitData
  | .conTxn => .conWait
  | .conWait => if ends c s then .idle else if !s.none then .conTxn else .waitData
  | .waitData => if !s.none then .conTxn else .waitData

/-- `AW_W_rden`, 1289, 1299, 1310. -/
def awRdenNext (s : Regs) : Bool :=
  match s.st with
  | .idle => s.begin?
  | .newTxn => false
  | _ => s.awRden

/-- `W_rden`, 1290, 1300, 1311, 1346, 1357-1362, 1388, 1415, 1425-1430, 1449. -/
def wRdenNext (c : Cfg) (s : Regs) : Bool :=
  match s.st with
  | .idle => s.begin?
  | .newTxn => false
  | .newWait => !ends c s && !s.none
  | .conTxn => false
  | .conWait => !ends c s && !s.none
  | .waitData => if !s.none then true else s.wRden

/-- `wr_fifo_pop_offset`, 1322, 1398. -/
def popOffNext (c : Cfg) (s : Regs) : Nat → Nat :=
  match s.st with
  | .newWait => set s.popOff s.desc ((s.off s.desc + 1) % c.words)
  | .conWait => set s.popOff s.popIdx ((s.popOff s.popIdx + 1) % c.words)
  | _ => s.popOff

/-- `uc2rb_wr_addr`, 1324, 1399. -/
def addrNext (s : Regs) : Nat :=
  match s.st with
  | .newWait => s.off s.desc
  | .conWait => s.popOff s.popIdx
  | _ => s.addr

/-- `wr_fifo_pop_idx`, 1337, 1400. -/
def popIdxNext (s : Regs) : Nat :=
  match s.st with
  | .newWait => s.desc
  | _ => s.popIdx

/-- `wlast_cntr`, 8 bits, 1293, 1302, 1312, 1331, 1410 (AXI4-Lite keeps none
and does not use it). -/
def cntrNext (s : Regs) : Nat :=
  match s.st with
  | .idle => 0
  | .newTxn => 0
  | .newWait => (s.cntr + 1) % 256
  | .conWait => (s.cntr + 1) % 256
  | _ => s.cntr

/-- `awlen_sig`, 1292, 1303, 1313, 1333. -/
def awlenNext (s : Regs) : Nat :=
  match s.st with
  | .idle => 0
  | .newTxn => 0
  | .newWait => s.len s.desc
  | _ => s.awlen

/-- `error_wr_wlast`, 1315, 1348-1352, 1367-1371, 1392, 1417-1421, 1434-1438,
1458; not there for AXI4-Lite. -/
def errNext (c : Cfg) (s : Regs) : Nat → Bool :=
  if c.lite then s.err else
  match s.st with
  | .idle => s.err
  | .newTxn => fun _ => false
  | .newWait => set s.err s.desc (if s.beat.last then s.len s.desc != 0 else s.len s.desc == 0)
  | .conTxn => fun _ => false
  | .conWait => set s.err s.popIdx (if s.beat.last then s.cntr != s.awlen else s.cntr == s.awlen)
  | .waitData => fun _ => false

/-- `wr_req_avail`, 1285, 1345, 1381, 1414, 1444. -/
def availNext (c : Cfg) (s : Regs) : Nat → Bool :=
  match s.st with
  | .idle => fun _ => false
  | .newWait => if ends c s then set s.avail s.desc true else s.avail
  | .conWait => if ends c s then set s.avail s.popIdx true else s.avail
  | _ => s.avail

/-- `int_desc_n_txn_type_wr_strb`, 1339, 1401. -/
def strbNext (s : Regs) : Nat → Bool :=
  match s.st with
  | .newWait => set s.strb s.desc (!s.beat.full)
  | .conWait => set s.strb s.popIdx (s.strb s.popIdx || !s.beat.full)
  | _ => s.strb

/-- `|error_wr_wlast`. -/
def Regs.anyErr (s : Regs) : Bool := (List.range 16).any s.err

/-- `int_intr_error_status_err_0`, 3382-3390. -/
def statusNext (s : Regs) (i : In) : Bool :=
  if s.ctl && !s.ctlFf then true else if i.clear && !s.clearFf then false else s.status

/-- The beat taken from the channel at this edge, 1189. -/
def taken (s : Regs) (i : In) : Option Beat := if s.ready then i.w else .none

def step (c : Cfg) (s : Regs) (i : In) : Regs :=
  { ready := !decide (6 ≤ s.w.items.length)
    din := taken s i
    w := s.w.next 8 ⟨s.din.isSome, s.wRden, s.din.getD default⟩
    aw := s.aw.next 16 ⟨i.aw.isSome, s.awRden, (i.aw.map (·.idx)).getD 0⟩
    off := match i.aw with
      | some r => set s.off r.idx r.off
      | _ => s.off
    len := match i.aw with
      | some r => set s.len r.idx r.len
      | _ => s.len
    st := stNext c s
    awRden := awRdenNext s
    wRden := wRdenNext c s
    wRdenFf := s.wRden
    we := s.wRdenFf
    addr := addrNext s
    data := s.beat.data
    popOff := popOffNext c s
    popIdx := popIdxNext s
    cntr := cntrNext s
    awlen := awlenNext s
    avail := availNext c s
    err := errNext c s
    strb := strbNext s
    ram := if s.we then set s.ram s.addr s.data else s.ram
    ctl := s.anyErr || i.other
    ctlFf := s.ctl
    status := statusNext s i
    clearFf := i.clear }

end Verif.RtlWdata
