import Verif.RtlFifo.Props

/-!
# The order of responses of the AXI RTL slave bridge: model

Sixteen FIFOs, one for each ID in use, hold the descriptors of the requests
accepted.  When software has answered a descriptor, it is taken from the head
of its FIFO and its response goes out.

File: `/repo/rtl-bridges/pcie-host/axi/rtl/slave/slave_inf.v`, for writes
lines 1005-1135 (filling the FIFOs), 1544-1550 and 1595-1761 (emptying them);
for reads, which is the same text with other names, 2040-2180 and 2222-2440.

One `step` is one rising clock edge.  The FIFOs are those of
`Verif.RtlFifo`, with their memory, since their early output is used.

Simplifications: `MAX_DESC` is 16; the reset is the start state and does not
come back; vectors are functions of which indices 0 to 15 count; the state
machine of the channel (`Verif.RtlTxn`) is cut down to what follows when a
request has got its descriptor: one cycle for the handshake, in which the
master keeps its ID on the wires, and one for the write to the FIFO;
`AW_din` is one value for all FIFOs; `FORCE_RESP_ORDER` is 0.  AXI4-Lite has
one FIFO, which is what becomes of the sixteen when all IDs are the same.
-/

namespace Verif.RtlOrder

/-- The parameters of a FIFO, 1095-1097. -/
def fc : RtlFifo.Cfg := { depth := 16, bits := 4, cut := true, almostFull := 14, almostEmpty := 2 }

/-- The part of `wr_inf_state` after the descriptor is given: idle or waiting,
`WR_INF_FILL_AWFIFO` with `wr_alc_idx_current` and the ID on the wires,
`WR_INF_TXN_DONE`. -/
inductive Stage (ι : Type) where
  | idle
  | fill (idx : Nat) (id : ι)
  | done

structure In (ι : Type) where
  /-- a request with this ID gets this descriptor (`wr_txn_valid`,
  `wr_alc_valid`) -/
  alc : Option (Nat × ι)
  /-- `bresp_init` -/
  init : Nat → Bool

structure Regs (ι : Type) where
  stage : Stage ι
  /-- `awid_matched`, `AW_fifo_new`, `AW_wren`, `AW_din`, `AW_fifo_awid` -/
  matched : Nat → Bool
  new : Nat → Bool
  wren : Nat → Bool
  din : Nat
  ids : Nat → Option ι
  fifo : Nat → RtlFifo.Regs Nat
  /-- `bresp_init_ff`, `bresp_init_req`, `bresp_init_req_proc`,
  `bresp_init_ser`, `bresp_init_serfailed`, `AW_rden` -/
  initFf : Nat → Bool
  req : Nat → Bool
  proc : Nat → Bool
  ser : Nat → Bool
  fail : Nat → Bool
  rden : Nat → Bool
  /-- what `BIDX_din_sig` comes to -/
  sig : Nat
  /-- `BIDX_wren` with `BIDX_din` -/
  out : Option Nat

def reset {ι : Type} : Regs ι :=
  { stage := .idle, matched := fun _ => false, new := fun _ => false, wren := fun _ => false, din := 0,
    ids := fun _ => none, fifo := fun _ => RtlFifo.reset, initFf := fun _ => false, req := fun _ => false,
    proc := fun _ => false, ser := fun _ => false, fail := fun _ => false, rden := fun _ => false, sig := 0, out := none }

/-- `|v`. -/
def any (v : Nat → Bool) : Bool := (List.range 16).any v

/-- The index of `v & -v`. -/
def lowest (v : Nat → Bool) : Option Nat := (List.range 16).find? v

section
variable {ι : Type} [DecidableEq ι]

/-- 1008-1011, 1031-1043. -/
def stageNext (s : Regs ι) (i : In ι) : Stage ι :=
  match s.stage with
  | .idle =>
    match i.alc with
    | some (d, x) => .fill d x
    | none => .idle
  | .fill _ _ => .done
  | .done => .idle

/-- `awid_matched`, 1008-1010. -/
def matchedNext (s : Regs ι) (i : In ι) : Nat → Bool :=
  match s.stage, i.alc with
  | .idle, some (_, x) => fun j => !(s.fifo j).empty && decide (s.ids j = some x)
  | _, _ => s.matched

/-- `AW_fifo_new`, 1011. -/
def newNext (s : Regs ι) (i : In ι) : Nat → Bool :=
  match s.stage, i.alc with
  | .idle, some _ => fun j => decide (lowest (fun k => (s.fifo k).empty) = some j)
  | _, _ => s.new

/-- `AW_wren`, 1024-1043, 1055-1057. -/
def wrenNext (s : Regs ι) : Nat → Bool :=
  match s.stage with
  | .idle => s.wren
  | .fill _ _ => if any s.matched then fun j => s.matched j || s.wren j else fun j => s.new j || s.wren j
  | .done => fun _ => false

/-- `AW_din`, 1028, 1035. -/
def dinNext (s : Regs ι) : Nat :=
  match s.stage with
  | .fill d _ => d
  | _ => s.din

/-- `AW_fifo_awid`, 1036. -/
def idsNext (s : Regs ι) : Nat → Option ι :=
  match s.stage with
  | .fill _ x => if any s.matched then s.ids else fun j => if s.new j then some x else s.ids j
  | _ => s.ids

/-- The early output of a FIFO is this descriptor, 1724. -/
def hit (s : Regs ι) (d j : Nat) : Bool := decide ((s.fifo j).pre = some d) && !(s.fifo j).empty

/-- `bresp_init_req`, 1599-1611. -/
def reqNext (s : Regs ι) (i : In ι) : Nat → Bool := fun k =>
  if s.ser k then false else if i.init k && !s.initFf k then true else s.req k

/-- `bresp_init_req_proc`, 1615-1629. -/
def procNext (s : Regs ι) : Nat → Bool := fun k => if s.ser k then false else if s.fail k then false else s.req k

/-- `bresp_init_ser`, 1694, 1705, 1725. -/
def serNext (s : Regs ι) : Nat → Bool :=
  if any s.ser then fun _ => false
  else match lowest s.proc with
    | none => s.ser
    | some d => fun k => s.ser k || (decide (k = d) && any (hit s d))

/-- `AW_rden`, 1695, 1706, 1726. -/
def rdenNext (s : Regs ι) : Nat → Bool :=
  if any s.ser then fun _ => false
  else match lowest s.proc with
    | none => s.rden
    | some d => fun j => s.rden j || hit s d j

/-- `bresp_init_serfailed`, 1697, 1708, 1733: set by every FIFO without the
descriptor at its head. -/
def failNext (s : Regs ι) : Nat → Bool :=
  if any s.ser then fun _ => false
  else match lowest s.proc with
    | none => s.fail
    | some d => fun k => s.fail k || (decide (k = d) && any (fun j => !hit s d j))

/-- `BIDX_din_sig`, 1698-1700, 1709-1711, 1728-1730. -/
def sigNext (s : Regs ι) : Nat :=
  if any s.ser then 0
  else match lowest s.proc with
    | none => s.sig
    | some d => if any (hit s d) then d else s.sig

def step (s : Regs ι) (i : In ι) : Regs ι :=
  { stage := stageNext s i
    matched := matchedNext s i
    new := newNext s i
    wren := wrenNext s
    din := dinNext s
    ids := idsNext s
    fifo := fun j => RtlFifo.step fc (s.fifo j) ⟨s.wren j, s.rden j, s.din⟩
    initFf := i.init
    req := reqNext s i
    proc := procNext s
    ser := serNext s
    fail := failNext s
    rden := rdenNext s
    sig := sigNext s
    out := if any s.rden then some s.sig else none }

end

end Verif.RtlOrder
