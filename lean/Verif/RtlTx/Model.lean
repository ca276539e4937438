/-!
The transmit side of one channel of the CHI and CXS RTL bridges: the ring of
15 flits software writes, the state machine which sends them, the counter of
link credits and the registers of the wires.

Files, in `/repo/rtl-bridges/pcie-host`:
* `chi/rtl/common/chi_txflit_mgmt.v` (the same as `cxs_txflit_mgmt.v` but for
  an unused input),
* `chi/rtl/common/chi_link_credit_manager.v`,
  `cxs/rtl/common/cxs_link_credit_manager.v`,
* `chi/rtl/common/chi_txflit_ram.v` (the same as `cxs_txflit_ram.v`),
* the transmit parts of `chi/rtl/common/chi_channel_if.v` 385-545,
  `cxs/rtl/common/cxs_channel_if.v` 288-349,
  `chi/rtl/common/chi_register_interface.v` 2640-2790 and
  `cxs/rtl/common/cxs_register_interface.v` 889-992, 2066-2167.

One step is one rising clock edge.  Reset is the state at the start.  The
state of the link is an input here.

Simplifications: the words of a flit are written to the RAM in one cycle; a
register is written with all its strobes; the second state machine of CXS,
which reads the control RAM, has the inputs of the first and so always its
state, and is not repeated.
-/

namespace Verif.RtlTx

/-- The two bridges. -/
inductive Kind where
  | chi
  | cxs
  deriving DecidableEq

/-- `flit_mgmt_state_i`, `chi_txflit_mgmt.v` 50-54. -/
inductive St where
  | idle
  | read
  | wait
  | send
  | check
  deriving DecidableEq

/-- What comes in during one cycle. -/
structure In (α : Type) where
  /-- a write of the registers (`reg_wr_en`) -/
  wr : Bool
  /-- it is to the ownership flip register, with these bits -/
  flip : Option (Nat → Bool)
  /-- a flit written to a place of the RAM -/
  data : Option (Nat × α)
  /-- the other side grants a credit -/
  grant : Bool
  /-- `link_up` -/
  up : Bool
  /-- `tx_link_status_i == DEACTIVATING` -/
  deact : Bool
  /-- `cxs_credit_return_tx` and `cxs_txdeacthint_i`, of CXS only -/
  lp : Bool
  hint : Bool

/-- The registers.  Zero, which the reset and a link going down put in the
place of a flit, is `none`. -/
structure Regs (α : Type) where
  /-- `tx_ownership_flip_reg`, `tx_ownership_flip_clear` -/
  flip : Nat → Bool
  clear : Nat → Bool
  /-- `own_reg`, `update_own_reg`, `own_flit_prg` -/
  own : Nat → Bool
  upd : Nat → Bool
  prg : Bool
  st : St
  /-- `read_req`, `read_addr`, `flit_valid` -/
  req : Bool
  addr : Nat
  valid : Bool
  /-- the RAM, `memreg_b`, `memreg_b_reg` -/
  mem : Nat → α
  memreg : Option α
  outreg : Option α
  /-- `current_credit`, `credits_available` -/
  credit : Nat
  avail : Bool
  /-- the wires: flit valid, flit, and the credit return wire of CXS -/
  v : Bool
  flit : Option α
  rtn : Bool

/-- `m` is what the RAM holds, which no reset clears. -/
def reset {α : Type} (m : Nat → α) : Regs α where
  flip := fun _ => false
  clear := fun _ => false
  own := fun _ => false
  upd := fun _ => false
  prg := false
  st := .idle
  req := false
  addr := 0
  valid := false
  mem := m
  memreg := none
  outreg := none
  credit := 0
  avail := false
  v := false
  flit := none
  rtn := false

/-- The flip register, `cxs_register_interface.v` 895-929. -/
def flipNext {α : Type} (s : Regs α) (i : In α) (k : Nat) : Bool :=
  if i.wr then
    match i.flip with
    | some f => f k
    | none => s.flip k
  else if s.clear k then false
  else s.flip k

/-- `cxs_register_interface.v` 967-992. -/
def clearNext {α : Type} (s : Regs α) (i : In α) (k : Nat) : Bool :=
  if s.clear k then i.wr else !s.own k && s.flip k

/-- `chi_txflit_mgmt.v` 72-90. -/
def ownNext {α : Type} (s : Regs α) (k : Nat) : Bool :=
  if s.own k then !s.upd k else s.flip k

/-- Whether one of the 15 places is owned, line 115. -/
def any (f : Nat → Bool) : Bool := (List.range 15).any f

/-- The next state, lines 119-160. -/
def stNext {α : Type} (s : Regs α) (i : In α) : St :=
  match s.st with
  | .idle => if s.prg && s.avail then .read else .idle
  | .read => if s.prg && s.avail then .wait else .idle
  | .wait => .send
  | .send => if i.up then .check else .send
  | .check => if s.prg && s.avail then .read else .idle

/-- `update_own_reg`, lines 141, 153, 157. -/
def updNext {α : Type} (s : Regs α) (k : Nat) : Bool :=
  match s.st with
  | .wait => if k = s.addr then true else s.upd k
  | .check => false
  | _ => s.upd k

/-- `read_addr`, lines 136-139. -/
def addrNext {α : Type} (s : Regs α) : Nat :=
  match s.st with
  | .wait => if s.addr < 14 then s.addr + 1 else if s.addr = 14 then 0 else s.addr
  | _ => s.addr

/-- `CHI_TXDAT_Valid`, `chi_register_interface.v` 2694, and `CXS_TX_Valid`,
`cxs_register_interface.v` 2115. -/
def sending {α : Type} (k : Kind) (s : Regs α) (i : In α) : Bool :=
  match k with
  | .chi => s.valid
  | .cxs => i.up && s.valid

/-- The counter is decremented: `chi_channel_if.v` 506, 525, 545 and
`cxs_channel_if.v` 352. -/
def dec {α : Type} (k : Kind) (s : Regs α) (i : In α) : Bool :=
  match k with
  | .chi => sending k s i || i.deact
  | .cxs => sending k s i || i.deact || (i.lp && !sending k s i)

/-- The counter of credits, of 4 bits, and whether there are any:
`chi_link_credit_manager.v` 52-71 and `cxs_link_credit_manager.v` 52-73.  The
refill input is 0 on this side. -/
def count (k : Kind) (credit : Nat) (avail incr dec : Bool) : Nat × Bool :=
  let down := (credit + 15) % 16
  let next := if dec then (if incr then credit else down) else if incr then (credit + 1) % 16 else credit
  match k with
  | .chi =>
    if credit = 14 && !(incr || dec) then (14, avail)
    else if credit = 0 && dec then (0, avail)
    else if incr || dec then (next, decide (next ≠ 0))
    else (credit, avail)
  | .cxs =>
    if credit = 15 && dec then (14, avail)
    else if credit = 15 && incr then (15, avail)
    else if credit = 0 && dec then (0, avail)
    else if incr || dec then (next, decide (next ≠ 0))
    else (credit, avail)

/-- Flit valid: `chi_channel_if.v` 427, 446, 466 and `cxs_channel_if.v` 310. -/
def vNext {α : Type} (k : Kind) (s : Regs α) (i : In α) : Bool :=
  match k with
  | .chi => sending k s i || (i.deact && decide (s.credit ≠ 0))
  | .cxs => sending k s i && !i.lp

/-- The flit: `chi_channel_if.v` 428-431, `cxs_channel_if.v` 311-318 and the
register interface 2693 of CHI, 2114 of CXS. -/
def flitNext {α : Type} (s : Regs α) (i : In α) : Option α :=
  if i.deact then none else if i.up then s.outreg else none

/-- The credit return wire: `cxs_channel_if.v` 321. -/
def rtnNext {α : Type} (k : Kind) (s : Regs α) (i : In α) : Bool :=
  match k with
  | .chi => false
  | .cxs => (!sending k s i && decide (s.credit ≠ 0) && i.lp) || i.hint

/-- The RAM, `chi_txflit_ram.v` 66-75. -/
def memNext {α : Type} (s : Regs α) (i : In α) (k : Nat) : α :=
  match i.data with
  | some (a, x) => if k = a then x else s.mem k
  | none => s.mem k

/-- One cycle. -/
def step {α : Type} (k : Kind) (s : Regs α) (i : In α) : Regs α where
  flip := flipNext s i
  clear := clearNext s i
  own := ownNext s
  upd := updNext s
  prg := any s.own
  st := stNext s i
  req := decide (s.st = .read) && s.prg && s.avail
  addr := addrNext s
  valid := decide (s.st = .send) && i.up
  mem := memNext s i
  memreg := if s.req then some (s.mem s.addr) else s.memreg
  outreg := s.memreg
  credit := (count k s.credit s.avail i.grant (dec k s i)).1
  avail := (count k s.credit s.avail i.grant (dec k s i)).2
  v := vNext k s i
  flit := flitNext s i
  rtn := rtnNext k s i

end Verif.RtlTx
