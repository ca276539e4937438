import Verif.RtlTx.Model

/-!
The interrupts of the CHI and CXS RTL bridges.

Files, in `/repo/rtl-bridges/pcie-host`:
* `cxs/rtl/common/cxs_intr_handler.v` (the same, but for names, as
  `chi/rtl/common/chi_intr_handler.v`, and in its state machine as the handlers
  of the AXI and ACE bridges),
* `cxs/rtl/common/cxs_register_interface.v` 381-400, 778, 863-871, 905-951,
  1507-1618,
* `chi/rtl/common/chi_register_interface.v` 1041-1094, 1810-1919.

One step is one rising clock edge.  Reset is the state at the start.

Simplifications: a register is written with all its strobes; what makes a flit
status, `cxs_rx_valid_reg` and the like, is an input; of the 64 lines of the
other side, which do the same, there is one.
-/

namespace Verif.RtlIrq

open Verif.RtlTx (Kind)

/-- What comes in for the flit status: a write of the registers
(`reg_wr_en`), which may be to the clear register, with these bits; and what
there is to tell, for each bit. -/
structure In where
  wr : Bool
  clear : Option (Nat → Bool)
  event : Nat → Bool

/-- `intr_flit_txn_status_reg`, `…_flits_transmitted` and
`intr_flit_txn_clear_reg`. -/
structure Regs where
  status : Nat → Bool
  sent : Nat → Bool
  clear : Nat → Bool

def reset : Regs := ⟨fun _ => false, fun _ => false, fun _ => false⟩

/-- How many bits there are. -/
def bits : Kind → Nat
  | .chi => 6
  | .cxs => 2

/-- Which are of a transmit channel: `cxs_register_interface.v` 1557,
`chi_register_interface.v` 1919. -/
def isTx : Kind → Nat → Bool
  | .chi, j => decide (3 ≤ j)
  | .cxs, j => decide (j = 1)

/-- The bit of the clear register which clears the status bit `j`:
`cxs_register_interface.v` 1517, 1550 and `chi_register_interface.v` 1823,
1836, 1848, 1888, 1900, 1912, where two are the other way round. -/
def clears : Kind → Nat → Nat
  | .chi, 3 => 5
  | .chi, 5 => 3
  | _, j => j

/-- `cxs_register_interface.v` 1512-1555, `chi_register_interface.v`
1817-1917. -/
def statusNext (k : Kind) (s : Regs) (i : In) (j : Nat) : Bool :=
  if s.clear (clears k j) then false
  else if isTx k j then s.sent j
  else if i.event j then true
  else s.status j

/-- `cxs_register_interface.v` 1527-1544, `chi_register_interface.v`
1853-1881. -/
def sentNext (s : Regs) (i : In) (j : Nat) : Bool :=
  if i.event j then true else if s.clear j then false else s.sent j

/-- `cxs_register_interface.v` 905-909, 938-941, `chi_register_interface.v`
1043-1047, 1083-1094. -/
def clearNext (s : Regs) (i : In) (j : Nat) : Bool :=
  if i.wr then
    match i.clear with
    | some v => v j
    | none => s.clear j
  else if s.status j && s.clear j then false
  else s.clear j

def step (k : Kind) (s : Regs) (i : In) : Regs := ⟨statusNext k s i, sentNext s i, clearNext s i⟩

/-! The line to the host. -/

/-- The states of `cxs_intr_handler.v` 387-456. -/
inductive St where
  | idle
  | assert
  | ack
  | deassert
  deriving DecidableEq

/-- Lines 408-445; `pending` is whether some status is set and enabled, `ack` is
`irq_ack`. -/
def stNext (st : St) (pending ack : Bool) : St :=
  match st with
  | .idle => if pending then .assert else .idle
  | .assert => if ack then .ack else .assert
  | .ack => if pending then .ack else .deassert
  | .deassert => if ack then .idle else .deassert

/-- `irq_out`, lines 449-457. -/
def St.irq : St → Bool
  | .idle => false
  | .assert => true
  | .ack => true
  | .deassert => false

/-! A line of the other side, of which both edges are told. -/

structure LineIn where
  wr : Bool
  /-- a write of the toggle clear register, with this bit -/
  clear : Option Bool
  line : Bool

structure Line where
  /-- `c2h_intr_in_ff` -/
  old : Bool
  /-- `ih2rb_c2h_intr_status_reg` and the register software reads -/
  lev : Bool
  level : Bool
  /-- `ih2rb_intr_c2h_toggle_status_reg` and the register software reads -/
  tog : Bool
  toggled : Bool
  /-- `intr_c2h_toggle_clear_reg`, `intr_c2h_toggle_clear_reg_clear` -/
  clear : Bool
  clearClear : Bool

def Line.reset : Line := ⟨false, false, false, false, false, false, false⟩

/-- `cxs_intr_handler.v` 140-241 and `cxs_register_interface.v` 355-400,
863-866, 946-949, 1561-1583. -/
def Line.step (s : Line) (i : LineIn) : Line where
  old := i.line
  lev := i.line
  level := s.lev
  tog := if !s.tog then i.line != s.old else if !s.clear then true else false
  toggled := s.tog
  clear :=
    if i.wr then
      match i.clear with
      | some b => b
      | none => s.clear
    else if s.clearClear then false
    else s.clear
  clearClear := if !s.clearClear then s.clear else i.wr

end Verif.RtlIrq
