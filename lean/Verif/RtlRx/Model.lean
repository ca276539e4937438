import Verif.RtlTx.Spec

/-!
The receive side of one channel of the CHI and CXS RTL bridges: flits from the
wires go to a ring of 15 places, whose ownership software gives back; for
every place given back the other side gets a credit.

Files, in `/repo/rtl-bridges/pcie-host`:
* the receive parts of `chi/rtl/common/chi_channel_if.v` 330-384, 552-806 and
  `cxs/rtl/common/cxs_channel_if.v` 131-139, 268-287, 362-439,
* `chi/rtl/common/chi_link_credit_manager.v`,
  `cxs/rtl/common/cxs_link_credit_manager.v`,
* `chi/rtl/common/chi_register_interface.v` 815-830, 1060-1062, 1210-1260,
  2338-2385 and `cxs/rtl/common/cxs_register_interface.v` 732-736, 900-925,
  997-1060, 1868-1900,
* `chi/rtl/common/chi_rxflit_ram.v` (the same as `cxs_rxflit_ram.v`).

One step is one rising clock edge.  Reset is the state at the start.  The
state of the link is an input here.

Simplifications: a register is written with all its strobes; the read port of
the RAM is left out, software reads what the RAM holds.
-/

namespace Verif.RtlRx

open Verif.RtlTx (Kind)

/-- What comes in during one cycle. -/
structure In (α : Type) where
  /-- a write of the registers (`reg_wr_en`) -/
  wr : Bool
  /-- it is to the ownership flip register, with these bits -/
  flip : Option (Nat → Bool)
  /-- bit 4 of the refill register, with the bits below it -/
  refill : Option Nat
  /-- a flit on the wires -/
  flit : Option α
  /-- the link state is RUN -/
  run : Bool
  /-- `CXS_CRDRTN_RX` and `cxs_go_to_lp_rx`, of CXS only -/
  rtn : Bool
  lp : Bool

/-- The registers. -/
structure Regs (α : Type) where
  /-- `rx_ownership_flip_reg`, `rx_ownership_flip_reg_ff`,
  `rx_ownership_flip_clear` -/
  flip : Nat → Bool
  ff : Nat → Bool
  clear : Nat → Bool
  /-- `rx_ownership_reg`, `update_rx_ownership` -/
  own : Nat → Bool
  upd : Nat → Bool
  /-- `CXS_RX_Valid` with `CXS_RX_Data`, and `cxs_rx_valid_reg` with
  `eff_cxs_rx_data_reg` -/
  first : Option α
  second : Option α
  /-- `write_rx_cxs_dat_addr` and the RAM -/
  addr : Nat
  mem : Nat → α
  /-- `current_credit`, `credits_available` -/
  credit : Nat
  avail : Bool
  /-- `rx_dec_count`, `rx_give_back_credit` -/
  left : Nat
  give : Bool
  /-- `cxs_rx_credit_return`, `cxs_go_to_lp_rx_d` -/
  back : Bool
  lpd : Bool

/-- `m` is what the RAM holds, which no reset clears. -/
def reset {α : Type} (m : Nat → α) : Regs α where
  flip := fun _ => false
  ff := fun _ => false
  clear := fun _ => false
  own := fun _ => false
  upd := fun _ => false
  first := none
  second := none
  addr := 0
  mem := m
  credit := 0
  avail := false
  left := 0
  give := false
  back := false
  lpd := false

/-- `cxs_register_interface.v` 900-925. -/
def flipNext {α : Type} (s : Regs α) (i : In α) (k : Nat) : Bool :=
  if i.wr then
    match i.flip with
    | some f => f k
    | none => s.flip k
  else if s.clear k then false
  else s.flip k

/-- Lines 1017-1037. -/
def clearNext {α : Type} (s : Regs α) (i : In α) (k : Nat) : Bool :=
  if s.clear k then i.wr else !s.own k && s.flip k

/-- `rx_ownership_flip_pulse`, line 736. -/
def pulse {α : Type} (s : Regs α) (k : Nat) : Bool := s.flip k && !s.ff k

/-- Lines 997-1015. -/
def ownNext {α : Type} (s : Regs α) (k : Nat) : Bool := if s.own k then !pulse s k else s.upd k

/-- Lines 1045-1060. -/
def updNext {α : Type} (s : Regs α) (k : Nat) : Bool := s.second.isSome && decide (k = s.addr)

/-- How many places the pulse is for, `cxs_channel_if.v` 377-393. -/
def pulses {α : Type} (s : Regs α) : Nat := ((List.range 15).filter (pulse s)).length

/-- A credit goes to the other side: `cxs_channel_if.v` 436, 438 and
`chi_channel_if.v` 630-632. -/
def grants {α : Type} (s : Regs α) : Bool := s.avail && s.give

/-- The counter goes up: `cxs_channel_if.v` 437, `chi_channel_if.v` 631. -/
def incr {α : Type} (k : Kind) (s : Regs α) : Bool :=
  match k with
  | .chi => s.second.isSome
  | .cxs => s.second.isSome || s.back

/-- The counter of credits, of 4 bits: `chi_link_credit_manager.v` 52-71 and
`cxs_link_credit_manager.v` 52-73. -/
def count (k : Kind) (credit : Nat) (avail incr dec : Bool) (refill : Option Nat) : Nat × Bool :=
  let down := (credit + 15) % 16
  let next :=
    if dec then (if incr then credit else down)
    else if incr then (credit + 1) % 16
    else
      match refill with
      | some r => r % 16
      | none => credit
  let update := incr || dec || refill.isSome
  match k with
  | .chi =>
    if credit = 14 && !update then (14, avail)
    else if credit = 0 && dec then (0, avail)
    else if update then (next, decide (next ≠ 0))
    else (credit, avail)
  | .cxs =>
    if credit = 15 && dec then (14, avail)
    else if credit = 15 && incr then (15, avail)
    else if credit = 0 && dec then (0, avail)
    else if update then (next, decide (next ≠ 0))
    else (credit, avail)

/-- The credits still to give and whether one is given next:
`cxs_channel_if.v` 408-434, `chi_channel_if.v` 605-628. -/
def leftNext {α : Type} (k : Kind) (s : Regs α) (i : In α) : Nat × Bool :=
  match i.refill with
  | some r => (r % 16, false)
  | none =>
    if (List.range 15).any (pulse s) then ((s.left + pulses s) % 16, false)
    else if decide (k = .cxs) && s.lpd && !i.lp then (s.credit, false)
    else if decide (s.left ≠ 0) && i.run then (s.left - 1, true)
    else (s.left, false)

/-- The second register of the flit.  CXS takes it only when the link is RUN:
`cxs_register_interface.v` 1881, `chi_register_interface.v` 2356. -/
def secondNext {α : Type} (k : Kind) (s : Regs α) (i : In α) : Option α :=
  match k with
  | .chi => s.first
  | .cxs => if i.run then s.first else none

/-- `cxs_register_interface.v` 1883-1888. -/
def addrNext {α : Type} (s : Regs α) : Nat :=
  if s.second.isSome then (if s.addr = 14 then 0 else (s.addr + 1) % 16) else s.addr

/-- `cxs_rxflit_ram.v` 66-73. -/
def memNext {α : Type} (s : Regs α) (k : Nat) : α :=
  match s.second with
  | some x => if k = s.addr then x else s.mem k
  | none => s.mem k

/-- One cycle. -/
def step {α : Type} (k : Kind) (s : Regs α) (i : In α) : Regs α where
  flip := flipNext s i
  ff := s.flip
  clear := clearNext s i
  own := ownNext s
  upd := updNext s
  first := i.flit
  second := secondNext k s i
  addr := addrNext s
  mem := memNext s
  credit := (count k s.credit s.avail (incr k s) (grants s) i.refill).1
  avail := (count k s.credit s.avail (incr k s) (grants s) i.refill).2
  left := (leftNext k s i).1
  give := (leftNext k s i).2
  back := i.rtn
  lpd := i.lp

end Verif.RtlRx
