/-!
# User interrupts of the XDMA: model

The RTL wrapper of the XDMA takes the interrupt lines of the user logic as one
vector.  A thread copies each change of it to the signals of the TLM model and
acknowledges the lines which changed by a pulse of one clock.  A thread of the
TLM model copies these signals to the interrupt lines of the PCI device.

Files: `/repo/soc/pci/xilinx/xdma-rtl.h` 95-135 and 76-77 (`handle_rtl_irq` and
its sensitivity), `/repo/soc/pci/xilinx/xdma.h` 58-61 and 83-94 (`handle_irqv`),
`/repo/utils/bitops.h` 66-76 (`map_sc_bv2v`).

Simplifications: a vector is a list of bits; writes to signals are seen from the
next event on, as each event stands for a delta cycle or more; a change of the
vector which comes with a clock edge is an event after this edge.
-/

namespace Verif.XdmaIrq

abbrev Vec := List Bool

/-- The lines on which two vectors differ (`xdma-rtl.h` 107-121: `n_irq_ack`). -/
def differ (a b : Vec) : Vec := List.zipWith (fun x y => x != y) a b

/-- Where `handle_rtl_irq` is: in `wait()` (105), woken, before the first clock
edge (128) or before the second (131). -/
inductive Pc where
  | idle | woken
  | ack1 (n : Vec)
  | ack2
  deriving DecidableEq, Repr

structure State where
  /-- `usr_irq_req`, `signals_usr_irq_reqv`, `usr_irq_ack` -/
  req : Vec
  sig : Vec
  ack : Vec
  pc : Pc
  /-- `handle_irqv` is woken; the lines of the PCI device (`xdma.h` 91) -/
  relay : Bool
  irq : Vec
  /-- "IRQ while acked." (`xdma-rtl.h` 114-117) was reported. -/
  error : Bool
  deriving DecidableEq, Repr

/-- All signals are low; both threads have run to their first `wait()`. -/
def start (n : Nat) : State :=
  { req := List.replicate n false, sig := List.replicate n false, ack := List.replicate n false, pc := .idle,
    relay := false, irq := List.replicate n false, error := false }

inductive Ev where
  /-- the user logic writes `usr_irq_req` -/
  | write (v : Vec)
  /-- `handle_rtl_irq` runs after it was woken -/
  | run
  /-- `handle_irqv` runs after it was woken -/
  | copy
  /-- a rising edge of `axi_clk` -/
  | clk
  deriving DecidableEq, Repr

/-- `xdma-rtl.h` 76-77: the thread is woken by a change, if it is in `wait()` of
line 105.  A write of the same value is no change. -/
def write (s : State) (v : Vec) : State :=
  if v = s.req then s else { s with req := v, pc := if s.pc = .idle then .woken else s.pc }

/-- 107-127 of `xdma-rtl.h`.  A change of the signals wakes `handle_irqv`
(`xdma.h` 58-61). -/
def runIrq (s : State) : State :=
  match s.pc with
  | .woken =>
    let n := differ s.sig s.req
    { s with
      error := s.error || (List.zipWith (fun x y => x && y) n s.ack).any id
      sig := s.req
      relay := s.relay || n.any id
      pc := if n.any id then .ack1 n else .idle }
  | _ => s

/-- `xdma.h` 87-93. -/
def copy (s : State) : State := if s.relay then { s with irq := s.sig, relay := false } else s

/-- 128-132 of `xdma-rtl.h`. -/
def clk (s : State) : State :=
  match s.pc with
  | .ack1 n => { s with ack := n, pc := .ack2 }
  | .ack2 => { s with ack := List.replicate s.ack.length false, pc := .idle }
  | _ => s

def step (s : State) : Ev → State
  | .write v => write s v
  | .run => runIrq s
  | .copy => copy s
  | .clk => clk s

def runAll (s : State) : List Ev → State
  | [] => s
  | e :: t => runAll (step s e) t

end Verif.XdmaIrq
