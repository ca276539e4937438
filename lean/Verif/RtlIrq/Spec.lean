import Verif.RtlIrq.Model

/-! How software uses the clear register. -/

namespace Verif.RtlIrq

open Verif.RtlTx (Kind)

/-- The registers and the cycles since the last write of one. -/
structure World where
  s : Regs
  since : Nat

def World.start : World := ⟨reset, 3⟩

def World.next (k : Kind) (w : World) (i : In) : World := ⟨step k w.s i, if i.wr then 1 else w.since + 1⟩

def World.run (k : Kind) (w : World) : List In → World
  | [] => w
  | i :: t => (w.next k i).run k t

/-- There are two cycles between writes (of AXI-Lite, each with its response), and
software clears only what it found set. -/
structure Good (w : World) (i : In) : Prop where
  gap : i.wr = true → 3 ≤ w.since
  set : ∀ v, i.wr = true → i.clear = some v → ∀ j, v j = true → w.s.status j = true

def All (k : Kind) (w : World) : List In → Prop
  | [] => True
  | i :: t => Good w i ∧ All k (w.next k i) t

/-- Nothing is written to the clear register. -/
def Quiet (t : List In) : Prop := ∀ i ∈ t, i.clear = none ∨ i.wr = false

/-- One line to the host after another, from the inputs of each cycle. -/
def irqRun (st : St) : List (Bool × Bool) → St
  | [] => st
  | (p, a) :: t => irqRun (stNext st p a) t

def Line.run (s : Line) : List LineIn → Line
  | [] => s
  | i :: t => (s.step i).run t

/-- Nothing is written to the toggle clear register. -/
def LineQuiet (t : List LineIn) : Prop := ∀ i ∈ t, i.clear = none ∨ i.wr = false

end Verif.RtlIrq
