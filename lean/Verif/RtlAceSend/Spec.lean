import Verif.RtlAceSend.Model
import Verif.RtlRdata.Spec

/-!
# What is pushed, and what is seen on the channel

The history: the bursts pushed, each as it is to be seen on the channel; the
beats taken.
-/

namespace Verif.RtlAceSend

open RtlRdata (Ask Beat)

section
variable {δ σ : Type}

/-- What the registers and the RAM say of the burst of a descriptor. -/
def askOf (words : Nat) (i : In δ σ) (d : Nat) : Ask δ σ :=
  { idx := d, resp := i.fields d, place := i.off d, data := (List.range (i.len d + 1)).map fun j => i.ram ((i.off d + j) % words) }

structure World (δ σ : Type) where
  s : Regs δ σ
  asked : List (Ask δ σ)
  took : List (Beat δ σ)

def World.start : World δ σ := { s := reset, asked := [], took := [] }

/-- The beat taken in this cycle. -/
def World.takes (w : World δ σ) (i : In δ σ) : List (Beat δ σ) := if i.ready then (shown w.s).toList else []

def World.next (words : Nat) (w : World δ σ) (i : In δ σ) : World δ σ :=
  { s := step words w.s i, asked := w.asked ++ i.push.toList.map (askOf words i), took := w.took ++ w.takes i }

def World.run (words : Nat) (w : World δ σ) : List (In δ σ) → World δ σ
  | [] => w
  | i :: t => (w.next words i).run words t

/-- All that is to be seen. -/
def World.due (w : World δ σ) : List (Beat δ σ) := w.asked.flatMap Ask.beats

/-- The bursts of which the last beat is not taken. -/
def World.isOpen (w : World δ σ) : List (Ask δ σ) := w.asked.drop (w.took.countP (·.last))

/-- How software works: a descriptor is pushed when it has no open burst, and
until the end of the burst nothing of it is changed.  A burst has at most `n`
words. -/
structure Polite (n words : Nat) (w : World δ σ) (i : In δ σ) : Prop where
  fresh : ∀ d, i.push = some d → d < 16 ∧ i.len d < n ∧ ∀ a ∈ w.isOpen, a.idx ≠ d
  held : ∀ a ∈ w.isOpen, askOf words i a.idx = a

def AllPolite (n words : Nat) (w : World δ σ) : List (In δ σ) → Prop
  | [] => True
  | i :: t => Polite n words w i ∧ AllPolite n words (w.next words i) t

/-- The cycle in which a push meets the removal of the only index in the first
FIFO. -/
def Race (w : World δ σ) (i : In δ σ) : Prop := i.push.isSome = true ∧ w.s.rden = true ∧ w.s.order.cnt = 1

def NoRace (words : Nat) (w : World δ σ) : List (In δ σ) → Prop
  | [] => True
  | i :: t => ¬ Race w i ∧ NoRace words (w.next words i) t

/-- After a push there are at least three cycles without one; the first `k`
cycles are without. -/
def Spaced : Nat → List (In δ σ) → Prop
  | _, [] => True
  | k, i :: t => if i.push.isSome then k = 0 ∧ Spaced 3 t else Spaced (k - 1) t

/-- Nothing is pushed, and the beats are taken. -/
def In.quiet (i : In δ σ) : Prop := i.push = none ∧ i.ready = true

end

end Verif.RtlAceSend
