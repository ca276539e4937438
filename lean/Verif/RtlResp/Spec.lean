import Verif.RtlResp.Model

/-!
# The responses, as seen from outside

The history: the descriptors in the order software wrote them; the answers,
each with the payload software gave; the responses taken from the B channel.
-/

namespace Verif.RtlResp

section
variable {ρ : Type}

structure World (ρ : Type) where
  s : Regs ρ
  ordered : List Nat
  asked : List (Nat × ρ)
  took : List (Nat × ρ)
  /-- `bresp_init` in the cycle before -/
  prev : Nat → Bool

def World.start : World ρ := { s := reset, ordered := [], asked := [], took := [], prev := fun _ => false }

/-- The answers of this cycle. -/
def World.asks (w : World ρ) (i : In ρ) : List (Nat × ρ) :=
  ((List.range 16).filter fun k => i.init k && !w.prev k).map fun k => (k, i.resp k)

/-- The response taken in this cycle. -/
def World.takes (w : World ρ) (i : In ρ) : List (Nat × ρ) := if i.bready then (shown w.s).toList else []

def World.next (w : World ρ) (i : In ρ) : World ρ :=
  { s := step w.s i, ordered := w.ordered ++ i.order.toList, asked := w.asked ++ w.asks i, took := w.took ++ w.takes i,
    prev := i.init }

def World.run (w : World ρ) : List (In ρ) → World ρ
  | [] => w
  | i :: t => (w.next i).run t

/-- Those of one descriptor. -/
def ofDesc (d : Nat) (l : List (Nat × ρ)) : List (Nat × ρ) := l.filter fun a => decide (a.1 = d)

/-- How the driver works: a descriptor is written to the order when there is a
free place (`resp_fifo_free_level`), and once for each request, a request
under it coming only after the response to the last; it is answered once for
each request, after it was written to the order; and its fields stay until the
response is taken. -/
structure Polite (w : World ρ) (i : In ρ) : Prop where
  order : ∀ d, i.order = some d → d < 16 ∧ w.ordered.count d = (ofDesc d w.took).length ∧ free w.s i = true
  init : ∀ d, i.init d = true → w.prev d = false →
    w.ordered.count d = (ofDesc d w.took).length + 1 ∧ (ofDesc d w.asked).length = (ofDesc d w.took).length
  resp : ∀ d r, ofDesc d w.asked = ofDesc d w.took ++ [(d, r)] → i.resp d = r

def AllPolite (w : World ρ) : List (In ρ) → Prop
  | [] => True
  | i :: t => Polite w i ∧ AllPolite (w.next i) t

/-- Nothing comes from software, and the master takes responses. -/
def In.quiet (i : In ρ) : Prop := i.order = none ∧ (∀ d, i.init d = false) ∧ i.bready = true

end

end Verif.RtlResp
