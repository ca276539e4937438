import Verif.RtlDesc.Model

/-!
# What the allocator has to do

Every time the ownership of a descriptor is given, the descriptor is handed
out once, on the channel of its type.
-/

namespace Verif.RtlDesc

/-- The descriptor handed out for a write, or a read, in a cycle: the FIFO is
read (`desc_wr_req_read_en`) and its output is the descriptor from the next
cycle on. -/
def outW (s : Regs) : Option Nat := if s.wrEn then s.wq.items.head? else none

def outR (s : Regs) : Option Nat := if s.rdEn then s.rq.items.head? else none

/-- The books: how often the ownership of a descriptor was given and how often
it was handed out; which descriptors wait for a place in a FIFO, and which
have got one since the last time nobody waited. -/
structure Books where
  given : Nat → Nat
  out : Nat → Nat
  waits : Nat → Bool
  recent : Nat → Bool

structure World where
  s : Regs
  /-- the inputs of the last cycle, and the ownership before that -/
  own : Nat → Bool
  own2 : Nat → Bool
  typ : Nat → Bool
  b : Books

def World.start : World where
  s := reset
  own := fun _ => false
  own2 := fun _ => false
  typ := fun _ => false
  b := ⟨fun _ => 0, fun _ => 0, fun _ => false, fun _ => false⟩

/-- The ownership of `d` is given in this cycle. -/
def gives (w : World) (i : In) (d : Nat) : Bool := i.own d && !w.own d

def nobody (b : Books) : Bool := (List.range 16).all fun d => !b.waits d

def World.next (w : World) (i : In) : World where
  s := step w.s i
  own := i.own
  own2 := w.own
  typ := i.typ
  b :=
    { given := fun d => w.b.given d + if gives w i d then 1 else 0
      out := fun d => w.b.out d + (if outW w.s = some d then 1 else 0) + (if outR w.s = some d then 1 else 0)
      waits := fun d => if gives w i d then true else if w.s.wen && w.s.wid == d then false else w.b.waits d
      recent := fun d => if w.s.wen && w.s.wid == d then true else if nobody w.b then false else w.b.recent d }

def World.run (w : World) : List In → World
  | [] => w
  | i :: t => (w.next i).run t

/-- The ownership was given and the descriptor is not handed out yet. -/
def owed (w : World) (d : Nat) : Prop := w.b.given d ≠ w.b.out d

/-- What the software has to keep to.  `rested` is the part nobody says: the
ownership of a descriptor is given again only if, since it got its place in
the FIFO, there was a moment at which no descriptor waited for one. -/
structure Polite (w : World) (i : In) : Prop where
  keeps : ∀ d < 16, owed w d → i.own d = true ∧ i.typ d = w.typ d
  once : ∀ d < 16, gives w i d = true → ¬ owed w d ∧ w.own2 d = false
  rested : ∀ d < 16, gives w i d = true → w.b.recent d = false

def AllPolite (w : World) : List In → Prop
  | [] => True
  | i :: t => Polite w i ∧ AllPolite (w.next i) t

end Verif.RtlDesc
