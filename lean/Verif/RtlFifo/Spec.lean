import Verif.RtlFifo.Model

/-!
# What the FIFO has to do

A queue of at most `n` elements; a write to a full queue and a read of an
empty one do nothing.
-/

namespace Verif.RtlFifo

structure Queue (α : Type) where
  items : List α
  /-- what the last read gave -/
  last : Option α

/-- One cycle of a queue with room for `n`.  Whether there is room is decided
before the read of the same cycle. -/
def Queue.next {α : Type} (n : Nat) (q : Queue α) (i : In α) : Queue α :=
  { items :=
      (if i.rden then q.items.drop 1 else q.items) ++ (if i.wren && decide (q.items.length < n) then [i.din] else [])
    last := if i.rden && !q.items.isEmpty then q.items.head? else q.last }

def Queue.run {α : Type} (n : Nat) (q : Queue α) : List (In α) → Queue α
  | [] => q
  | i :: t => (q.next n i).run n t

/-- The outputs are those of the queue. -/
structure Shows {α : Type} (c : Cfg) (s : Regs α) (q : Queue α) : Prop where
  count : s.cnt = q.items.length
  empty : s.empty = q.items.isEmpty
  full : s.full = decide (q.items.length = c.depth)
  dout : s.dout = q.last
  almostEmpty : almostEmpty c s = decide (q.items.length ≤ c.almostEmpty)
  almostFull : almostFull c s = decide (c.almostFull ≤ q.items.length)

/-- The early output is in order: when it is said to be valid there is an
element, and the output is the one the next read gives. -/
def Early {α : Type} (s : Regs α) (q : Queue α) : Prop := s.preValid = true → ∃ x, q.items.head? = some x ∧ s.pre = some x

end Verif.RtlFifo
