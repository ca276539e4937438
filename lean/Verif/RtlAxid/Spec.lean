import Verif.RtlAxid.Model

/-!
What the store is to be: the requests in flight, oldest first, from which a
response takes the oldest of its ID.
-/

namespace Verif.RtlAxid

/-- The requests in flight, each with its ID and descriptor, oldest first; the
cycles since the last request; the request which came last; and for how many
cycles there has been a descriptor to spare. -/
structure World where
  s : Regs
  out : List (Nat × Nat)
  since : Nat
  last : Nat × Nat
  room : Nat

def World.start : World := ⟨reset, [], 6, (0, 0), 1⟩

/-- The descriptors in flight with an ID. -/
def ofId (out : List (Nat × Nat)) (x : Nat) : List Nat := (out.filter fun p => p.1 = x).map (·.2)

/-- The oldest request of an ID is gone. -/
def drop (out : List (Nat × Nat)) (x : Nat) : List (Nat × Nat) := out.eraseP fun p => p.1 = x

/-- One cycle, of a store of `n` FIFOs. -/
def World.next (n : Nat) (w : World) (i : In) : World :=
  let out := (match i.pop with
    | some k => drop w.out (w.s.id k)
    | none => w.out) ++ (if i.next then [(i.id, i.desc)] else [])
  { s := step n w.s i
    out := out
    since := if i.next then 1 else w.since + 1
    last := if i.next then (i.id, i.desc) else w.last
    room := if out.length < n then w.room + 1 else 0 }

def World.run (n : Nat) (w : World) : List In → World
  | [] => w
  | i :: t => (w.next n i).run n t

/-- How the store is used.  Requests are at least six cycles apart, and there
has been a descriptor to spare for four cycles; the ID and the descriptor of
a request stay on the wires for two more cycles; only a FIFO with something
in it is read. -/
structure Good (n : Nat) (w : World) (i : In) : Prop where
  apart : i.next = true → 6 ≤ w.since ∧ 4 ≤ w.room
  held : w.since ≤ 2 → i.id = w.last.1 ∧ i.desc = w.last.2
  there : ∀ k, i.pop = some k → k < n ∧ w.s.q k ≠ []

def All (n : Nat) (w : World) : List In → Prop
  | [] => True
  | i :: t => Good n w i ∧ All n (w.next n i) t

end Verif.RtlAxid
