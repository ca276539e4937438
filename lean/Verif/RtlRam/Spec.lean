import Verif.RtlRam.Model

/-!
# The data RAM allocator: what is asked of it

A user of the bridge relies on this: two transfers which are under way at the
same time never share a location of the data RAM.  The ledger below is kept
from the outside, from the answers of the allocator, the descriptors its user
attaches to them and the completions.
-/

namespace Verif.RtlRam

/-- A piece of the RAM which has been given out: its first location, how many
locations it has, and the descriptor it belongs to once that is known. -/
structure Grant where
  off : Nat
  len : Nat
  desc : Option Nat

/-- The pieces under way, by the node number the allocator named them with. -/
abbrev Ledger := Nat → Option Grant

/-- The descriptor `d` completes in this cycle. -/
def doneNow (prev i : In) (d : Nat) : Bool := i.cmpl d && !prev.cmpl d

/-- A descriptor is attached to a piece in this cycle. -/
def assignNow (prev i : In) : Bool := i.alcValid && !prev.alcValid

/-- The descriptor a piece belongs to after this cycle. -/
def Grant.withDesc (x : Grant) (prev i : In) (n : Nat) : Grant :=
  if assignNow prev i && n == i.alcNode then { x with desc := some i.alcDesc } else x

/-- The ledger after a cycle.  An answer of the allocator opens an entry with
the length asked for; the completion of its descriptor closes it. -/
def book (g : Ledger) (prev i : In) (s' : Regs) : Ledger := fun n =>
  if s'.ansValid && n == s'.ansNode then some { off := s'.ansOffset, len := i.size + 1, desc := none }
  else match g n with
    | none => none
    | some x =>
      match (x.withDesc prev i n).desc with
      | some d => if doneNow prev i d then none else some (x.withDesc prev i n)
      | none => some (x.withDesc prev i n)

/-- The hardware, the ledger, the inputs of the last cycle, and whether a
request is waiting for its answer. -/
structure World where
  s : Regs
  g : Ledger
  prev : In
  busy : Bool

/-- Inputs with nothing going on. -/
def quiet : In :=
  { txnValid := false, size := 0, alcValid := false, alcDesc := 0, alcNode := 0, cmpl := fun _ => false }

/-- After the reset. -/
def World.start : World := { s := reset, g := fun _ => none, prev := quiet, busy := false }

/-- One cycle. -/
def World.next (c : Cfg) (w : World) (i : In) : World :=
  let s' := step c w.s i
  { s := s'
    g := book w.g w.prev i s'
    prev := i
    busy := if s'.ansValid then false else if i.txnValid && !w.prev.txnValid then true else w.busy }

/-- Any number of cycles. -/
def World.run (c : Cfg) : World → List In → World
  | w, [] => w
  | w, i :: t => World.run c (w.next c i) t

/-- What the user of the allocator does: a length is 8 bits and stays while
its request waits; a descriptor is attached to a piece which has none, and not
while an earlier release of that descriptor is still going on. -/
structure Polite (w : World) (i : In) : Prop where
  size : i.size < 256
  steady : w.busy = true → i.size = w.prev.size
  assign : assignNow w.prev i = true →
    (∃ x, w.g i.alcNode = some x ∧ x.desc = none) ∧
      w.s.save i.alcDesc = false ∧ w.s.vec i.alcDesc = false ∧
      doneNow w.prev i i.alcDesc = false

/-- Every cycle of the run is polite. -/
def AllPolite (c : Cfg) : World → List In → Prop
  | _, [] => True
  | w, i :: t => Polite w i ∧ AllPolite c (w.next c i) t

/-- The free locations after a piece which ends at `e` when the next piece
starts at `t`, round the end of the RAM. -/
def trueGap (w e t : Nat) : Nat := (t + 2 ^ w - e - 1) % 2 ^ w

/-- When the allocator enters a piece, there really is room for it after the
piece it has chosen. -/
def Room (c : Cfg) (w : World) (i : In) : Prop :=
  w.s.alc = .addNode → i.size + 1 ≤ trueGap c.w (w.s.fin w.s.posIdx) (after w.s w.s.posIdx)

/-- In every cycle of the run. -/
def AllRoom (c : Cfg) : World → List In → Prop
  | _, [] => True
  | w, i :: t => Room c w i ∧ AllRoom c (w.next c i) t

/-- The locations of a piece go round the end of the RAM. -/
def Grant.loc (w : Nat) (x : Grant) (k : Nat) : Nat := (x.off + k) % 2 ^ w

/-- Two pieces have no location in common. -/
def Apart (w : Nat) (x y : Grant) : Prop := ∀ j < x.len, ∀ k < y.len, x.loc w j ≠ y.loc w k

/-- No two pieces under way share a location. -/
def Sound (c : Cfg) (w : World) : Prop :=
  ∀ n m x y, n ≠ m → w.g n = some x → w.g m = some y → Apart c.w x y

/-- The node named in an answer was not in use. -/
def FreshAnswer (c : Cfg) (w : World) (i : In) : Prop :=
  (w.next c i).s.ansValid = true → w.g (w.next c i).s.ansNode = none

end Verif.RtlRam
