import Verif.RtlTxn.Model

/-!
# Taking a request: what is asked of the bridge

The books are kept from the outside: which descriptors software gave, which
requests were accepted and under which descriptor, what the address allocator
answered.
-/

namespace Verif.RtlTxn

/-- A request accepted: its channel, its descriptor, the last answer of the
address allocator of that channel, and what it carried. -/
structure Taken (α : Type) where
  read : Bool
  idx : Nat
  off : Nat
  req : α

/-- What software finds in the descriptor of a request. -/
def Taken.fields {α : Type} (a : Taken α) : Fields α := { read := a.read, off := a.off, req := some a.req }

/-- What is known of one channel: a request on the wires which is not yet
accepted, whether its address allocator owes an answer, and the last answer. -/
structure Book (α : Type) where
  hold : Option α
  owed : Bool
  off : Nat

structure World (α : Type) where
  s : Regs α
  /-- the descriptors given, in any order -/
  given : List Nat
  /-- the requests accepted, the last first -/
  taken : List (Taken α)
  r : Book α
  w : Book α

def World.start {α : Type} : World α :=
  { s := reset, given := [], taken := [], r := ⟨none, false, 0⟩, w := ⟨none, false, 0⟩ }

/-- The descriptors given in a cycle: software sets the ownership of one which
is not busy. -/
def gives {α : Type} (w : World α) (i : In α) : List Nat :=
  (List.range 16).filter fun j => i.own j && !w.s.ownFf j && !i.busy j

/-- The request accepted in a cycle by one channel. -/
def accepts {α : Type} (read : Bool) (s : Side) (b : Book α) (i : Chan α) : List (Taken α) :=
  match i.req with
  | some x => if s.ready then [{ read, idx := s.cur, off := b.off, req := x }] else []
  | none => []

/-- The allocation request rises, and the answer ends what is owed. -/
def Book.next {α : Type} (b : Book α) (s : Side) (i : Chan α) : Book α where
  hold := if s.ready then none else i.req
  owed := if i.addr.isSome then false else if s.valid && !s.validFf then true else b.owed
  off := i.addr.getD b.off

def World.next {α : Type} (w : World α) (i : In α) : World α where
  s := step w.s i
  given := gives w i ++ w.given
  taken := accepts true w.s.r w.r i.r ++ accepts false w.s.w w.w i.w ++ w.taken
  r := w.r.next w.s.r i.r
  w := w.w.next w.s.w i.w

def World.run {α : Type} : World α → List (In α) → World α
  | w, [] => w
  | w, i :: t => (w.next i).run t

/-- How often a descriptor was given. -/
def World.givenOf {α : Type} (w : World α) (j : Nat) : Nat := w.given.count j

/-- How many requests were accepted under a descriptor. -/
def World.takenOf {α : Type} (w : World α) (j : Nat) : Nat := w.taken.countP (fun a => a.idx = j)

/-- The last request accepted under a descriptor. -/
def World.lastOf {α : Type} (w : World α) (j : Nat) : Option (Taken α) := w.taken.find? (fun a => a.idx = j)

/-- The reads for `true`, the writes for `false`. -/
def World.side {α : Type} (w : World α) : Bool → Side
  | true => w.s.r
  | false => w.s.w

def World.book {α : Type} (w : World α) : Bool → Book α
  | true => w.r
  | false => w.w

def In.chan {α : Type} (i : In α) : Bool → Chan α
  | true => i.r
  | false => i.w

/-- One channel keeps to AXI, and its address allocator answers once for each
request. -/
structure Polite {α : Type} (b : Book α) (i : Chan α) : Prop where
  hold : ∀ x, b.hold = some x → i.req = some x
  answer : i.addr.isSome = true → b.owed = true

/-- Software gives a descriptor again only when what it gave was used. -/
structure Proper {α : Type} (w : World α) (i : In α) : Prop where
  give : ∀ j ∈ gives w i, w.givenOf j = w.takenOf j
  r : Polite w.r i.r
  w : Polite w.w i.w

def AllProper {α : Type} : World α → List (In α) → Prop
  | _, [] => True
  | w, i :: t => Proper w i ∧ AllProper (w.next i) t

end Verif.RtlTxn
