import Verif.RtlTx.Model

/-!
What software and the other side do, what they see, and what is to be right:
every flit software gives goes over the wires once and in order, and only
with a credit.
-/

namespace Verif.RtlTx

/-- The next `n` places of the ring of 15 from number `g` on. -/
def ring (g n k : Nat) : Bool := (List.range n).any fun j => decide ((g + j) % 15 = k)

/-- The bridge with books: the flits given so far, those which went over the
wires, the credits granted and the credits returned; whether the last cycle
wrote a register. -/
structure World (α : Type) where
  s : Regs α
  given : List α
  sent : List (Option α)
  granted : Nat
  returned : Nat
  wrote : Bool

def World.start {α : Type} (m : Nat → α) : World α := ⟨reset m, [], [], 0, 0, false⟩

/-- How many places a write of the flip register gives. -/
def bits (f : Nat → Bool) : Nat := ((List.range 15).filter f).length

/-- The flits a cycle gives: those in the places of the bits written, in the
order of the ring. -/
def gives {α : Type} (w : World α) (i : In α) : List α :=
  match i.wr, i.flip with
  | true, some f => (List.range (bits f)).map fun j => w.s.mem ((w.given.length + j) % 15)
  | _, _ => []

/-- One cycle. -/
def World.next {α : Type} (k : Kind) (w : World α) (i : In α) : World α :=
  let s := step k w.s i
  { s := s
    given := w.given ++ gives w i
    sent := if s.v then w.sent ++ [s.flit] else w.sent
    granted := if i.grant then w.granted + 1 else w.granted
    returned := if s.rtn then w.returned + 1 else w.returned
    wrote := i.wr }

def World.run {α : Type} (k : Kind) (w : World α) : List (In α) → World α
  | [] => w
  | i :: t => (w.next k i).run k t

/-- What software keeps to.  It gives the next places of the ring, only those
which it sees it owns; it writes flits only to places it owns and is not
giving; two cycles in a row never write registers. -/
structure Good {α : Type} (w : World α) (i : In α) : Prop where
  gap : i.wr = true → w.wrote = false
  inOrder : ∀ f, i.wr = true → i.flip = some f →
    bits f ≤ 15 ∧ ∀ k < 15, f k = ring w.given.length (bits f) k
  free : ∀ f k, i.wr = true → i.flip = some f → k < 15 → f k = true →
    w.s.own k = false ∧ w.s.flip k = false
  fresh : ∀ a x, i.data = some (a, x) → a < 15 → w.s.own a = false ∧ w.s.flip a = false ∧
    ∀ f, i.wr = true → i.flip = some f → f a = false

/-- What the other side keeps to: never more than 15 credits out. -/
def Peer {α : Type} (w : World α) (i : In α) : Prop :=
  i.grant = true → w.granted < w.sent.length + w.returned + 15

/-- The link is not being taken down, and is up while a flit is on its way. -/
structure Calm {α : Type} (w : World α) (i : In α) : Prop where
  live : i.deact = false ∧ i.lp = false ∧ i.hint = false
  up : w.s.st = .send ∨ w.s.valid = true → i.up = true

/-- Every cycle of a history meets a condition. -/
def All {α : Type} (p : World α → In α → Prop) (k : Kind) (w : World α) : List (In α) → Prop
  | [] => True
  | i :: t => p w i ∧ All p k (w.next k i) t

end Verif.RtlTx
