import Verif.RtlRx.Model

/-!
What software and the other side do and see, and what is to be right: every
flit which comes in is found by software, once and in order, and the other
side has credits for the free places and no more.
-/

namespace Verif.RtlRx

open Verif.RtlTx (Kind ring bits)

/-- The bridge with books: the flits the other side sent, those software took,
the credits the other side got and gave back, the number of places software
put into use. -/
structure World (α : Type) where
  s : Regs α
  sent : List α
  got : List α
  granted : Nat
  returned : Nat
  total : Nat

def World.start {α : Type} (m : Nat → α) : World α := ⟨reset m, [], [], 0, 0, 0⟩

/-- Software takes the flits out of the places it gives back, in the order of
the ring. -/
def takes {α : Type} (w : World α) (i : In α) : List α :=
  match i.wr, i.flip with
  | true, some f => (List.range (bits f)).map fun j => w.s.mem ((w.got.length + j) % 15)
  | _, _ => []

/-- One cycle. -/
def World.next {α : Type} (k : Kind) (w : World α) (i : In α) : World α where
  s := step k w.s i
  sent := w.sent ++ i.flit.toList
  got := w.got ++ takes w i
  granted := if grants w.s then w.granted + 1 else w.granted
  returned := if i.rtn then w.returned + 1 else w.returned
  total := i.refill.getD w.total

def World.run {α : Type} (k : Kind) (w : World α) : List (In α) → World α
  | [] => w
  | i :: t => (w.next k i).run k t

/-- What software keeps to: it gives back the next places of the ring, which it
owns and has not just given back.  It puts places into use once, at most 15. -/
structure Good {α : Type} (w : World α) (i : In α) : Prop where
  inOrder : ∀ f, i.wr = true → i.flip = some f →
    bits f ≤ 15 ∧ ∀ k < 15, f k = ring w.got.length (bits f) k
  owned : ∀ f k, i.wr = true → i.flip = some f → k < 15 → f k = true →
    w.s.own k = true ∧ w.s.flip k = false
  once : ∀ r, i.refill = some r → w.total = 0 ∧ r ≤ 15

/-- What the other side keeps to: it sends a flit, or gives a credit back, only
with a credit it got before. -/
structure Peer {α : Type} (w : World α) (i : In α) : Prop where
  flit : i.flit.isSome = true → w.sent.length + w.returned < w.granted
  back : i.rtn = true → w.sent.length + w.returned + i.flit.toList.length < w.granted

/-- Low power ends, so the bridge gives out anew every credit it has. -/
def ends {α : Type} (s : Regs α) (i : In α) : Prop := s.lpd = true ∧ i.lp = false

/-- How the link is taken down.  Only CXS has a wire for credits given back.
For CXS the link is in RUN while a flit comes in, a credit is not given back
in the cycle after a flit, and when low power ends software took every flit
and no credit is on its way. -/
structure Calm {α : Type} (k : Kind) (w : World α) (i : In α) : Prop where
  chi : k = .chi → i.rtn = false ∧ i.lp = false
  up : k = .cxs → w.s.first.isSome = true → i.run = true
  apart : i.rtn = true → w.s.first = none
  empty : ends w.s i → w.sent.length = w.got.length ∧ (∀ j < 15, pulse w.s j = false) ∧ w.s.give = false

/-- Every cycle of a history meets a condition. -/
def All {α : Type} (p : World α → In α → Prop) (k : Kind) (w : World α) : List (In α) → Prop
  | [] => True
  | i :: t => p w i ∧ All p k (w.next k i) t

end Verif.RtlRx
