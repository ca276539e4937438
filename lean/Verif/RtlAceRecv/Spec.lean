import Verif.RtlAceRecv.Model

/-!
# What comes in, and what software sees

The history: the descriptors which software gave; the transfers accepted on the
channel; the indices software got, each with what stands in the registers of
its descriptor; the number of acknowledges.
-/

namespace Verif.RtlAceRecv

section
variable {α : Type}

structure World (α : Type) where
  s : Regs α
  /-- `desc_avail` of the cycle before -/
  own : Nat → Bool
  given : List Nat
  accepted : List α
  seen : List (Nat × Option α)
  acks : Nat

def World.start : World α := { s := reset, own := fun _ => false, given := [], accepted := [], seen := [], acks := 0 }

/-- The descriptors given in a cycle. -/
def gives (w : World α) (i : In α) : List Nat := (List.range 16).filter fun j => i.own j && !w.own j

def World.next (c : Cfg) (w : World α) (i : In α) : World α :=
  let s' := step c w.s i
  { s := s'
    own := i.own
    given := w.given ++ gives w i
    accepted := w.accepted ++ (if w.s.ready then i.req else none).toList
    seen := w.seen ++ (shown s').toList.map fun d => (d, s'.desc d)
    acks := w.acks + (if s'.ack then 1 else 0) }

def World.run (c : Cfg) (w : World α) : List (In α) → World α
  | [] => w
  | i :: t => (w.next c i).run c t

/-- How often a descriptor was given. -/
def World.givenOf (w : World α) (j : Nat) : Nat := w.given.count j

/-- How often software saw it. -/
def World.seenOf (w : World α) (j : Nat) : Nat := w.seen.countP fun p => p.1 = j

/-- What software saw in it last. -/
def World.lastOf (w : World α) (j : Nat) : Option (Option α) := ((w.seen.filter fun p => p.1 = j).getLast?).map (·.2)

/-- Software gives a descriptor again only when it has seen it. -/
def Polite (w : World α) (i : In α) : Prop := ∀ j ∈ gives w i, w.givenOf j = w.seenOf j

def AllPolite (c : Cfg) (w : World α) : List (In α) → Prop
  | [] => True
  | i :: t => Polite w i ∧ AllPolite c (w.next c i) t

/-- Nothing comes in, and software takes what there is. -/
def In.quiet (i : In α) : Prop := i.req = none ∧ i.pop = true

end

end Verif.RtlAceRecv
