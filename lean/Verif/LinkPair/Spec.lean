import Verif.LinkPair.Model

/-!
# What a link is to do
-/

namespace Verif.LinkPair

/-- Both directions are in Run. -/
def Up (p : Pair) : Prop := p.a.state = .run ∧ p.b.state = .run

instance (p : Pair) : Decidable (Up p) := inferInstanceAs (Decidable (_ ∧ _))

/-- The order of the states of a direction: at each edge it stays or goes on to
the next. -/
def following : LinkState → LinkState
  | .stop => .activate
  | .activate => .run
  | .run => .deactivate
  | .deactivate => .stop

/-- Clock edges only. -/
def Ticks (ops : List Op) : Prop := ∀ o ∈ ops, ∃ a b, o = .tick a b

/-- `n` edges with the same choices. -/
def edges (n : Nat) (a b : Choice) : List Op := List.replicate n (.tick a b)

/-- Credits of a direction, wherever they are. -/
def Dir.total (d : Dir) : Nat := d.tx + d.rx + d.gnt.toNat + d.back.toNat

end Verif.LinkPair
