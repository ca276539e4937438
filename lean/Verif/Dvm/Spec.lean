import Verif.Dvm.Model

/-!
# What becomes of the DVM syncs
-/

namespace Verif.Dvm

/-- The history: the Syncs and the Completes which came, by their ports. -/
structure World where
  s : State
  syncs : List Nat
  comps : List Nat

def World.start : World := ⟨Dvm.start, [], []⟩

def World.next (c : Conf) (w : World) (e : Ev) : World :=
  { s := step c w.s e
    syncs := match e with | .sync p => w.syncs ++ [p] | _ => w.syncs
    comps := match e with | .complete q => w.comps ++ [q] | _ => w.comps }

def World.run (c : Conf) (w : World) : List Ev → World
  | [] => w
  | e :: t => (w.next c e).run c t

/-- Each Sync with the ports which have still to complete it.  A port completes
the Syncs of the others in the order they came; `have_ q` is how many Completes
of it there are. -/
def matching (c : Conf) (have_ : Nat → Nat) : List Nat → List (Nat × (Nat → Bool))
  | [] => []
  | p :: t =>
    (p, fun q => decide (q < c.n) && c.part q && decide (q ≠ p) && decide (have_ q = 0)) ::
      matching c (fun q => if q = p then have_ q else have_ q - 1) t

/-- Someone has still to complete it. -/
def pend (c : Conf) (e : Nat × (Nat → Bool)) : Bool := (List.range c.n).any e.2

/-- How many of the Syncs of a port everyone has completed. -/
def answered (c : Conf) (syncs comps : List Nat) (p : Nat) : Nat :=
  (matching c (fun q => comps.count q) syncs).countP fun e => !pend c e && e.1 == p

/-- The masters keep to the protocol: a port sends a Sync when those before are
answered, and a Complete for a Sync of another, if it takes part. -/
def Legal (c : Conf) (w : World) : Ev → Prop
  | .sync p => p < c.n ∧ w.s.sent.count p = w.syncs.count p
  | .complete q => q < c.n ∧ c.part q = true ∧ w.comps.count q < w.syncs.countP (fun p => p != q)
  | .finish _ => True

/-- A port sends no Sync, and no Complete comes, before the snoop with the last
Complete has come to its end. -/
def Calm (w : World) : Ev → Prop
  | .sync p => p ∉ w.s.list
  | .complete _ => w.s.execs = []
  | .finish _ => True

def All (P : World → Ev → Prop) (c : Conf) (w : World) : List Ev → Prop
  | [] => True
  | e :: t => P w e ∧ All P c (w.next c e) t

end Verif.Dvm
