import Verif.Barrier.Model

/-!
# What the processor of barriers is to do
-/

namespace Verif.Barrier

/-- The history: the calls; the answers which came for calls sent on and for
first barriers; the calls which returned; what was sent on. -/
structure World where
  s : State
  calls : List Call
  rets : List (Call × St)
  firsts : List St
  ends : List (Call × St)
  passed : List Call
  first : List Nat

def World.start : World := { s := Barrier.start, calls := [], rets := [], firsts := [], ends := [], passed := [], first := [] }

def called : Ev → List Call
  | .call c => [c]
  | _ => []

def returned (s : State) : Ev → List (Call × St)
  | .ret k st => (s.inside[k]?).toList.map fun c => (c, st)
  | _ => []

def firstAnswer (s : State) : Ev → List St
  | .barRet st => if s.spawn = .down then [st] else []
  | _ => []

def World.next (w : World) (e : Ev) : World :=
  { s := step w.s e
    calls := w.calls ++ called e
    rets := w.rets ++ returned w.s e
    firsts := w.firsts ++ firstAnswer w.s e
    ends := w.ends ++ ended w.s e
    passed := w.passed ++ sent w.s e
    first := w.first ++ sentFirst w.s e }

def World.run (w : World) : List Ev → World
  | [] => w
  | e :: t => (w.next e).run t

def barC (c : Call) : Bool := c.bar

def barP (p : Call × St) : Bool := p.1.bar

/-- The status of a pair: that of the second barrier, or the error of the first. -/
def both (first second : St) : St :=
  match second with
  | .ok => first
  | st => st

end Verif.Barrier
