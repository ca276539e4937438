import Verif.XdmaIrq.Model

/-!
# What is to become of the user interrupts
-/

namespace Verif.XdmaIrq

/-- The history: the values the vector of the user logic had, those the signals
of the TLM model had, and the acknowledges, one for each pulse. -/
structure World where
  s : State
  reqs : List Vec
  sigs : List Vec
  acks : List Vec

def World.start (n : Nat) : World :=
  { s := XdmaIrq.start n, reqs := [List.replicate n false], sigs := [List.replicate n false], acks := [] }

/-- A new value at the end of a history, if it is another one. -/
def note (l : List Vec) (old new : Vec) : List Vec := if new = old then l else l ++ [new]

/-- A pulse is noted when the acknowledge goes high. -/
def pulse (l : List Vec) (old new : Vec) : List Vec := if new.any id ∧ ¬old.any id then l ++ [new] else l

def World.next (w : World) (e : Ev) : World :=
  { s := step w.s e
    reqs := note w.reqs w.s.req (step w.s e).req
    sigs := note w.sigs w.s.sig (step w.s e).sig
    acks := pulse w.acks w.s.ack (step w.s e).ack }

def World.run (w : World) : List Ev → World
  | [] => w
  | e :: t => (w.next e).run t

/-- The vector of the user logic has `n` lines. -/
def Sized (n : Nat) : Ev → Prop
  | .write v => v.length = n
  | _ => True

/-- The lines which changed, from each value of a history to the next. -/
def changes : List Vec → List Vec
  | a :: b :: t => List.zipWith (fun x y => x != y) a b :: changes (b :: t)
  | _ => []

/-- The user logic leaves its vector alone while the wrapper is busy with a change. -/
def Calm (s : State) : Ev → Prop
  | .write _ => s.pc = .idle
  | _ => True

def CalmAll (s : State) : List Ev → Prop
  | [] => True
  | e :: t => Calm s e ∧ CalmAll (step s e) t

end Verif.XdmaIrq
