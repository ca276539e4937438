import Verif.AceSlvSnp.Model

/-!
# How a snoop is to end

The history: the snoops pushed, the responses and the lines which the hardware
got, in their orders, and how the snoops ended.  The first response is for the
first snoop, and the first line for the first response with data.
-/

namespace Verif.AceSlvSnp

structure World where
  s : State
  asked : List Snoop
  got : List Nat
  lines : List (List Nat)
  done : List Out

def World.start : World := { s := AceSlvSnp.start, asked := [], got := [], lines := [], done := [] }

def asks : Ev → List Snoop
  | .push x => [x]
  | _ => []

/-- The response or the line of an event, if the hardware has room. -/
def respOf (s : State) : Ev → List Nat
  | .resp r => if s.hwCr.length < 16 then [r] else []
  | _ => []

def lineOf (m : Nat) (s : State) : Ev → List (List Nat)
  | .line i ws => if i < 16 ∧ s.used i = false ∧ ws.length = m then [ws] else []
  | _ => []

def World.next (m : Nat) (w : World) (e : Ev) : World :=
  { s := step m w.s e
    asked := w.asked ++ asks e
    got := w.got ++ respOf w.s e
    lines := w.lines ++ lineOf m w.s e
    done := w.done ++ ended w.s e }

def World.run (m : Nat) (w : World) : List Ev → World
  | [] => w
  | e :: t => (w.next m e).run m t

/-- The bits of a response, as ACE numbers them. -/
def bitsOf (r : Nat) : Bits := ⟨r.testBit 0, r.testBit 1, r.testBit 2, r.testBit 3, r.testBit 4⟩

def hasData (r : Nat) : Bool := r.testBit 0

def hasErr (r : Nat) : Bool := r.testBit 1

/-- The bytes of a line, lowest first. -/
def bytesOf (l : List Nat) : List Nat := l.flatMap fun w => [w % 256, w / 256 % 256, w / 65536 % 256, w / 16777216 % 256]

/-- How the snoops end which get no data: with an error, or with attributes only. -/
def plainEnds (asked : List Snoop) (got : List Nat) : List Out :=
  ((asked.zip got).filter fun p => hasErr p.2 || !hasData p.2).map fun p => ⟨p.1, !hasErr p.2, some (bitsOf p.2), none⟩

/-- How the snoops end which get data: each response with data has its line. -/
def dataEnds (asked : List Snoop) (got : List Nat) (lines : List (List Nat)) : List Out :=
  ((((asked.zip got).filter fun p => hasData p.2).zip lines).filter fun q => !hasErr q.1.2).map fun q =>
    ⟨q.1.1, true, some (bitsOf q.1.2), some ((bytesOf q.2).take q.1.1.len)⟩

def Out.withData (o : Out) : Bool := o.bytes.isSome

/-- No reset; callers go on in the order in which they pushed; no snoop is longer
than a line; the hardware gets a response only for a snoop; and no response has
both an error and data. -/
def Polite (m : Nat) (w : World) : Ev → Prop
  | .reset => False
  | .queue k => k = 0
  | .push x => x.len ≤ 4 * m
  | .resp r => w.got.length < w.asked.length ∧ ¬(hasErr r = true ∧ hasData r = true)
  | _ => True

def AllPolite (m : Nat) (w : World) : List Ev → Prop
  | [] => True
  | e :: t => Polite m w e ∧ AllPolite m (w.next m e) t

/-- A snoop is pushed only while fewer than 16 others wait for their end. -/
def AllFew (m : Nat) (w : World) : List Ev → Prop
  | [] => True
  | e :: t => ((asks e).length + w.asked.length ≤ w.done.length + 16) ∧ AllFew m (w.next m e) t

end Verif.AceSlvSnp
