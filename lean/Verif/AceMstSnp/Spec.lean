import Verif.AceMstSnp.Model

/-!
# What is asked, answered and sent

The history since the last reset: the snoops asked; the answers of the TLM
side, each with its snoop; the responses and lines the hardware sent; the DVM
Completes sent.
-/

namespace Verif.AceMstSnp

structure World where
  s : State
  asked : List Nat
  answers : List (Nat × Ans)
  sentCr : List Nat
  sentCd : List (List Nat)
  completes : Nat

def World.start : World := { s := AceMstSnp.start, asked := [], answers := [], sentCr := [], sentCd := [], completes := 0 }

/-- The answer which comes in an event. -/
def answered (s : State) : Ev → List (Nat × Ans)
  | .answer a =>
    match s.cr with
    | .run x false => [(x, a)]
    | _ => []
  | _ => []

def asks : Ev → List Nat
  | .snoop x => [x]
  | _ => []

def World.next (m : Nat) (w : World) (e : Ev) : World :=
  match e with
  | .reset => { World.start with s := step m w.s .reset }
  | e =>
    { s := step m w.s e
      asked := w.asked ++ asks e
      answers := w.answers ++ answered w.s e
      sentCr := w.sentCr ++ crOut w.s e
      sentCd := w.sentCd ++ cdOut m w.s e
      completes := w.completes + (rdOut w.s e).countP id }

def World.run (m : Nat) (w : World) : List Ev → World
  | [] => w
  | e :: t => (w.next m e).run m t

/-- The attributes in a response, as ACE numbers its bits. -/
structure Bits where
  data : Bool
  err : Bool
  dirty : Bool
  shared : Bool
  unique : Bool
  deriving DecidableEq, Repr

def Bits.of (r : Nat) : Bits := ⟨r.testBit 0, r.testBit 1, r.testBit 2, r.testBit 3, r.testBit 4⟩

def Ans.bits (a : Ans) : Bits := ⟨a.data, a.err, a.dirty, a.shared, a.unique⟩

/-- The bytes of a line, lowest first. -/
def bytesOf (l : List Nat) : List Nat := l.flatMap fun w => [w % 256, w / 256 % 256, w / 65536 % 256, w / 16777216 % 256]

/-- An answer is a cache line of `m` words. -/
def Whole (m : Nat) (a : Ans) : Prop := a.bytes.length = 4 * m ∧ ∀ b ∈ a.bytes, b < 256

/-- No reset; whole cache lines; and the hardware is not asked to hold more than
16 responses or 16 lines. -/
def Polite (m : Nat) (w : World) : Ev → Prop
  | .reset => False
  | .answer a => Whole m a
  | .setup => w.s.hwCr.length < 16
  | .cdTake => w.s.hwCd.length < 16
  | _ => True

def AllPolite (m : Nat) (w : World) : List Ev → Prop
  | [] => True
  | e :: t => Polite m w e ∧ AllPolite m (w.next m e) t

/-- The events by which a snoop comes nearer to its end. -/
def Ev.inner : Ev → Bool
  | .snoop _ | .read _ | .reset => false
  | _ => true

/-- How many DVM Syncs were answered, since the last reset. -/
def World.syncs (w : World) : Nat := w.answers.countP fun p => p.2.sync

end Verif.AceMstSnp
