import Verif.RtlOrder.Model

/-!
# The order in which responses have to go out

The history of the bridge: the requests accepted, each with its descriptor and
its ID; the descriptors software has answered; the responses, each with the ID
of the request last accepted under its descriptor.
-/

namespace Verif.RtlOrder

section
variable {ι : Type} [DecidableEq ι]

structure World (ι : Type) where
  s : Regs ι
  acc : List (Nat × ι)
  asked : List Nat
  sent : List (Nat × ι)
  /-- the FIFOs written at the last clock edge -/
  just : Nat → Bool
  /-- `bresp_init` in the cycle before -/
  prev : Nat → Bool

def World.start : World ι := { s := reset, acc := [], asked := [], sent := [], just := fun _ => false, prev := fun _ => false }

/-- The request accepted in this cycle. -/
def World.accepts (w : World ι) : List (Nat × ι) :=
  match w.s.stage with
  | .fill d x => [(d, x)]
  | _ => []

/-- The descriptors software answers in this cycle. -/
def World.asks (w : World ι) (i : In ι) : List Nat := (List.range 16).filter fun k => i.init k && !w.prev k

/-- The response which leaves in this cycle. -/
def World.sends (w : World ι) : List (Nat × ι) :=
  if any w.s.rden then (w.acc.reverse.find? fun a => decide (a.1 = w.s.sig)).toList else []

def World.next (w : World ι) (i : In ι) : World ι :=
  { s := step w.s i
    acc := w.acc ++ w.accepts
    asked := w.asked ++ w.asks i
    sent := w.sent ++ w.sends
    just := w.s.wren
    prev := i.init }

def World.run (w : World ι) : List (In ι) → World ι
  | [] => w
  | i :: t => (w.next i).run t

/-- How often a descriptor was used, and how often it was responded for. -/
def uses (l : List (Nat × ι)) (d : Nat) : Nat := l.countP fun a => decide (a.1 = d)

/-- A descriptor is one of the 16 and is used again only after its response
has left; software answers a descriptor once for every request accepted under
it, and not before the cycle after the one in which it was written to its
FIFO. -/
structure Polite (w : World ι) (i : In ι) : Prop where
  alc : ∀ d x, i.alc = some (d, x) → w.s.stage = .idle → d < 16 ∧ uses w.acc d = uses w.sent d
  init : ∀ d, d < 16 → i.init d = true → w.prev d = false →
    w.asked.count d = uses w.sent d ∧ uses w.acc d = uses w.sent d + 1 ∧ (w.s.stage = .done → w.s.din ≠ d)

/-- What a FIFO written at the last clock edge shows early is not taken for
another descriptor: if it is the descriptor looked for, that is what it
holds. -/
def Clean (w : World ι) : Prop :=
  ∀ j, j < 16 → w.just j = true → ∀ d, lowest w.s.proc = some d → (w.s.fifo j).pre = some d → (w.s.fifo j).mem (w.s.fifo j).rd = some d

def AllPolite (w : World ι) : List (In ι) → Prop
  | [] => True
  | i :: t => Polite w i ∧ AllPolite (w.next i) t

/-- In every state of the run. -/
def AllClean (w : World ι) : List (In ι) → Prop
  | [] => Clean w
  | i :: t => Clean w ∧ AllClean (w.next i) t

/-- Those with one ID. -/
def ofId (x : ι) (l : List (Nat × ι)) : List (Nat × ι) := l.filter fun a => decide (a.2 = x)

/-- Nothing comes in. -/
def In.quiet : In ι := { alc := none, init := fun _ => false }

end

end Verif.RtlOrder
