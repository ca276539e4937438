import Verif.RtlRdata.Model

/-!
# The bursts, as seen from outside

The history: the bursts asked for, each as it is to be seen by the master; the
beats which the master took.
-/

namespace Verif.RtlRdata

/-- A burst to be given. -/
structure Ask (δ σ : Type) where
  idx : Nat
  resp : σ
  /-- the place of its first word -/
  place : Nat
  /-- its words -/
  data : List δ

section
variable {δ σ : Type}

/-- What the registers and the RAM say of the burst of a descriptor: it has
one word more than the `arlen` of the request, from the word at the offset on,
around the end of the RAM. -/
def askOf (c : Cfg) (i : In δ σ) (d : Nat) : Ask δ σ :=
  { idx := d, resp := i.resp d, place := i.off d / c.bytes,
    data := (List.range (i.len d + 1)).map fun j => i.ram ((i.off d / c.bytes + j) % c.words) }

/-- The beats of words; the last is marked. -/
def beatsOf (d : Nat) (r : σ) : List δ → List (Beat δ σ)
  | [] => []
  | [x] => [⟨d, r, true, x⟩]
  | x :: y :: t => ⟨d, r, false, x⟩ :: beatsOf d r (y :: t)

/-- The beats of a burst. -/
def Ask.beats (a : Ask δ σ) : List (Beat δ σ) := beatsOf a.idx a.resp a.data

structure World (δ σ : Type) where
  s : Regs δ σ
  asked : List (Ask δ σ)
  took : List (Beat δ σ)

def World.start : World δ σ := { s := reset, asked := [], took := [] }

/-- The beat taken in this cycle. -/
def World.takes (w : World δ σ) (i : In δ σ) : List (Beat δ σ) := if i.rready then (shown w.s).toList else []

def World.next (c : Cfg) (w : World δ σ) (i : In δ σ) : World δ σ :=
  { s := step c w.s i, asked := w.asked ++ i.push.toList.map (askOf c i), took := w.took ++ w.takes i }

def World.run (c : Cfg) (w : World δ σ) : List (In δ σ) → World δ σ
  | [] => w
  | i :: t => (w.next c i).run c t

/-- All that is to be given. -/
def World.due (w : World δ σ) : List (Beat δ σ) := w.asked.flatMap Ask.beats

/-- The bursts of which the last beat is not taken. -/
def World.isOpen (w : World δ σ) : List (Ask δ σ) := w.asked.drop (w.took.countP (·.last))

/-- The sizes for which the bridge is made. -/
structure Cfg.Good (c : Cfg) : Prop where
  bytes : 0 < c.bytes ∧ c.bytes < 256
  high : 0 < c.high ∧ c.high ≤ 28

/-- The longest burst which is never cut: with a threshold of 27, as in the
AXI slave bridge, every burst of AXI is good; with 28 the FIFO has a place less
for the words on the way, which does for bursts of five. -/
def Cfg.limit (c : Cfg) : Nat := if c.high ≤ 27 then 256 else 5

/-- How the other parts work: a descriptor is answered when it has no open
burst, and until the end of the burst nothing of it is changed. -/
structure Polite (c : Cfg) (w : World δ σ) (i : In δ σ) : Prop where
  fresh : ∀ d, i.push = some d → d < 16 ∧ i.len d < c.limit ∧ ∀ a ∈ w.isOpen, a.idx ≠ d
  held : ∀ a ∈ w.isOpen, askOf c i a.idx = a

def AllPolite (c : Cfg) (w : World δ σ) : List (In δ σ) → Prop
  | [] => True
  | i :: t => Polite c w i ∧ AllPolite c (w.next c i) t

/-- Nothing new is asked for, and the master takes beats. -/
def In.quiet (i : In δ σ) : Prop := i.push = none ∧ i.rready = true

end

end Verif.RtlRdata
