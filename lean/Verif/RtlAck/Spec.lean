import Verif.RtlAck.Model
import Verif.RtlAceSend.Spec

/-!
# Responses, acknowledges and completions

The history: what is pushed and taken on the channel; the number of
acknowledges; the descriptors reported as completed.
-/

namespace Verif.RtlAck

open RtlRdata (Ask Beat)

section
variable {δ σ : Type}

structure World (δ σ : Type) where
  s : Regs δ σ
  asked : List (Ask δ σ)
  took : List (Beat δ σ)
  acks : Nat
  completed : List Nat

def World.start : World δ σ := { s := reset, asked := [], took := [], acks := 0, completed := [] }

/-- The channel alone. -/
def World.chan (w : World δ σ) : RtlAceSend.World δ σ := ⟨w.s.chan, w.asked, w.took⟩

/-- The descriptors of which the bridge shows the completion. -/
def reported (s : Regs δ σ) : List Nat := (List.range 16).filter s.done

def World.next (words : Nat) (w : World δ σ) (i : In δ σ) : World δ σ :=
  let c := w.chan.next words i.chan
  let s' := step words w.s i
  { s := s', asked := c.asked, took := c.took, acks := w.acks + (if i.ack then 1 else 0), completed := w.completed ++ reported s' }

def World.run (words : Nat) (w : World δ σ) : List (In δ σ) → World δ σ
  | [] => w
  | i :: t => (w.next words i).run words t

/-- The descriptors of which the response was taken to its end, in that
order. -/
def World.finished (w : World δ σ) : List Nat := (w.took.filter (·.last)).map (·.idx)

/-- How software and the master work: a descriptor is pushed when it is not
in use, that is when it was never pushed or is completed, with a burst of at
most five words; until the end of the burst nothing of it is changed; there are
no more acknowledges than responses. -/
structure Polite (words : Nat) (w : World δ σ) (i : In δ σ) : Prop where
  fresh : ∀ d, i.chan.push = some d → d < 16 ∧ i.chan.len d < 5 ∧ ∀ a ∈ w.asked.drop w.completed.length, a.idx ≠ d
  held : ∀ a ∈ w.chan.isOpen, RtlAceSend.askOf words i.chan a.idx = a
  ack : i.ack = true → w.acks < w.asked.length

def AllPolite (words : Nat) (w : World δ σ) : List (In δ σ) → Prop
  | [] => True
  | i :: t => Polite words w i ∧ AllPolite words (w.next words i) t

/-- No push meets the removal of the only index in the first FIFO, see
`Verif.RtlAceSend`. -/
def NoRace (words : Nat) (w : World δ σ) : List (In δ σ) → Prop
  | [] => True
  | i :: t => ¬ RtlAceSend.Race w.chan i.chan ∧ NoRace words (w.next words i) t

end

end Verif.RtlAck
