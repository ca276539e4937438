import Verif.RtlLink.Spec

/-! The invariants of the link, by going through its finitely many states. -/

namespace Verif.RtlLink

open Verif.RtlTx (Kind)

def states : List L := [.stop, .act, .deact, .run]
def bools : List Bool := [false, true]
def kinds : List Kind := [.chi, .cxs]

theorem all_states (a : L) : a ∈ states := by cases a <;> decide
theorem all_bools (a : Bool) : a ∈ bools := by cases a <;> decide
theorem all_kinds (a : Kind) : a ∈ kinds := by cases a <;> decide

/-- Every state of the link. -/
def regs : List Regs :=
  states.flatMap fun a => states.flatMap fun b => bools.flatMap fun c => bools.flatMap fun d =>
  bools.flatMap fun e => bools.flatMap fun f => bools.map fun g => ⟨a, b, c, d, e, f, g⟩

/-- Every input. -/
def inputs : List In :=
  bools.flatMap fun a => bools.flatMap fun b => bools.flatMap fun c => bools.flatMap fun d =>
  bools.flatMap fun e => bools.flatMap fun f => bools.map fun g => ⟨a, b, c, d, e, f, g⟩

theorem all_regs (s : Regs) : s ∈ regs := by
  obtain ⟨a, b, c, d, e, f, g⟩ := s
  simp only [regs, List.mem_flatMap, List.mem_map]
  exact ⟨a, all_states a, b, all_states b, c, all_bools c, d, all_bools d, e, all_bools e, f, all_bools f,
    g, all_bools g, rfl⟩

theorem all_inputs (i : In) : i ∈ inputs := by
  obtain ⟨a, b, c, d, e, f, g⟩ := i
  simp only [inputs, List.mem_flatMap, List.mem_map]
  exact ⟨a, all_bools a, b, all_bools b, c, all_bools c, d, all_bools d, e, all_bools e, f, all_bools f,
    g, all_bools g, rfl⟩

/-- The pairs of states the machine gets to, of the 16. -/
def reachable (k : Kind) (tx rx : L) : Bool :=
  match tx, rx with
  | .stop, .stop | .act, .stop | .act, .act | .act, .run | .run, .run | .run, .deact | .deact, .run
  | .deact, .deact | .stop, .deact | .deact, .stop => true
  | .stop, .act => decide (k = .cxs)
  | _, _ => false

/-- The outputs are those of the states; for CHI the acknowledgement of a link
being taken down may be either. -/
def driven (k : Kind) (s : Regs) : Bool :=
  (s.req == (decide (s.tx = .act) || decide (s.tx = .run))) &&
  (match s.rx with
   | .stop | .act => !s.ack
   | .run => s.ack
   | .deact => s.ack || (decide (k = .chi) && decide (s.tx ≠ .run)))

def base (k : Kind) (s : Regs) : Bool := reachable k s.tx s.rx && driven k s

/-- With an other side which keeps to the handshake, whose wires are as last
sampled. -/
def inv (k : Kind) (s : Regs) : Bool :=
  base k s &&
  (match s.tx with
   | .stop => !s.ackIn
   | .run => s.ackIn
   | _ => true) &&
  (match s.rx with
   | .act => s.reqIn
   | .deact => !s.reqIn || !s.ack
   | _ => true)

def peer (s : Regs) (i : In) : Bool :=
  (i.ack == s.ackIn || i.ack == s.req) && (i.req == s.reqIn || i.req == !s.ack)

def checkBase : Bool :=
  kinds.all fun k => regs.all fun s => !base k s || inputs.all fun i => base k (step k s i)

def checkInv : Bool :=
  kinds.all fun k => regs.all fun s => !inv k s || inputs.all fun i => !peer s i ||
    (inv k (step k s i) &&
     (((step k s i).req == s.req) || (i.ack == s.req)) &&
     (((step k s i).ack == s.ack) || (i.req == !s.ack)))

set_option maxRecDepth 100000 in
theorem checkInv_true : checkInv = true := by decide +kernel

set_option maxRecDepth 100000 in
theorem checkBase_true : checkBase = true := by decide +kernel

theorem base_step {k : Kind} {s : Regs} (h : base k s = true) (i : In) : base k (step k s i) = true := by
  have e := checkBase_true
  unfold checkBase at e
  have e := List.all_eq_true.1 (List.all_eq_true.1 e k (all_kinds k)) s (all_regs s)
  rw [h] at e
  exact List.all_eq_true.1 e i (all_inputs i)

theorem inv_step {k : Kind} {s : Regs} (h : inv k s = true) {i : In} (p : peer s i = true) :
    inv k (step k s i) = true ∧ ((step k s i).req ≠ s.req → i.ack = s.req) ∧
      ((step k s i).ack ≠ s.ack → i.req = !s.ack) := by
  have e := checkInv_true
  unfold checkInv at e
  have e := List.all_eq_true.1 (List.all_eq_true.1 e k (all_kinds k)) s (all_regs s)
  rw [h] at e
  have e := List.all_eq_true.1 e i (all_inputs i)
  rw [p] at e
  simp only [Bool.not_true, Bool.false_or, Bool.and_eq_true, Bool.or_eq_true, beq_iff_eq] at e
  obtain ⟨⟨e1, e2⟩, e3⟩ := e
  exact ⟨e1, fun n => e2.resolve_left n, fun n => e3.resolve_left n⟩

/-- The wires of the other side are those last sampled. -/
def Same (w : World) : Prop := w.s.ackIn = w.ack ∧ w.s.reqIn = w.req

theorem same_next (k : Kind) (w : World) (i : In) : Same (w.next k i) := ⟨rfl, rfl⟩

theorem peer_of {w : World} {i : In} (m : Same w) (p : Peer w i) : peer w.s i = true := by
  unfold peer
  simp only [Bool.and_eq_true, Bool.or_eq_true, beq_iff_eq]
  rw [m.1, m.2]
  refine ⟨?_, ?_⟩
  · by_cases h : i.ack = w.ack
    · exact Or.inl h
    · exact Or.inr (p.1 h)
  · by_cases h : i.req = w.req
    · exact Or.inl h
    · exact Or.inr (p.2 h)

end Verif.RtlLink
