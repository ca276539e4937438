import Verif.RtlResp.Props

/-! # Examples, and where a response goes out in the place of another -/

namespace Verif.RtlResp

set_option maxRecDepth 100000

/-- The fields of descriptor `d`, in these examples. -/
def fields (d : Nat) : Nat := 100 + d

/-- A cycle with this order entry and these answers. -/
def cyc (o : Option Nat) (l : List Nat) (ready : Bool := true) : In Nat :=
  { order := o, reads := 0, init := fun k => l.contains k, resp := fields, bready := ready }

def nop (n : Nat) : List (In Nat) := List.replicate n (cyc none [])

/-- All but the answer coming after the order entry, as a test. -/
def soundB (w : World Nat) (i : In Nat) : Bool :=
  (match i.order with
   | some d => decide (d < 16) && decide (w.ordered.count d = (ofDesc d w.took).length) && free w.s i
   | none => true) &&
  (List.range 16).all fun d => !(i.init d) || w.prev d || decide ((ofDesc d w.asked).length = (ofDesc d w.took).length)

/-- `Polite`, as a test for inputs made by `cyc`. -/
def politeB (w : World Nat) (i : In Nat) : Bool :=
  soundB w i && (List.range 16).all fun d => !(i.init d) || w.prev d || decide (w.ordered.count d = (ofDesc d w.took).length + 1)

theorem polite_of (w : World Nat) (o : Option Nat) (l : List Nat) (b : Bool) (hl : ∀ d ∈ l, d < 16) (ha : ∀ e ∈ w.asked, e.2 = fields e.1)
    (h : politeB w (cyc o l b) = true) : Polite w (cyc o l b) := by
  simp only [politeB, soundB, Bool.and_eq_true, List.all_eq_true, List.mem_range, Bool.or_eq_true, Bool.not_eq_true', decide_eq_true_eq] at h
  have lt : ∀ d, (cyc o l b).init d = true → d < 16 := by
    intro d hd
    exact hl d (by simpa [cyc] using hd)
  refine ⟨?_, ?_, ?_⟩
  · intro d hd
    have := h.1.1
    rw [hd] at this
    simp only [Bool.and_eq_true, decide_eq_true_eq] at this
    exact ⟨this.1.1, this.1.2, this.2⟩
  · intro d h1 h2
    have hd := lt d h1
    refine ⟨?_, ?_⟩
    · rcases h.2 d hd with (h' | h') | h'
      · rw [h1] at h'; cases h'
      · rw [h2] at h'; cases h'
      · exact h'
    · rcases h.1.2 d hd with (h' | h') | h'
      · rw [h1] at h'; cases h'
      · rw [h2] at h'; cases h'
      · exact h'
  · intro d r hr
    have : (d, r) ∈ ofDesc d w.asked := by rw [hr]; simp
    exact (ha _ (List.mem_filter.1 this).1).symm

def allB (f : World Nat → In Nat → Bool) (w : World Nat) : List (In Nat) → Bool
  | [] => true
  | i :: t => f w i && allB f (w.next i) t

theorem allPolite_of (ins : List (In Nat)) (hm : ∀ i ∈ ins, ∃ o l b, i = cyc o l b ∧ ∀ d ∈ l, d < 16) :
    ∀ {w : World Nat}, (∀ e ∈ w.asked, e.2 = fields e.1) → allB politeB w ins = true → AllPolite w ins := by
  induction ins with
  | nil => intro w _ _; trivial
  | cons i t ih =>
    intro w ha h
    simp only [allB, Bool.and_eq_true] at h
    obtain ⟨o, l, b, rfl, hl⟩ := hm i (List.mem_cons_self ..)
    refine ⟨polite_of w o l b hl ha h.1, ih (fun j hj => hm j (List.mem_cons_of_mem _ hj)) ?_ h.2⟩
    intro e he
    rcases List.mem_append.1 he with he | he
    · exact ha e he
    · obtain ⟨k, _, rfl⟩ := List.mem_map.1 he
      rfl

/-- Three requests; the order is 4, 2, 9, the answers come in another; the
master is not ready at first. -/
def three : List (Option Nat × List Nat × Bool) :=
  [(some 4, [], true), (none, [], true), (some 2, [], true), (some 9, [2], false), (none, [9], false), (none, [], false), (none, [4], false)] ++
    List.replicate 20 (none, [], false) ++ List.replicate 30 (none, [], true)

def ofTriples (l : List (Option Nat × List Nat × Bool)) : List (In Nat) := l.map fun a => cyc a.1 a.2.1 a.2.2

theorem ofTriples_polite (l : List (Option Nat × List Nat × Bool)) (hl : l.all (fun a => a.2.1.all fun d => decide (d < 16)) = true)
    (h : allB politeB World.start (ofTriples l) = true) : AllPolite World.start (ofTriples l) := by
  refine allPolite_of _ ?_ (by intro e he; cases he) h
  intro i hi
  obtain ⟨a, ha, rfl⟩ := List.mem_map.1 hi
  refine ⟨_, _, _, rfl, fun d hd => ?_⟩
  have := List.all_eq_true.1 (List.all_eq_true.1 hl a ha) d hd
  simpa using this

/-- The hypotheses of the theorems are met by it, and all three responses go
out in the order, each with its payload. -/
example : AllPolite World.start (ofTriples three) ∧ (World.start.run (ofTriples three)).took = [(4, 104), (2, 102), (9, 109)] :=
  ⟨ofTriples_polite _ (by decide +kernel) (by decide +kernel), by decide +kernel⟩

/-- When all three are in the order there are 13 free places, and `free_when_few` says that there
is one. -/
example : 0 + (World.start.run (ofTriples (three.take 20))).ordered.length < 16 + (World.start.run (ofTriples (three.take 20))).took.length ∧
    (World.start.run (ofTriples (three.take 20))).ordered.length = 3 := by decide +kernel

/-- While the master is not ready a response is shown and stays. -/
example : shown (World.start.run (ofTriples (three.take 20))).s = some (4, 104) ∧
    shown (World.start.run (ofTriples (three.take 27))).s = some (4, 104) := by decide +kernel

/-- Sixteen requests, one after the other, so that every place of the FIFO of
the order holds the index of its descriptor. -/
def sixteen : List (In Nat) := (List.range 16).flatMap fun d => [cyc (some d) []] ++ [cyc none [d]] ++ nop 14

/-- Now software answers 1 before it puts it in the order.  In the cycle in
which the entry of 5 is taken out, that of 7 comes in. -/
def early : List (In Nat) := sixteen ++ [cyc (some 5) []] ++ nop 3 ++ [cyc none [5, 1]] ++ nop 1 ++ [cyc (some 7) []] ++ nop 20

/-- **If software answers before it gives the order, a response can go out in
the place of another.**  The early output of the FIFO is stale, and said to be
valid, when its only entry is replaced: descriptor 1, which is not in the order
at all, is responded for, and the entry of 7 is gone, so that 7 never is. -/
theorem early_answer_breaks_order :
    allB soundB World.start early = true ∧
    (World.start.run early).ordered.drop 16 = [5, 7] ∧ (World.start.run early).took.drop 16 = [(5, 105), (1, 101)] ∧
    (World.start.run early).s.order.empty = true ∧
    ¬ (World.start.run early).took.map (·.1) <+: (World.start.run early).ordered := by decide +kernel

end Verif.RtlResp
