import Verif.RtlIrq.Props

/-! Histories of the interrupts, and what goes wrong. -/

namespace Verif.RtlIrq

open Verif.RtlTx (Kind)

/-- Nothing happens, one thing happens, software clears. -/
def none_ : In := ⟨false, none, fun _ => false⟩
def event (j : Nat) : In := ⟨false, none, fun x => decide (x = j)⟩
def clear (j : Nat) : In := ⟨true, some fun x => decide (x = j), fun _ => false⟩

theorem good_of (w : World) (i : In) (j : Nat) (h1 : i.wr = false ∨ 3 ≤ w.since)
    (h2 : i.clear = none ∨ i.clear = some (fun x => decide (x = j)) ∧ w.s.status j = true) : Good w i := by
  refine ⟨fun e => ?_, fun v _ e x hx => ?_⟩
  · rcases h1 with h1 | h1
    · rw [h1] at e; cases e
    · exact h1
  · rcases h2 with h2 | ⟨h2, h3⟩
    · rw [h2] at e; cases e
    · rw [h2] at e
      cases e
      simp at hx
      rw [hx]; exact h3

/-- A flit comes and software clears its status. -/
def handled : List In := [event 0, none_, clear 0, none_, none_]

theorem handled_good (k : Kind) : All k World.start handled :=
  ⟨good_of _ _ 0 (.inl rfl) (.inl rfl), good_of _ _ 0 (.inl rfl) (.inl rfl),
    good_of _ _ 0 (.inr (by cases k <;> decide +kernel)) (.inr ⟨rfl, by cases k <;> decide +kernel⟩),
    good_of _ _ 0 (.inl rfl) (.inl rfl), good_of _ _ 0 (.inl rfl) (.inl rfl), trivial⟩

example (k : Kind) : (World.start.run k [event 0]).s.status 0 = true ∧ (World.start.run k handled).s.status 0 = false ∧
    (World.start.run k (handled.take 3)).s.clear 0 = true ∧ (World.start.run k handled).since = 3 := by
  cases k <;> decide +kernel

/-- Both bits of CXS, and a transmit channel of CHI, are told. -/
example : (World.start.run .cxs [event 1, none_]).s.status 1 = true ∧
    (World.start.run .chi [event 3, none_]).s.status 3 = true := by decide +kernel

/-- Two at once, of which software clears one: the hypotheses of
`clear_leaves_others_partial`. -/
example : (World.start.run .cxs [event 0, event 1, none_]).s.status 0 = true ∧ (World.start.run .cxs [event 0, event 1, none_]).s.status 1 = true ∧
    (World.start.run .cxs [event 0, event 1, none_, clear 0, none_, none_]).s.status 0 = false ∧
    (World.start.run .cxs [event 0, event 1, none_, clear 0, none_, none_]).s.status 1 = true := by decide +kernel

/-- A clear of a status which is not set stays in effect: nothing is told of that
channel any more, whatever happens, until software writes the register again. -/
theorem stuck_for_ever (k : Kind) (s : Regs) (j : Nat) (hk : clears k j = j) (hc : s.clear j = true)
    (hs : s.status j = false) (t : List In) (hq : Quiet t) :
    (World.run k ⟨s, 3⟩ t).s.status j = false ∧ (World.run k ⟨s, 3⟩ t).s.clear j = true := by
  have key : ∀ (t : List In) (w : World), w.s.clear j = true → w.s.status j = false → Quiet t →
      (w.run k t).s.status j = false ∧ (w.run k t).s.clear j = true := by
    intro t
    induction t with
    | nil => intro w a b _; exact ⟨b, a⟩
    | cons i t ih =>
      intro w a b hq
      refine ih (w.next k i) ?_ ?_ (fun x hx => hq x (by simp [hx]))
      · show clearNext w.s i j = true
        rcases hq i (by simp) with e | e <;> simp [clearNext, e, a, b]
      · show statusNext k w.s i j = false
        simp [statusNext, hk, a]
  exact key t ⟨s, 3⟩ hc hs hq

theorem early_clear_sticks (k : Kind) :
    (World.start.run k [clear 0]).s.clear 0 = true ∧ (World.start.run k [clear 0]).s.status 0 = false ∧
      clears k 0 = 0 := by
  cases k <;> decide +kernel

/-- A flit received in the cycle in which a clear is in effect is not told. -/
theorem flit_not_told (k : Kind) : ∃ t, All k World.start (t ++ [event 0]) ∧
    (World.start.run k (t ++ [event 0, none_, none_])).s.status 0 = false :=
  ⟨handled.take 3, ⟨good_of _ _ 0 (.inl rfl) (.inl rfl), good_of _ _ 0 (.inl rfl) (.inl rfl),
    good_of _ _ 0 (.inr (by cases k <;> decide +kernel)) (.inr ⟨rfl, by cases k <;> decide +kernel⟩),
    good_of _ _ 0 (.inl rfl) (.inl rfl), trivial⟩, by cases k <;> decide +kernel⟩

/-- CHI: clearing the status of the TXREQ channel takes away that of TXDAT for
a cycle, as the clear bits of the two are the other way round. -/
def both : List In := [event 3, event 5, none_, none_]

theorem chi_other_drops : (World.start.run .chi both).s.status 3 = true ∧ (World.start.run .chi both).s.status 5 = true ∧
    (World.start.run .chi (both ++ [clear 5])).s.status 3 = true ∧
    (World.start.run .chi (both ++ [clear 5, none_])).s.status 3 = false ∧
    (World.start.run .chi (both ++ [clear 5, none_])).s.status 5 = true ∧
    (World.start.run .chi (both ++ [clear 5, none_, none_])).s.status 3 = true ∧
    (World.start.run .chi (both ++ [clear 5, none_, none_])).s.status 5 = false := by decide +kernel

/-- CHI: a clear of TXDAT which stays in effect keeps TXREQ from being told. -/
theorem chi_other_stuck (t : List In) (hq : Quiet t) : (World.run .chi (World.start.next .chi (clear 3)) t).s.status 5 = false ∨
    ∃ u, u <+: t ∧ (World.run .chi (World.start.next .chi (clear 3)) u).s.status 3 = true := by
  have key : ∀ (t : List In) (w : World), w.s.clear 3 = true → w.s.status 5 = false → Quiet t →
      (w.run .chi t).s.status 5 = false ∨ ∃ u, u <+: t ∧ (w.run .chi u).s.status 3 = true := by
    intro t
    induction t with
    | nil => intro w _ b _; exact .inl b
    | cons i t ih =>
      intro w a b hq
      cases e : w.s.status 3 with
      | true => exact .inr ⟨[], List.nil_prefix, e⟩
      | false =>
        have c : (w.next .chi i).s.clear 3 = true := by
          show clearNext w.s i 3 = true
          rcases hq i (by simp) with x | x <;> simp [clearNext, x, a, e]
        have d : (w.next .chi i).s.status 5 = false := by
          show statusNext .chi w.s i 5 = false
          simp [statusNext, clears, a]
        rcases ih (w.next .chi i) c d (fun x hx => hq x (by simp [hx])) with h | ⟨u, hu, h⟩
        · exact .inl h
        · exact .inr ⟨i :: u, List.cons_prefix_cons.2 ⟨rfl, hu⟩, h⟩
  exact key t _ (by decide +kernel) (by decide +kernel) hq

/-! The line to the host. -/

example : irqRun .idle [(true, false), (true, true), (true, false), (false, false), (false, true)] = .idle := by
  decide +kernel
/-- A status which is gone again before the host acknowledged is told all the
same. -/
example : (irqRun .idle [(true, false), (false, false), (false, false)]).irq = true := by decide +kernel
/-- CHI: the line goes down while TXDAT is pending all the time but for the cycle
in which TXREQ is cleared, and up again when the host has acknowledged. -/
theorem chi_line_falls : irqRun .ack [(true, false), (false, false), (true, false)] = .deassert ∧
    (irqRun .deassert [(true, true), (true, false)]).irq = true := by decide +kernel

/-! A line of the other side. -/

def low : LineIn := ⟨false, none, false⟩
def high : LineIn := ⟨false, none, true⟩
def wclear (b : Bool) : LineIn := ⟨true, some true, b⟩

example : (Line.reset.run [high]).tog = true ∧ (Line.reset.run [high]).clear = false ∧
    (Line.reset.run [high, wclear true, high, high]).tog = false ∧
    (Line.reset.run [high, wclear true, high, high]).level = true := by decide +kernel

/-- An edge in the cycle in which a clear is in effect is not told; a read of the
line finds it. -/
theorem edge_not_told : (Line.reset.run [high, wclear true, low, low, low]).tog = false ∧
    (Line.reset.run [high, wclear true, low, low, low]).level = false ∧
    (Line.reset.run [high, high, high]).level = true := by decide +kernel

end Verif.RtlIrq
