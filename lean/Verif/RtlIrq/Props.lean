import Verif.RtlIrq.Lemmas

/-!
The properties of the interrupts.
-/

namespace Verif.RtlIrq

open Verif.RtlTx (Kind)

/-- A clear is in effect in the cycle after its write and no longer: none stays
behind to swallow what comes later. -/
theorem clear_is_brief_partial (k : Kind) (t : List In) (g : All k World.start t) (j : Nat)
    (h : (World.start.run k t).s.clear j = true) : (World.start.run k t).since = 1 :=
  ((inv_run t (inv_start k) g).clear j h).1

/-- Whatever happens later than the cycle after a write, and in no cycle of one,
has its status set two cycles later. -/
theorem told_partial (k : Kind) (t : List In) (g : All k World.start t) (i i2 : In) (j : Nat)
    (hi : i.event j = true) (hw : i.wr = false) (hs : 2 ≤ (World.start.run k t).since) (gi : Good (World.start.run k t) i) :
    (((World.start.run k t).next k i).next k i2).s.status j = true := by
  have h := inv_run t (inv_start k) g
  generalize World.start.run k t = w at *
  have h2 := inv_next h gi
  have z := zero h (by omega)
  have z2 : ∀ j, (w.next k i).s.clear j = false := fun j => zero h2 (by simp [World.next, hw]; omega) j
  show statusNext k (w.next k i).s i2 j = true
  rw [statusNext, z2]
  simp only [Bool.false_eq_true, if_false]
  split
  · show sentNext w.s i j = true
    simp [sentNext, hi]
  · next ht =>
    split
    · rfl
    · show statusNext k w.s i j = true
      simp [statusNext, z, ht, hi]

/-- A transmit channel tells even what happens while a clear is in effect. -/
theorem sent_told_partial (k : Kind) (t : List In) (g : All k World.start t) (i i2 : In) (j : Nat) (ht : isTx k j = true)
    (hi : i.event j = true) (hw : i.wr = false) (gi : Good (World.start.run k t) i) :
    (((World.start.run k t).next k i).next k i2).s.status j = true := by
  have h := inv_run t (inv_start k) g
  generalize World.start.run k t = w at *
  have h2 := inv_next h gi
  have hp := h.pos
  have z2 : ∀ j, (w.next k i).s.clear j = false := fun j => zero h2 (by simp [World.next, hw]; omega) j
  show statusNext k (w.next k i).s i2 j = true
  rw [statusNext, z2, ht]
  simp [World.next, step, sentNext, hi]

/-- A status stays set until it is cleared. -/
theorem status_stays_partial (k : Kind) (t : List In) (g : All k World.start t) (i : In) (j : Nat)
    (hs : (World.start.run k t).since ≠ 2) (h1 : (World.start.run k t).s.status j = true)
    (hc : (World.start.run k t).since ≠ 1 ∨ (World.start.run k t).s.clear (clears k j) = false) :
    ((World.start.run k t).next k i).s.status j = true := by
  have h := inv_run t (inv_start k) g
  generalize World.start.run k t = w at *
  have hz : w.s.clear (clears k j) = false := by
    rcases hc with hc | hc
    · exact zero h hc _
    · exact hc
  show statusNext k w.s i j = true
  rw [statusNext, hz]
  simp only [Bool.false_eq_true, if_false]
  split
  · next ht => exact h.sent hs j ht h1
  · split
    · rfl
    · exact h1

/-- What software clears is clear three cycles later, unless it happened again. -/
theorem clear_clears_partial (k : Kind) (t : List In) (g : All k World.start t) (i i1 i2 : In) (v : Nat → Bool) (j : Nat)
    (gi : Good (World.start.run k t) i) (hw : i.wr = true) (hc : i.clear = some v) (hv : v j = true)
    (e1 : i1.event j = false) (e2 : i2.event j = false) (w1 : i1.wr = false) :
    ((((World.start.run k t).next k i).next k i1).next k i2).s.status j = false := by
  have h := inv_run t (inv_start k) g
  generalize World.start.run k t = w at *
  have h2 := inv_next h gi
  have hcl : (w.next k i).s.clear j = true := by
    show clearNext w.s i j = true
    simp [clearNext, hw, hc, hv]
  have hst := (h2.clear j hcl).2
  have g1 : Good (w.next k i) i1 := ⟨fun e => (by rw [w1] at e; cases e), fun _ e => (by rw [w1] at e; cases e)⟩
  have h3 := inv_next h2 g1
  have z3 : ∀ j, ((w.next k i).next k i1).s.clear j = false :=
    fun j => zero h3 (by simp [World.next, w1, hw]) j
  show statusNext k ((w.next k i).next k i1).s i2 j = false
  rw [statusNext, z3]
  simp only [Bool.false_eq_true, if_false]
  by_cases ht : isTx k j = true
  · rw [if_pos ht]
    show sentNext (w.next k i).s i1 j = false
    simp [sentNext, e1, hcl]
  · rw [if_neg ht, e2]
    have hk : clears k j = j := by
      unfold isTx at ht
      unfold clears
      split <;> simp_all
    show (if false = true then true else statusNext k (w.next k i).s i1 j) = false
    simp [statusNext, hk, hcl]

/-- It clears nothing else: what software does not name stays set through the
three cycles.  Not so two bits of CHI, see `chi_other_drops`. -/
theorem clear_leaves_others_partial (k : Kind) (t : List In) (g : All k World.start t) (i i1 i2 : In) (v : Nat → Bool) (j : Nat)
    (hk : k = .chi → j ≠ 3 ∧ j ≠ 5) (gi : Good (World.start.run k t) i) (hw : i.wr = true) (hc : i.clear = some v) (hv : v j = false)
    (w1 : i1.wr = false) (hs : (World.start.run k t).s.status j = true) :
    ((World.start.run k t).next k i).s.status j = true ∧ (((World.start.run k t).next k i).next k i1).s.status j = true ∧
      ((((World.start.run k t).next k i).next k i1).next k i2).s.status j = true := by
  have h := inv_run t (inv_start k) g
  generalize World.start.run k t = w at *
  have hj : clears k j = j := by
    cases k with
    | cxs => rfl
    | chi =>
      obtain ⟨h3, h5⟩ := hk rfl
      unfold clears
      split <;> simp_all
  have h3 := gi.gap hw
  have z := zero h (by omega : w.since ≠ 1) j
  have z1 : (w.next k i).s.clear j = false := by
    show clearNext w.s i j = false
    simp [clearNext, hw, hc, hv]
  have z2 : ((w.next k i).next k i1).s.clear j = false := by
    show clearNext (w.next k i).s i1 j = false
    simp [clearNext, w1, z1]
  have hsent : isTx k j = true → w.s.sent j = true := fun ht => h.sent (by omega) j ht hs
  have keep : ∀ (s : Regs) (i : In), s.clear j = false → s.status j = true → (isTx k j = true → s.sent j = true) →
      (step k s i).status j = true ∧ (isTx k j = true → (step k s i).sent j = true) := by
    intro s i c a b
    refine ⟨?_, fun ht => ?_⟩
    · show statusNext k s i j = true
      rw [statusNext, hj, c]
      simp only [Bool.false_eq_true, if_false]
      split
      · next ht => exact b ht
      · split
        · rfl
        · exact a
    · show sentNext s i j = true
      simp [sentNext, c, b ht]
  obtain ⟨a1, b1⟩ := keep w.s i z hs hsent
  obtain ⟨a2, b2⟩ := keep (w.next k i).s i1 z1 a1 b1
  obtain ⟨a3, _⟩ := keep ((w.next k i).next k i1).s i2 z2 a2 b2
  exact ⟨a1, a2, a3⟩

/-! The line to the host. -/

/-- Something pending is on the line within two cycles of the host having
acknowledged the last change. -/
theorem line_rises (st : St) (a1 a2 : Bool) (h : st = .deassert → a1 = true) :
    (irqRun st [(true, a1), (true, a2)]).irq = true := by
  cases st <;> cases a1 <;> cases a2 <;> simp_all [irqRun, stNext, St.irq]

/-- The line stays up as long as something is pending, and until the host
acknowledged it. -/
theorem line_stays (t : List (Bool × Bool)) (st : St) (h : st.irq = true)
    (hp : (∀ x ∈ t, x.1 = true) ∨ (st = .assert ∧ ∀ x ∈ t, x.2 = false)) : (irqRun st t).irq = true := by
  induction t generalizing st with
  | nil => exact h
  | cons x t ih =>
    obtain ⟨p, a⟩ := x
    rcases hp with hp | ⟨rfl, hp⟩
    · have hp1 : p = true := hp (p, a) (by simp)
      subst hp1
      refine ih _ ?_ (Or.inl fun y hy => hp y (by simp [hy]))
      cases st <;> cases a <;> simp_all [stNext, St.irq]
    · have ha : a = false := hp (p, a) (by simp)
      subst ha
      exact ih _ rfl (Or.inr ⟨rfl, fun y hy => hp y (by simp [hy])⟩)

/-- Between two changes of the line the host acknowledges: from the cycle after
a change, the line is the same until there was an acknowledgement. -/
theorem change_acknowledged (t : List (Bool × Bool)) (st : St) (p a : Bool)
    (hc : (stNext st p a).irq ≠ st.irq) (ht : ∀ x ∈ t, x.2 = false) :
    (irqRun (stNext st p a) t).irq = (stNext st p a).irq := by
  have key : ∀ (t : List (Bool × Bool)) (s : St), (s = .assert ∨ s = .deassert) → (∀ x ∈ t, x.2 = false) →
      irqRun s t = s := by
    intro t
    induction t with
    | nil => intro s _ _; rfl
    | cons x t ih =>
      intro s hs hx
      obtain ⟨p, a⟩ := x
      have ha : a = false := hx (p, a) (by simp)
      subst ha
      have : stNext s p false = s := by rcases hs with rfl | rfl <;> rfl
      show irqRun (stNext s p false) t = s
      rw [this]
      exact ih s hs fun y hy => hx y (by simp [hy])
  rw [key t _ ?_ ht]
  cases st <;> cases p <;> cases a <;> simp_all [stNext, St.irq]

/-- With nothing pending and a host which acknowledges, the line goes down. -/
theorem line_falls (st : St) (p : Bool) (h : st.irq = true) :
    (irqRun st [(p, true), (false, true)]).irq = false := by
  cases st <;> cases p <;> simp_all [irqRun, stNext, St.irq]

/-! A line of the other side. -/

/-- After two cycles without a write no clear is in effect. -/
theorem line_clear_over (s : Line) (i1 i2 : LineIn) (h1 : i1.wr = false) (h2 : i2.wr = false) :
    ((s.step i1).step i2).clear = false := by
  simp only [Line.step, h1, h2]
  cases s.clear <;> cases s.clearClear <;> simp

/-- A clear takes away what is told. -/
theorem line_clears (s : Line) (i : LineIn) (ht : s.tog = true) (hc : s.clear = true) : (s.step i).tog = false := by
  simp [Line.step, ht, hc]

/-- From then on every edge is told, and stays told, until software clears it. -/
theorem edge_told (t : List LineIn) (s : Line) (hc : s.clear = false) (hq : LineQuiet t)
    (h : s.tog = true ∨ ∃ i ∈ t, i.line ≠ s.old) : (s.run t).tog = true := by
  induction t generalizing s with
  | nil =>
    rcases h with h | ⟨i, hi, _⟩
    · exact h
    · simp at hi
  | cons i t ih =>
    refine ih (s.step i) ?_ (fun x hx => hq x (by simp [hx])) ?_
    · have := hq i (by simp)
      simp only [Line.step, hc]
      rcases this with a | a <;> simp [a]
    · by_cases ht : (s.step i).tog = true
      · exact Or.inl ht
      · refine Or.inr ?_
        have hs : s.tog = false := by
          cases e : s.tog with
          | false => rfl
          | true => simp [Line.step, e, hc] at ht
        have hl : i.line = s.old := by
          simpa [Line.step, hs] using ht
        rcases h with h | ⟨x, hx, hne⟩
        · rw [hs] at h; cases h
        · rcases List.mem_cons.1 hx with rfl | hx
          · exact absurd hl hne
          · exact ⟨x, hx, by show x.line ≠ i.line; rw [hl]; exact hne⟩

/-- Software which clears what it found told, and then reads the line, misses no
change: as long as nothing is told again, the line is what a read finds. -/
theorem level_seen (s : Line) (i i1 i2 : LineIn) (t : List LineIn) (ht : s.tog = true) (hc : s.clear = false)
    (hi : i.wr = true ∧ i.clear = some true) (h1 : i1.wr = false) (h2 : i2.wr = false) (hq : LineQuiet t)
    (h : (s.run (i :: i1 :: i2 :: t)).tog = false) :
    (∀ x ∈ i2 :: t, x.line = i1.line) ∧ (s.run (i :: i1 :: i2 :: t)).level = i1.line := by
  have c2 : (((s.step i).step i1).step i2).clear = false := line_clear_over _ _ _ h1 h2
  have ho : (((s.step i).step i1).step i2).old = i2.line := rfl
  have ta : (s.step i).tog = true := by simp [Line.step, ht, hc]
  have ca : (s.step i).clear = true := by simp [Line.step, hi]
  have tb := line_clears (s.step i) i1 ta ca
  have tc : (((s.step i).step i1).step i2).tog = (i2.line != i1.line) := by
    show (if !((s.step i).step i1).tog then i2.line != i1.line else if !((s.step i).step i1).clear then true else false) = _
    rw [tb]; rfl
  have hr : s.run (i :: i1 :: i2 :: t) = (((s.step i).step i1).step i2).run t := rfl
  rw [hr] at h ⊢
  have e2 : i2.line = i1.line := by
    refine Classical.byContradiction fun hne => ?_
    rw [edge_told t _ c2 hq (Or.inl (by rw [tc]; simpa using hne))] at h
    cases h
  have all : ∀ x ∈ t, x.line = i1.line := by
    intro x hx
    refine Classical.byContradiction fun hne => ?_
    rw [edge_told t _ c2 hq (Or.inr ⟨x, hx, by rw [ho, e2]; exact hne⟩)] at h
    cases h
  refine ⟨?_, ?_⟩
  · intro x hx
    rcases List.mem_cons.1 hx with rfl | hx
    · exact e2
    · exact all x hx
  · have key : ∀ (t : List LineIn) (s : Line) (b : Bool), s.lev = b → s.level = b → (∀ x ∈ t, x.line = b) →
        (s.run t).level = b := by
      intro t
      induction t with
      | nil => intro s b _ h _; exact h
      | cons x t ih =>
        intro s b h1 h2 h3
        exact ih (s.step x) b (h3 x (by simp)) h1 (fun y hy => h3 y (by simp [hy]))
    exact key t _ _ e2 rfl all

end Verif.RtlIrq
