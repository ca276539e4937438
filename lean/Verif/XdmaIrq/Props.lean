import Verif.XdmaIrq.Lemmas

/-!
# User interrupts of the XDMA: theorems
-/

namespace Verif.XdmaIrq

/-- Whatever the user logic does and when: the TLM model sees values the vector
had, in their order; each change it sees is acknowledged by one pulse, on exactly
the lines which changed, the last perhaps still to come; the lines of the PCI
device follow; and no error is reported. -/
theorem forwarded_and_acked (n : Nat) (evs : List Ev) (h : ∀ e ∈ evs, Sized n e) :
    let w := (World.start n).run evs
    w.sigs.Sublist w.reqs ∧ (w.acks = changes w.sigs ∨ ∃ v, changes w.sigs = w.acks ++ [v] ∧ w.s.pc = .ack1 v) ∧
      w.sigs.getLast? = some w.s.sig ∧ (w.s.relay = false → w.s.irq = w.s.sig) ∧ w.s.error = false := by
  intro w
  have i := inv_run (inv_start n) evs h
  refine ⟨?_, ?_, i.lastS, i.irq, i.ok⟩
  · rcases i.sub with ⟨_, h⟩ | ⟨l, h, h1⟩
    · exact h
    · show w.sigs.Sublist w.reqs
      rw [show w.reqs = _ from h1]; exact h.trans (List.sublist_append_left _ _)
  · have ha := i.acked
    cases hp : ((World.start n).run evs).s.pc with
    | ack1 v => rw [hp] at ha; exact Or.inr ⟨v, ha.symm, rfl⟩
    | _ => rw [hp] at ha; left; simpa [pending] using ha

/-- The acknowledge is high from one clock edge to the next, and low otherwise. -/
theorem pulse_is_one_clock (n : Nat) (evs : List Ev) (h : ∀ e ∈ evs, Sized n e) :
    let s := ((World.start n).run evs).s
    (s.ack.any id = true ↔ s.pc = .ack2) ∧ (s.ack.any id = true → ((step s .clk).ack.any id = false ∧ ∀ e, e ≠ .clk → (step s e).ack = s.ack)) := by
  intro s
  have i := inv_run (inv_start n) evs h
  have hiff : s.ack.any id = true ↔ s.pc = .ack2 := by
    constructor
    · intro h1
      by_cases h2 : s.pc = .ack2
      · exact h2
      · have := i.low h2
        rw [show s.ack = _ from this, low_any] at h1; cases h1
    · exact i.high
  refine ⟨hiff, fun h1 => ?_⟩
  have h2 := hiff.mp h1
  refine ⟨?_, ?_⟩
  · simp only [step, clk, h2]; exact low_any _
  · intro e he
    cases e with
    | clk => exact absurd rfl he
    | write v => simp only [step, write]; split <;> rfl
    | run => simp only [step, runIrq, h2]
    | copy => simp only [step, copy]; split <;> rfl

/-- If the vector does not change while the wrapper is busy, every value of it is
forwarded, and at rest the lines of the PCI device are those of the user logic
and every change is acknowledged.  Partial: a change in the meantime is lost
until the next (`stays_lost`). -/
theorem all_forwarded_partial (n : Nat) (evs : List Ev) (h : ∀ e ∈ evs, Sized n e) (hc : CalmAll (start n) evs) :
    let w := (World.start n).run evs
    (w.sigs = w.reqs ∨ w.reqs = w.sigs ++ [w.s.req]) ∧
      (w.s.pc = .idle → w.s.relay = false → w.s.irq = w.s.req ∧ w.sigs = w.reqs ∧ w.acks = changes w.reqs) := by
  intro w
  have i := inv_run (inv_start n) evs h
  have c := calm_run (inv_start n) (calm_start n) evs h hc
  refine ⟨?_, fun hi hr => ?_⟩
  · by_cases hw : w.s.pc = .woken
    · exact Or.inr (c.one hw).1
    · exact Or.inl (c.same hw).1
  · obtain ⟨h1, h2⟩ := c.same (by rw [show ((World.start n).run evs).s.pc = _ from hi]; decide)
    refine ⟨(i.irq hr).trans h2, h1, ?_⟩
    have ha := i.acked
    rw [show ((World.start n).run evs).s.pc = _ from hi, h1] at ha
    simpa [pending] using ha

/-- The wrapper comes to rest when both threads have run and two clock edges have
passed. -/
theorem comes_to_rest (s : State) :
    (runAll s [.run, .copy, .clk, .clk]).pc = .idle ∧ (runAll s [.run, .copy, .clk, .clk]).relay = false := by
  have hc : ∀ s : State, (copy s).relay = false ∧ (copy s).pc = s.pc := by
    intro s; simp only [copy]; split
    · exact ⟨rfl, rfl⟩
    · rename_i h; exact ⟨by simpa using h, rfl⟩
  have hk : ∀ s : State, (clk s).relay = s.relay := by
    intro s; simp only [clk]; split <;> rfl
  have hk2 : ∀ s : State, s.pc ≠ .woken → (clk (clk s)).pc = .idle := by
    intro s h
    cases hp : s.pc with
    | woken => exact absurd hp h
    | idle => simp [clk, hp]
    | ack1 v => simp [clk, hp]
    | ack2 => simp [clk, hp]
  have hr : (runIrq s).pc ≠ .woken := by
    cases hp : s.pc with
    | woken => simp only [runIrq, hp]; split <;> (intro h; cases h)
    | _ => simp only [runIrq, hp]; intro h; cases h
  simp only [runAll, step]
  exact ⟨hk2 _ (by rw [(hc _).2]; exact hr), by rw [hk, hk, (hc _).1]⟩

/-- Once the wrapper rests without having seen the last change, the user logic
waits for ever: as long as it does not change its vector again, nothing is
forwarded and nothing acknowledged. -/
theorem stays_lost (s : State) (hi : s.pc = .idle) (hd : s.sig ≠ s.req) (evs : List Ev) (h : ∀ e ∈ evs, ∀ v, e = .write v → v = s.req) :
    (runAll s evs).sig = s.sig ∧ (runAll s evs).sig ≠ (runAll s evs).req ∧ (runAll s evs).ack = s.ack ∧ (runAll s evs).pc = .idle := by
  induction evs generalizing s with
  | nil => exact ⟨rfl, hd, rfl, hi⟩
  | cons e t ih =>
    have hs : (step s e).pc = .idle ∧ (step s e).sig = s.sig ∧ (step s e).req = s.req ∧ (step s e).ack = s.ack := by
      cases e with
      | write v =>
        have := h _ List.mem_cons_self v rfl
        simp only [step, write, this, if_true]; simp [hi]
      | run => simp only [step, runIrq, hi]; exact ⟨trivial, trivial, trivial, trivial⟩
      | copy => simp only [step, copy]; split <;> simp [hi]
      | clk => simp only [step, clk, hi]; exact ⟨trivial, trivial, trivial, trivial⟩
    obtain ⟨h1, h2, h3, h4⟩ := hs
    have := ih (step s e) h1 (by rw [h2, h3]; exact hd) (fun x hx v hv => by rw [h3]; exact h x (List.mem_cons_of_mem _ hx) v hv)
    rw [h2, h4] at this
    exact this

/-- Two lines, the second raised one clock after the first. -/
def overlap : List Ev := [.write [true, false], .run, .copy, .clk, .write [true, true], .clk]

/-- One line, taken back as soon as its acknowledge is high. -/
def prompt : List Ev := [.write [true], .run, .copy, .clk, .write [false], .clk]

/-- An interrupt of one line while that of another is acknowledged is lost, and
its line is never acknowledged, whatever comes but another change. -/
theorem second_line_lost (evs : List Ev) (h : ∀ e ∈ evs, ∀ v, e = .write v → v = [true, true]) :
    let s := runAll (runAll (start 2) overlap) evs
    s.sig = [true, false] ∧ s.ack = [false, false] ∧ s.req ≠ s.sig := by
  obtain ⟨h1, h2, h3, _⟩ := stays_lost (runAll (start 2) overlap) (by decide) (by decide) evs h
  exact ⟨h1, h3, fun h => h2 h.symm⟩

/-- An interrupt withdrawn on its acknowledge, before the next edge, is still seen as high
for ever. -/
theorem withdrawal_lost (evs : List Ev) (h : ∀ e ∈ evs, ∀ v, e = .write v → v = [false]) :
    let s := runAll (runAll (start 1) prompt) evs
    s.sig = [true] ∧ s.ack = [false] ∧ s.req ≠ s.sig := by
  obtain ⟨h1, h2, h3, _⟩ := stays_lost (runAll (start 1) prompt) (by decide) (by decide) evs h
  exact ⟨h1, h3, fun h => h2 h.symm⟩

/-- A calm history: line 0 up, then line 1 up and line 0 down. -/
def calm : List Ev :=
  [.write [true, false], .run, .copy, .clk, .clk, .write [false, true], .run, .clk, .copy, .clk]

example : (∀ e ∈ calm, Sized 2 e) ∧ CalmAll (start 2) calm := by
  refine ⟨?_, ?_⟩
  · intro e he
    simp only [calm, List.mem_cons, List.not_mem_nil, or_false] at he
    rcases he with h | h | h | h | h | h | h | h | h | h <;> subst h <;> simp [Sized]
  · simp only [calm, CalmAll, Calm, and_true, true_and]; decide

example : ((World.start 2).run calm).acks = [[true, false], [true, true]] ∧ ((World.start 2).run calm).s.irq = [false, true] ∧
    ((World.start 2).run calm).s.pc = .idle := by decide

/-- The change before the last may be the one which recovers a lost one. -/
example : (runAll (runAll (start 2) overlap) [.write [false, true], .run]).sig = [false, true] := by decide

example : (runAll (start 2) (overlap.take 4)).ack.any id = true := by decide

end Verif.XdmaIrq
