import Verif.AceSlvSnp.Props

/-!
# The snoops of the ACE to TLM hardware bridge: where the properties fail
-/

namespace Verif.AceSlvSnp

/-- Snoop 1 is answered with an error and with data, snoop 2 with data. -/
def errorWithData : List Ev :=
  [.push ⟨1, 4⟩, .queue 0, .push ⟨2, 4⟩, .queue 0, .resp 3, .resp 1, .line 0 [0x11111111], .line 1 [0x22222222]] ++ List.replicate 20 .proc

/-- A response with an error and data ends the snoop, and leaves its line for the
next snoop: snoop 2 gets the line of snoop 1, and so on from there. -/
theorem late_by_one :
    let w := World.start.run 1 errorWithData
    dataEnds w.asked w.got w.lines = [⟨⟨2, 4⟩, true, some ⟨true, false, false, false, false⟩, some [0x22, 0x22, 0x22, 0x22]⟩] ∧
      w.done.filter Out.withData = [⟨⟨2, 4⟩, true, some ⟨true, false, false, false, false⟩, some [0x11, 0x11, 0x11, 0x11]⟩] := by
  decide +kernel

/-- Seventeen snoops, each answered with data; the lines come after. -/
def seventeen : List Ev := ((List.range 17).flatMap fun i => [.push ⟨i, 4⟩, .queue 0, .resp 1] ++ List.replicate 8 .proc) ++ List.replicate 8 .proc

theorem stuck_step (m : Nat) (w : World) (e : Ev) (he : e ≠ .reset) (h : ∃ x a n, w.s.pc = .crGive x a n) (hc : 16 ≤ w.s.cdFifo.length) :
    (∃ x a n, (w.next m e).s.pc = .crGive x a n) ∧ 16 ≤ (w.next m e).s.cdFifo.length ∧ (w.next m e).done = w.done := by
  obtain ⟨x, a, n, h⟩ := h
  have hn : ¬w.s.cdFifo.length < 16 := by omega
  cases e with
  | reset => exact absurd rfl he
  | push y => exact ⟨⟨x, a, n, h⟩, hc, by simp [World.next, ended]⟩
  | queue k =>
    simp only [World.next, step, ended, List.append_nil]
    split
    · split
      · exact ⟨⟨x, a, n, h⟩, hc, trivial⟩
      · exact ⟨⟨x, a, n, h⟩, hc, trivial⟩
    · exact ⟨⟨x, a, n, h⟩, hc, trivial⟩
  | proc =>
    simp only [World.next, step, proc, ended, h, hn, if_false, List.append_nil]
    exact ⟨⟨x, a, n, rfl⟩, hc, trivial⟩
  | resp r =>
    simp only [World.next, step, ended, List.append_nil]
    split <;> exact ⟨⟨x, a, n, h⟩, hc, trivial⟩
  | line i ws =>
    simp only [World.next, step, ended, List.append_nil]
    split <;> exact ⟨⟨x, a, n, h⟩, hc, trivial⟩

theorem stuck_run (m : Nat) (w : World) (evs : List Ev) (he : Ev.reset ∉ evs) (h : ∃ x a n, w.s.pc = .crGive x a n) (hc : 16 ≤ w.s.cdFifo.length) :
    (w.run m evs).done = w.done := by
  induction evs generalizing w with
  | nil => rfl
  | cons e t ih =>
    obtain ⟨h1, h2, h3⟩ := stuck_step m w e (by rintro rfl; simp at he) h hc
    show ((w.next m e).run m t).done = w.done
    rw [ih _ (by simp at he; exact he.2) h1 h2, h3]

/-- With a seventeenth response with data before the first line, the thread waits
for a place in the FIFO which it alone empties: whatever comes then, without a
reset, no snoop ends any more, although nothing impolite happened. -/
theorem stuck :
    AllPolite 1 World.start seventeen ∧
      ∀ evs, Ev.reset ∉ evs → ((World.start.run 1 seventeen).run 1 evs).done = [] := by
  constructor
  · have h : ∀ w l, (∀ e ∈ l, e = Ev.proc) → AllPolite 1 w l := by
      intro w l
      induction l generalizing w with
      | nil => intro _; trivial
      | cons e t ih =>
        intro h
        refine ⟨?_, ih _ fun x hx => h x (by simp [hx])⟩
        rw [h e (by simp)]; trivial
    have app : ∀ a b w, AllPolite 1 w a → AllPolite 1 (w.run 1 a) b → AllPolite 1 w (a ++ b) := by
      intro a b
      induction a with
      | nil => intro w _ h; exact h
      | cons e t ih => intro w h1 h2; exact ⟨h1.1, ih _ h1.2 h2⟩
    have one : ∀ (k : Nat) (w : World), w.asked.length = w.got.length →
        AllPolite 1 w ([.push ⟨k, 4⟩, .queue 0, .resp 1] ++ List.replicate 8 .proc) := by
      intro k w hw
      refine ⟨by simp [Polite], by simp [Polite], ⟨?_, by decide⟩, h _ _ (by simp)⟩
      simp only [World.next, asks, respOf, List.append_nil, List.length_append, List.length_singleton]
      omega
    have len : ∀ n, n ≤ 17 → (World.start.run 1 ((List.range n).flatMap fun i => [.push ⟨i, 4⟩, .queue 0, .resp 1] ++ List.replicate 8 .proc)).asked.length =
        (World.start.run 1 ((List.range n).flatMap fun i => [.push ⟨i, 4⟩, .queue 0, .resp 1] ++ List.replicate 8 .proc)).got.length := by
      decide +kernel
    refine app _ _ _ ?_ (h _ _ (by simp))
    have all : ∀ n, n ≤ 17 → AllPolite 1 World.start ((List.range n).flatMap fun i => [.push ⟨i, 4⟩, .queue 0, .resp 1] ++ List.replicate 8 .proc) := by
      intro n
      induction n with
      | zero => intro _; trivial
      | succ n ih =>
        intro hn
        rw [List.range_succ, List.flatMap_append]
        refine app _ _ _ (ih (by omega)) ?_
        simp only [List.flatMap_cons, List.flatMap_nil, List.append_nil]
        exact one _ _ (len n (by omega))
    exact all 17 (Nat.le_refl _)
  · intro evs he
    have h1 : (World.start.run 1 seventeen).s.pc = .crGive ⟨16, 4⟩ ⟨true, false, false, false, false⟩ 0 := by decide +kernel
    have h2 : (World.start.run 1 seventeen).s.cdFifo.length = 16 := by decide +kernel
    have h3 : (World.start.run 1 seventeen).done = [] := by decide +kernel
    rw [stuck_run 1 _ evs he ⟨_, _, _, h1⟩ (by omega), h3]

/-- Sixteen callers in the FIFO and two which wait for a place in it; one place
becomes free, and the second of the two runs first. -/
def overtaken : List Ev :=
  ((List.range 18).map fun i => .push ⟨i, 4⟩) ++ List.replicate 16 (.queue 0) ++ [.resp 0, .proc, .proc, .queue 1, .proc, .proc, .proc, .proc, .proc] ++
    ((List.range 15).flatMap fun _ => .resp 0 :: .queue 0 :: List.replicate 7 .proc) ++
    (.resp 8 :: List.replicate 8 .proc) ++ (.resp 16 :: List.replicate 8 .proc)

/-- The callers wait for the FIFO without an order among them: two get each
other's response. -/
theorem swapped :
    let w := World.start.run 1 overtaken
    (plainEnds w.asked w.got).drop 16 =
        [⟨⟨16, 4⟩, true, some ⟨false, false, false, true, false⟩, none⟩, ⟨⟨17, 4⟩, true, some ⟨false, false, false, false, true⟩, none⟩] ∧
      w.done.drop 16 =
        [⟨⟨17, 4⟩, true, some ⟨false, false, false, true, false⟩, none⟩, ⟨⟨16, 4⟩, true, some ⟨false, false, false, false, true⟩, none⟩] := by
  decide +kernel

/-- A line comes before its response, and then a reset; then one snoop, with its
response and line. -/
def lineThenReset : List Ev :=
  [.push ⟨1, 4⟩, .queue 0, .line 3 [0x11111111]] ++ List.replicate 6 .proc ++
    [.reset, .push ⟨2, 4⟩, .queue 0, .resp 1, .line 0 [0x22222222]] ++ List.replicate 12 .proc

/-- The reset leaves the descriptors which were popped: the first snoop after it
gets what is in the RAM from before it. -/
theorem stale_line :
    (World.start.run 1 lineThenReset).done =
      [⟨⟨1, 4⟩, false, none, none⟩, ⟨⟨2, 4⟩, true, some ⟨true, false, false, false, false⟩, some [0x11, 0x11, 0x11, 0x11]⟩] := by
  decide +kernel

end Verif.AceSlvSnp
