import Verif.RtlAceSend.Props

/-! # Where a word is lost or another burst is sent; examples -/

namespace Verif.RtlAceSend

open RtlRdata (Ask Beat)

set_option maxRecDepth 100000

/-- Every burst has `len + 1` words; that of a descriptor begins at eight times
its index. -/
def cyc (len : Nat) (a : Option Nat × Bool) : In Nat Nat :=
  { push := a.1, len := fun _ => len, off := fun d => 8 * d, fields := fun d => 100 + d, ram := fun k => 1000 + k, ready := a.2 }

/-- `Polite`, as a test for these inputs. -/
def politeB (w : World Nat Nat) (p : Option Nat) : Bool :=
  match p with
  | none => true
  | some d => decide (d < 16) && w.isOpen.all fun a => decide (a.idx ≠ d)

def allB (len : Nat) (w : World Nat Nat) : List (Option Nat × Bool) → Bool
  | [] => true
  | a :: t => politeB w a.1 && allB len (w.next 1024 (cyc len a)) t

theorem allPolite_of {n len : Nat} (hl : len < n) (l : List (Option Nat × Bool)) : ∀ {w : World Nat Nat},
    (∀ a ∈ w.asked, a = askOf 1024 (cyc len (none, false)) a.idx) → allB len w l = true → AllPolite n 1024 w (l.map (cyc len)) := by
  induction l with
  | nil => intro w _ _; trivial
  | cons p t ih =>
    intro w ha h
    rw [allB, Bool.and_eq_true] at h
    refine ⟨⟨?_, ?_⟩, ih ?_ h.2⟩
    · intro d hd
      have hd : p.1 = some d := hd
      have h1 := h.1
      rw [hd] at h1
      simp only [politeB, Bool.and_eq_true, decide_eq_true_eq, List.all_eq_true] at h1
      exact ⟨h1.1, hl, h1.2⟩
    · intro a hm
      exact (ha a (List.mem_of_mem_drop hm)).symm
    · intro a hm
      rcases List.mem_append.1 hm with hm | hm
      · exact ha a hm
      · obtain ⟨d, _, rfl⟩ := List.mem_map.1 hm
        rfl

def raceB (w : World Nat Nat) (i : In Nat Nat) : Bool := i.push.isSome && w.s.rden && decide (w.s.order.cnt = 1)

def noRaceB (w : World Nat Nat) : List (In Nat Nat) → Bool
  | [] => true
  | i :: t => !raceB w i && noRaceB (w.next 1024 i) t

theorem noRace_of (l : List (In Nat Nat)) : ∀ {w : World Nat Nat}, noRaceB w l = true → NoRace 1024 w l := by
  induction l with
  | nil => intro w _; trivial
  | cons i t ih =>
    intro w h
    rw [noRaceB, Bool.and_eq_true] at h
    refine ⟨?_, ih h.2⟩
    rintro ⟨h1, h2, h3⟩
    have := h.1
    simp [raceB, h1, h2, h3] at this

/-- A burst of 40 words while the channel is not ready. -/
def long : List (In Nat Nat) := ([(some 0, false)] ++ List.replicate 60 (none, false) ++ List.replicate 140 (none, true)).map (cyc 39)

/-- **A word is lost.**  A burst of 40 words is pushed and the other side waits
before it takes the first beat.  Five words are on their way when the FIFO says
it is almost full, for four of which there is room: word 33 is missing, all
others are seen. -/
theorem long_burst_loses_a_word :
    AllPolite 256 1024 World.start long ∧ NoRace 1024 World.start long ∧
      (World.start.run 1024 long).took.map (·.data) = (List.range 33 ++ (List.range 6).map (34 + ·)).map (1000 + ·) ∧
      ¬ (World.start.run 1024 long).took <+: (World.start.run 1024 long).due := by
  refine ⟨allPolite_of (by decide) _ (by intro a h; cases h) (by decide +kernel), noRace_of _ (by decide +kernel), by decide +kernel, ?_⟩
  intro h
  have h1 := List.IsPrefix.length_le h
  have : (World.start.run 1024 long).took = (World.start.run 1024 long).due.take (World.start.run 1024 long).took.length := List.prefix_iff_eq_take.1 h
  exact absurd this (by decide +kernel)

/-- Six pushes four cycles apart, the other side takes some beats and then
waits. -/
def lines : List (In Nat Nat) :=
  ((List.range 6).flatMap (fun d => [(some d, false), (none, false), (none, false), (none, false)]) ++ List.replicate 8 (none, true) ++
    List.replicate 60 (none, false) ++ List.replicate 200 (none, true)).map (cyc 7)

/-- **A word of a cache line is lost** in the same way, when lines of 64 bytes
are sent on a bus of 64 bits. -/
theorem line_loses_a_word :
    AllPolite 8 1024 World.start lines ∧ NoRace 1024 World.start lines ∧ (World.start.run 1024 lines).asked.length = 6 ∧
      (World.start.run 1024 lines).took.length = 47 ∧ shown (World.start.run 1024 lines).s = none := by
  refine ⟨allPolite_of (by decide) _ (by intro a h; cases h) (by decide +kernel), noRace_of _ (by decide +kernel), by decide +kernel,
    by decide +kernel, by decide +kernel⟩

/-- Two pushes, three cycles apart. -/
def race : List (In Nat Nat) := ([(some 3, true), (none, true), (none, true), (some 7, true)] ++ List.replicate 40 (none, true)).map (cyc 0)

/-- **Another descriptor is sent.**  The second push meets the removal of the
first index; the early output of the FIFO is stale and is sent in place of the
index pushed. -/
theorem race_sends_another :
    AllPolite 5 1024 World.start race ∧ (World.start.run 1024 race).asked.map (·.idx) = [3, 7] ∧
      (World.start.run 1024 race).took.map (·.idx) = [3, 0] := by
  refine ⟨allPolite_of (by decide) _ (by intro a h; cases h) (by decide +kernel), by decide +kernel, by decide +kernel⟩

/-- Fifty pushes while the channel is not ready. -/
def many : List (In Nat Nat) :=
  ((List.range 50).flatMap (fun d => [(some (d % 16), false), (none, false), (none, false), (none, false)]) ++
    List.replicate 300 (none, true)).map (cyc 0)

/-- **The free level is no help**: it counts only the first FIFO, which hands
on its indices without looking whether the second has room.  At least 15 places
are said to be free before each of fifty pushes, and some of the indices are
lost. -/
theorem free_level_lies :
    (∀ k < 50, free (World.start.run 1024 (many.take (4 * k))).s ≥ 15) ∧ (World.start.run 1024 many).asked.length = 50 ∧
      (World.start.run 1024 many).took.length < 50 ∧ shown (World.start.run 1024 many).s = none := by
  refine ⟨by decide +kernel, by decide +kernel, by decide +kernel, by decide +kernel⟩

/-! ## Examples -/

/-- Bursts of four words; sixteen of them, in three times one right after the
other, and stalls. -/
def fours : List (Option Nat × Bool) :=
  [(some 2, false), (some 5, false), (some 1, false)] ++ List.replicate 9 (none, false) ++ (List.range 9).map (fun d => (some (d + 6), false)) ++
    List.replicate 80 (none, false) ++ List.replicate 30 (none, true) ++ [(some 2, true)] ++ List.replicate 160 (none, true)

/-- The hypotheses are met; the FIFO is filled, and all is given. -/
example : AllPolite 5 1024 World.start (fours.map (cyc 3)) ∧ NoRace 1024 World.start (fours.map (cyc 3)) ∧
    (World.start.run 1024 (fours.map (cyc 3))).took.length = 52 ∧
    (World.start.run 1024 (fours.map (cyc 3))).took = (World.start.run 1024 (fours.map (cyc 3))).due ∧
    28 ≤ (World.start.run 1024 ((fours.take 100).map (cyc 3))).s.back.r.items.length :=
  ⟨allPolite_of (by decide) _ (by intro a h; cases h) (by decide +kernel), noRace_of _ (by decide +kernel), by decide +kernel, by decide +kernel,
    by decide +kernel⟩

/-- A beat which waits, and the pulse of its descriptor. -/
example : (shown (World.start.run 1024 ((fours.take 60).map (cyc 3))).s).map (·.data) = some 1016 ∧
    ((World.start.run 1024 ((fours.take 100).map (cyc 3))).s.back.r.last).map (·.idx) = some 2 := by decide +kernel

/-- Spaced pushes. -/
example : Spaced 0 lines ∧ ¬ Spaced 0 race := by
  constructor
  · simp [lines, Spaced, cyc, List.range, List.range.loop, List.replicate]
  · simp [race, Spaced, cyc, List.replicate]

end Verif.RtlAceSend
