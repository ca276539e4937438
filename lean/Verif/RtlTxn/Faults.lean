import Verif.RtlTxn.Props

/-! Histories: that the conditions can be met, and what happens without them. -/

namespace Verif.RtlTxn

def politeB (b : Book Nat) (i : Chan Nat) : Bool :=
  (b.hold.isNone || decide (i.req = b.hold)) && (!i.addr.isSome || b.owed)

def properB (w : World Nat) (i : In Nat) : Bool :=
  (gives w i).all (fun j => decide (w.givenOf j = w.takenOf j)) && politeB w.r i.r && politeB w.w i.w

def allProperB : World Nat → List (In Nat) → Bool
  | _, [] => true
  | w, i :: t => properB w i && allProperB (w.next i) t

theorem politeB_ok {b : Book Nat} {i : Chan Nat} (h : politeB b i = true) : Polite b i := by
  simp only [politeB, Bool.and_eq_true, Bool.or_eq_true] at h
  refine ⟨fun x hx => ?_, fun ha => ?_⟩
  · rcases h.1 with h | h
    · rw [hx] at h; cases h
    · rw [of_decide_eq_true h, hx]
  · rcases h.2 with h | h
    · rw [ha] at h; cases h
    · exact h

theorem allProperB_ok (t : List (In Nat)) : ∀ {w : World Nat}, allProperB w t = true → AllProper w t := by
  induction t with
  | nil => intro w _; exact trivial
  | cons i t ih =>
    intro w h
    simp only [allProperB, properB, Bool.and_eq_true] at h
    obtain ⟨⟨⟨h1, h2⟩, h3⟩, h4⟩ := h
    refine ⟨⟨fun j hj => ?_, politeB_ok h2, politeB_ok h3⟩, ih h4⟩
    exact of_decide_eq_true (List.all_eq_true.mp h1 j hj)

/-- A cycle: what is owned, the two requests, the two answers. -/
def cyc (own : Nat) (r w : Option Nat) (ra wa : Option Nat) : In Nat :=
  { own := fun j => own.testBit j, busy := fun _ => false, r := ⟨r, ra⟩, w := ⟨w, wa⟩ }

/-- Software gives descriptors 3 and 5; a read and a write come at once; the
allocators answer so that both have all they need in the same cycle. -/
def pair : List (In Nat) :=
  [cyc 40 (some 7) (some 8) none none, cyc 40 (some 7) (some 8) none none, cyc 40 (some 7) (some 8) none none,
   cyc 40 (some 7) (some 8) none none, cyc 40 (some 7) (some 8) none none, cyc 40 (some 7) (some 8) none none,
   cyc 40 (some 7) (some 8) none none, cyc 40 (some 7) (some 8) none none, cyc 40 (some 7) (some 8) none none,
   cyc 40 (some 7) (some 8) (some 64) (some 32), cyc 40 (some 7) (some 8) none none, cyc 40 (some 7) (some 8) none none]

example : AllProper (World.start : World Nat) pair := allProperB_ok pair (by decide +kernel)

/-- Both are accepted in the same cycle, and both descriptors are right. -/
example : let w := (World.start : World Nat).run pair
    w.taken.map (fun a => (a.read, a.idx, a.off, a.req)) = [(true, 3, 64, 7), (false, 5, 32, 8)] ∧
      w.s.desc 3 = some ⟨true, 64, some 7⟩ ∧ w.s.desc 5 = some ⟨false, 32, some 8⟩ ∧
      w.givenOf 3 = w.takenOf 3 ∧ w.givenOf 5 = 1 := by decide +kernel

/-- The hypotheses of `accepted_soon_partial`: a read alone. -/
def alone : List (In Nat) :=
  [cyc 1 (some 7) none none none, cyc 1 (some 7) none none none, cyc 1 (some 7) none none none,
   cyc 1 (some 7) none (some 9) none, cyc 1 (some 7) none none none, cyc 1 (some 7) none none none,
   cyc 1 (some 7) none none none, cyc 1 (some 7) none none none, cyc 1 (some 7) none none none,
   cyc 1 (some 7) none none none, cyc 1 (some 7) none none none, cyc 1 (some 7) none none none]

example : AllProper (World.start : World Nat) ([cyc 1 none none none none] ++ alone) ∧
    let w := (World.start : World Nat).run [cyc 1 none none none none]
    w.w.hold = none ∧ w.takenOf 0 < w.givenOf 0 ∧ (w.run (alone.take 10)).r.owed = false :=
  ⟨allProperB_ok _ (by decide +kernel), by decide +kernel⟩

/-- C82, needed: software which takes the ownership of a descriptor back and
gives it again before a request came puts it into the FIFO twice: a read and
a write are under way under the same descriptor, and the fields of the read
are gone. -/
def twice : List (In Nat) :=
  [cyc 8 none none none none, cyc 0 none none none none, cyc 8 none none none none, cyc 8 none none none none,
   cyc 8 none none none none, cyc 8 none none none none, cyc 8 none none none none] ++
  pair.map (fun i => { i with own := fun j => (8).testBit j })

theorem given_twice_shared :
    let w := (World.start : World Nat).run twice
    w.taken.map (fun a => (a.read, a.idx, a.off, a.req)) = [(true, 3, 64, 7), (false, 3, 32, 8)] ∧
      w.s.desc 3 = some ⟨false, 32, some 8⟩ := by decide +kernel

/-- C82, needed: taken back and given again while it still waits behind
others for its place in the FIFO, it is given twice and there once. -/
theorem given_twice_merged :
    let w := (World.start : World Nat).run
      ([cyc 255 none none none none, cyc 127 none none none none] ++ List.replicate 16 (cyc 255 none none none none))
    w.givenOf 7 = 2 ∧ w.takenOf 7 = 0 ∧ w.s.q.items = [0, 1, 2, 3, 4, 5, 6, 7] ∧ w.s.req 7 = false := by decide +kernel

/-- C82: the two channels are not treated alike: while a read asks for a
descriptor none goes to a write, for however long it has asked. -/
theorem reads_first {α : Type} (s : Regs α) (h : s.r.req = true) : pick s ≠ some false := by
  unfold pick
  split
  · exact nofun
  · split
    · exact nofun
    · cases s.w.req <;> rw [h] <;> simp

end Verif.RtlTxn
