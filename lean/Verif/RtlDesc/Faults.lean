import Verif.RtlDesc.Progress

/-!
# Examples, handshakes, and a descriptor which is lost
-/

namespace Verif.RtlDesc

/-! ## Deciding whether the inputs keep to the rules -/

def owedB (w : World) (d : Nat) : Bool := !(w.b.given d == w.b.out d)

def politeB (w : World) (i : In) : Bool :=
  (List.range 16).all fun d =>
    (!owedB w d || (i.own d && i.typ d == w.typ d)) &&
      (!gives w i d || (!owedB w d && !w.own2 d && !w.b.recent d))

def allPoliteB (w : World) : List In → Bool
  | [] => true
  | i :: t => politeB w i && allPoliteB (w.next i) t

theorem politeB_sound {w : World} {i : In} (h : politeB w i = true) : Polite w i := by
  have h := List.all_eq_true.mp h
  have ho : ∀ d, owed w d → owedB w d = true := by
    intro d hd
    unfold owedB
    have hd : w.b.given d ≠ w.b.out d := hd
    simpa using hd
  refine ⟨?_, ?_, ?_⟩
  · intro d hd e
    have := h d (by simpa using hd)
    rw [ho d e] at this
    simp only [Bool.not_true, Bool.false_or, Bool.and_eq_true] at this
    exact ⟨this.1.1, by simpa using this.1.2⟩
  · intro d hd e
    have := h d (by simpa using hd)
    rw [e] at this
    simp only [Bool.not_true, Bool.false_or, Bool.and_eq_true, Bool.not_eq_true'] at this
    refine ⟨?_, this.2.1.2⟩
    intro o
    rw [ho d o] at this
    cases this.2.1.1
  · intro d hd e
    have := h d (by simpa using hd)
    rw [e] at this
    simp only [Bool.not_true, Bool.false_or, Bool.and_eq_true, Bool.not_eq_true'] at this
    exact this.2.2

theorem allPoliteB_sound (ins : List In) : ∀ {w : World}, allPoliteB w ins = true → AllPolite w ins := by
  induction ins with
  | nil => intro w _; trivial
  | cons i t ih =>
    intro w h
    obtain ⟨h1, h2⟩ := Bool.and_eq_true_iff.mp h
    exact ⟨politeB_sound h1, ih h2⟩

/-- A cycle in which the descriptors of `l` are owned; odd ones are reads; the
channels accept everything. -/
def cyc (l : List Nat) : In :=
  { own := l.contains, typ := fun d => d % 2 == 1, arnext := true, awnext := true, dataFull := false, wrBusy := false, rdBusy := false }

def all : List Nat := List.range 16

/-- All the descriptors at once, and descriptor 2 once more after all have
been handed out. -/
def twice : List In := List.replicate 60 (cyc all) ++ List.replicate 3 (cyc (all.erase 2)) ++ List.replicate 40 (cyc all)

example : AllPolite World.start twice := allPoliteB_sound _ (by decide +kernel)
example : (List.range 16).map (World.start.run twice).b.out = [1, 1, 2, 1, 1, 1, 1, 1, 1, 1, 1, 1, 1, 1, 1, 1] := by decide +kernel
example : (World.start.run (twice.take 10)).b.waits 15 = true ∧ (World.start.run (twice.take 10)).s.rq.items = [3] := by decide +kernel
example : outW (World.start.run (twice.take 4)).s = some 0 ∧ outR (World.start.run (twice.take 6)).s = some 1 := by decide +kernel

/-! ## One at a time -/

/-- Writes handed out, and handshakes on the write address channel, in a run. -/
def outs (s : Regs) : List In → Nat
  | [] => 0
  | i :: t => (if (outW s).isSome then 1 else 0) + outs (step s i) t

def shakes : List In → Nat
  | [] => 0
  | i :: t => (if i.awnext then 1 else 0) + shakes t

theorem outs_shakes (ins : List In) : ∀ s : Regs, (s.wrRead = false → s.wrEn = false) →
    outs s ins ≤ shakes ins + 1 - bit s.wrRead + bit s.wrEn := by
  induction ins with
  | nil => intro s _; exact Nat.zero_le _
  | cons i t ih =>
    intro s hs
    have hout : (if (outW s).isSome then 1 else 0) ≤ bit s.wrEn := by
      unfold outW bit
      cases s.wrEn
      · simp
      · simp only [if_true]; split <;> omega
    have hread : (step s i).wrRead = (fetch s.wrEn s.wrRead (!s.wq.items.isEmpty && !i.dataFull && !i.wrBusy) i.awnext).2 := rfl
    have hen : (step s i).wrEn = (fetch s.wrEn s.wrRead (!s.wq.items.isEmpty && !i.dataFull && !i.wrBusy) i.awnext).1 := rfl
    generalize (!s.wq.items.isEmpty && !i.dataFull && !i.wrBusy) = go at hread hen
    have h := ih (step s i) (by
      rw [hread, hen]
      unfold fetch
      cases hr : s.wrRead
      · rw [hs hr]; cases go <;> simp
      · simp)
    rw [hread, hen] at h
    change (if (outW s).isSome then 1 else 0) + outs (step s i) t ≤ (if i.awnext then 1 else 0) + shakes t + 1 - bit s.wrRead + bit s.wrEn
    unfold fetch at h
    cases hr : s.wrRead <;> rw [hr] at h
    · rw [hs hr] at h hout ⊢
      cases go <;> simp only [bit, Bool.false_eq_true, if_false, if_true] at h hout ⊢ <;> omega
    · cases ha : i.awnext <;> rw [ha] at h <;> simp only [bit, Bool.false_eq_true, if_false, if_true, Bool.not_true, Bool.not_false] at h hout ⊢ <;> omega

/-- **One write at a time**: whatever the inputs are, the writes handed out are
at most one more than the handshakes. -/
theorem one_at_a_time (ins : List In) : outs reset ins ≤ shakes ins + 1 :=
  outs_shakes ins reset (fun _ => rfl)

example : outs reset (twice.take 60) = 8 := by decide +kernel

/-! ## Lost -/

/-- All the descriptors are given at once.  Descriptor 0 is handed out first;
its ownership is taken back and given again while others still wait. -/
def lost : List In := List.replicate 28 (cyc all) ++ List.replicate 3 (cyc (all.erase 0)) ++ List.replicate 100 (cyc all)

/-- The rules but for the resting. -/
def almostB (w : World) : List In → Bool
  | [] => true
  | i :: t =>
      ((List.range 16).all fun d =>
        (!owedB w d || (i.own d && i.typ d == w.typ d)) && (!gives w i d || (!owedB w d && !w.own2 d))) && almostB (w.next i) t

/-- **A descriptor which is given again while others wait is lost**: 100 cycles
later its ownership is still with the hardware, it was given twice and handed
out once, and nothing in the allocator knows of it.  All other descriptors
were handed out. -/
theorem given_again_lost :
    almostB World.start lost = true ∧
      (let w := World.start.run lost
       w.own 0 = true ∧ w.b.given 0 = 2 ∧ w.b.out 0 = 1 ∧ w.s.pend 0 = false ∧ w.s.wq.items = [] ∧ w.s.rq.items = [] ∧
         (List.range 16).map w.b.out = List.replicate 16 1) := by
  decide +kernel

/-- One cycle earlier it is not: whether it is lost depends on the parity. -/
theorem given_again_kept :
    let w := World.start.run (List.replicate 27 (cyc all) ++ List.replicate 3 (cyc (all.erase 0)) ++ List.replicate 100 (cyc all))
    w.b.given 0 = 2 ∧ w.b.out 0 = 2 := by
  decide +kernel

end Verif.RtlDesc
