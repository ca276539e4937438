import Verif.RtlRdata.Props

/-! # Examples -/

namespace Verif.RtlRdata

set_option maxRecDepth 100000

/-- A bus of 4 bytes, a RAM of 64 words. -/
def cfg : Cfg := axi 4 64

/-- For the AXI slave bridge there is no limit but that of AXI. -/
example (b n : Nat) (h : 0 < b ∧ b < 256) : (axi b n).Good ∧ (axi b n).limit = 256 := ⟨⟨h, by simp [axi]⟩, rfl⟩

/-- Descriptor 3 reads 40 words, 5 one word, the others three words. -/
def cyc (push : Option Nat) (ready : Bool) : In Nat Nat :=
  { push := push, len := fun d => if d = 3 then 39 else if d = 5 then 0 else 2, off := fun d => 17 * d, resp := fun d => 100 + d,
    ram := fun k => 1000 + k, rready := ready }

def cycs (l : List (Option Nat × Bool)) : List (In Nat Nat) := l.map fun a => cyc a.1 a.2

/-- `Polite`, as a test for these inputs. -/
def politeB (w : World Nat Nat) (p : Option Nat) : Bool :=
  match p with
  | none => true
  | some d => decide (d < 16) && w.isOpen.all fun a => decide (a.idx ≠ d)

def allB (w : World Nat Nat) : List (Option Nat × Bool) → Bool
  | [] => true
  | a :: t => politeB w a.1 && allB (w.next cfg (cyc a.1 a.2)) t

theorem allPolite_of (l : List (Option Nat × Bool)) : ∀ {w : World Nat Nat}, (∀ a ∈ w.asked, a = askOf cfg (cyc none false) a.idx) →
    allB w l = true → AllPolite cfg w (cycs l) := by
  induction l with
  | nil => intro w _ _; trivial
  | cons p t ih =>
    intro w ha h
    rw [allB, Bool.and_eq_true] at h
    refine ⟨⟨?_, ?_⟩, ih ?_ h.2⟩
    · intro d hd
      have hd : p.1 = some d := hd
      have h1 := h.1
      rw [hd] at h1
      simp only [politeB, Bool.and_eq_true, decide_eq_true_eq, List.all_eq_true] at h1
      refine ⟨h1.1, ?_, h1.2⟩
      show (if d = 3 then 39 else if d = 5 then 0 else 2) < 256
      split
      · decide
      · split <;> decide
    · intro a hm
      exact (ha a (open_asked hm)).symm
    · intro a hm
      rcases List.mem_append.1 hm with hm | hm
      · exact ha a hm
      · obtain ⟨d, _, rfl⟩ := List.mem_map.1 hm
        rfl

/-- Three bursts while the master is not ready, and one more after the first
of them. -/
def four : List (Option Nat × Bool) :=
  [(some 5, true), (some 15, true), (some 3, false)] ++ List.replicate 60 (none, false) ++ [(none, true), (some 5, false)] ++
    List.replicate 130 (none, true)

/-- The hypotheses of the theorems are met, and all is given; the burst of
descriptor 15 goes around the end of the RAM. -/
example : AllPolite cfg World.start (cycs four) ∧ (World.start.run cfg (cycs four)).took = (World.start.run cfg (cycs four)).due ∧
    (World.start.run cfg (cycs four)).took.take 5 =
      [⟨5, 105, true, 1021⟩, ⟨15, 115, false, 1063⟩, ⟨15, 115, false, 1000⟩, ⟨15, 115, true, 1001⟩, ⟨3, 103, false, 1012⟩] ∧
    (World.start.run cfg (cycs four)).took.length = 45 :=
  ⟨allPolite_of _ (by intro a h; cases h) (by decide +kernel), by decide +kernel, by decide +kernel, by decide +kernel⟩

/-- While the master is not ready, a beat is shown and the FIFO gets full, to
its last place. -/
example : shown (World.start.run cfg (cycs (four.take 50))).s = some ⟨5, 105, true, 1021⟩ ∧
    (World.start.run cfg (cycs (four.take 50))).s.r.items.length = 32 := by decide +kernel

/-- The pulse of a descriptor. -/
example : ((World.start.run cfg (cycs (four.take 63))).next cfg (cyc none true)).s.done 5 = true := by decide +kernel

end Verif.RtlRdata
