import Verif.RtlAck.Props

/-! # What the rules are for, and examples -/

namespace Verif.RtlAck

open RtlRdata (Ask Beat)

set_option maxRecDepth 100000

/-- A cycle with a push, `ready`, an acknowledge and a write to the clear
register. -/
structure Cyc where
  push : Option Nat := none
  ready : Bool := true
  ack : Bool := false
  clear : Option Nat := none

def idle : Cyc := {}

def acked : Cyc := { ack := true }

/-- Every burst has three words; that of a descriptor begins at eight times
its index. -/
def cyc (a : Cyc) : In Nat Nat :=
  { chan := { push := a.push, len := fun _ => 2, off := fun d => 8 * d, fields := fun d => 100 + d, ram := fun k => 1000 + k, ready := a.ready }
    ack := a.ack
    clear := fun k => decide (a.clear = some k) }

/-- `Polite`, as a test for these inputs. -/
def politeB (w : World Nat Nat) (a : Cyc) : Bool :=
  (match a.push with
  | none => true
  | some d => decide (d < 16) && (w.asked.drop w.completed.length).all fun a => decide (a.idx ≠ d)) &&
    (!a.ack || decide (w.acks < w.asked.length))

def allB (w : World Nat Nat) : List Cyc → Bool
  | [] => true
  | a :: t => politeB w a && allB (w.next 1024 (cyc a)) t

theorem allPolite_of (l : List Cyc) : ∀ {w : World Nat Nat},
    (∀ a ∈ w.asked, a = RtlAceSend.askOf 1024 (cyc idle).chan a.idx) → allB w l = true → AllPolite 1024 w (l.map cyc) := by
  induction l with
  | nil => intro w _ _; trivial
  | cons p t ih =>
    intro w ha h
    rw [allB, Bool.and_eq_true, politeB, Bool.and_eq_true] at h
    refine ⟨⟨?_, ?_, ?_⟩, ih ?_ h.2⟩
    · intro d hd
      have hd : p.push = some d := hd
      have h1 := h.1.1
      rw [hd] at h1
      simp only [Bool.and_eq_true, decide_eq_true_eq, List.all_eq_true] at h1
      exact ⟨h1.1, by simp [cyc], h1.2⟩
    · intro a hm
      exact (ha a (List.mem_of_mem_drop hm)).symm
    · intro hk
      have hk : p.ack = true := hk
      have h1 := h.1.2
      rw [hk] at h1
      simpa using h1
    · intro a hm
      rcases List.mem_append.1 hm with hm | hm
      · exact ha a hm
      · obtain ⟨d, _, rfl⟩ := List.mem_map.1 hm
        rfl

def noRaceB (w : World Nat Nat) : List Cyc → Bool
  | [] => true
  | a :: t => !(a.push.isSome && w.s.chan.rden && decide (w.s.chan.order.cnt = 1)) && noRaceB (w.next 1024 (cyc a)) t

theorem noRace_of (l : List Cyc) : ∀ {w : World Nat Nat}, noRaceB w l = true → NoRace 1024 w (l.map cyc) := by
  induction l with
  | nil => intro w _; trivial
  | cons p t ih =>
    intro w h
    rw [noRaceB, Bool.and_eq_true] at h
    refine ⟨?_, ih h.2⟩
    rintro ⟨h1, h2, h3⟩
    have h1 : p.push.isSome = true := h1
    have h2 : w.s.chan.rden = true := h2
    have h3 : w.s.chan.order.cnt = 1 := h3
    have := h.1
    simp [h1, h2, h3] at this

/-- Three bursts, the acknowledges in one go, and the first descriptor again. -/
def some3 : List Cyc :=
  [{ push := some 4 }, { push := some 9 }, { push := some 2 }] ++ List.replicate 60 idle ++ List.replicate 3 acked ++ List.replicate 14 idle ++
    [{ clear := some 4 }, { push := some 4 }] ++ List.replicate 30 idle ++ [{ ack := true }]

/-- The hypotheses are met, and all are completed. -/
example : AllPolite 1024 World.start ((some3 ++ List.replicate 56 idle).map cyc) ∧ NoRace 1024 World.start (some3.map cyc) ∧
    (World.start.run 1024 (some3.map cyc)).took = (World.start.run 1024 (some3.map cyc)).chan.due ∧
    (World.start.run 1024 (some3.map cyc)).acks = 4 ∧ (World.start.run 1024 (some3.map cyc)).completed = [4, 9, 2] ∧
    (World.start.run 1024 ((some3 ++ List.replicate 56 idle).map cyc)).completed = [4, 9, 2, 4] :=
  ⟨allPolite_of _ (by intro a h; cases h) (by decide +kernel), noRace_of _ (by decide +kernel), by decide +kernel, by decide +kernel,
    by decide +kernel, by decide +kernel⟩

/-- The bits of the status register: the three set by the first completions,
one cleared, and set again. -/
example : (List.range 16).filter (World.start.run 1024 ((some3.take 80).map cyc)).s.status = [2, 4, 9] ∧
    (List.range 16).filter (World.start.run 1024 ((some3.take 81).map cyc)).s.status = [2, 9] ∧
    (List.range 16).filter (World.start.run 1024 ((some3 ++ List.replicate 56 idle).map cyc)).s.status = [2, 4, 9] := by decide +kernel

/-- An acknowledge which is there before the response counts for it. -/
example : (World.start.run 1024 ((({ push := some 4, ready := false } : Cyc) :: { ready := false, ack := true } :: List.replicate 40 idle).map cyc)).completed = [4] := by
  decide +kernel

/-- **The counter has five bits**: after 32 acknowledges to which there is no
response it is again 0, and a response which is then taken is not completed,
though after 31 it would be. -/
theorem acks_wrap :
    let then_ : List Cyc := [{ push := some 4 }] ++ List.replicate 60 idle
    (World.start.run 1024 ((List.replicate 31 acked ++ then_).map cyc)).completed = [4] ∧
      (World.start.run 1024 ((List.replicate 32 acked ++ then_).map cyc)).completed = [] ∧
      (World.start.run 1024 ((List.replicate 32 acked ++ then_).map cyc)).finished = [4] := by decide +kernel

/-- **While there is an acknowledge in each cycle nothing is completed.** -/
theorem no_pop_with_ack {δ σ : Type} (words : Nat) (s : Regs δ σ) (i : In δ σ) (h : i.ack = true) : (step words s i).rden = false := by
  show rdenNext s i = false
  simp [rdenNext, h]

end Verif.RtlAck
