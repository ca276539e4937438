import Verif.RtlResp.Spec
import Verif.RtlOrder.Keep

/-! # The way of a response -/

namespace Verif.RtlResp

open RtlFifo (Queue)

section
variable {ρ : Type}

/-- The element on its way to `B_fifo`. -/
def midE (s : Regs ρ) (i : In ρ) : List (Nat × ρ) := if s.bWren then (bDin s i).toList else []

def mid (s : Regs ρ) : List Nat := if s.bWren then s.x.last.toList else []

def xw (s : Regs ρ) : List Nat := if s.xWren then [s.xDin] else []

def front (s : Regs ρ) : List Nat := ((shown s).toList ++ s.b.items).map (·.1) ++ mid s ++ s.x.items ++ xw s

def chain (s : Regs ρ) (q : Queue Nat) : List Nat := front s ++ q.items

/-- How the flags go with the states. -/
structure Ctl (s : Regs ρ) : Prop where
  xRden : s.xRden = true → s.x.items ≠ []
  bWren : s.bWren = true → ∃ d, s.x.last = some d
  bRden : s.bRden = decide (s.st = .strt)
  strt : s.st = .strt → s.b.items ≠ []
  bvalid : s.bvalid = decide (s.st = .wait)
  wait : s.st = .wait → ∃ e, s.b.last = some e

def Small (s : Regs ρ) : Prop := s.b.items.length < 16 ∧ s.x.items.length < 16

theorem b_next {s : Regs ρ} (c : Ctl s) (h : s.bWren = true → s.b.items.length < 16) (i : In ρ) :
    (bNext s i).items = (if s.bRden then s.b.items.drop 1 else s.b.items) ++ midE s i ∧
    (bNext s i).last = (if s.bRden && !s.b.items.isEmpty then s.b.items.head? else s.b.last) := by
  unfold bNext midE
  cases hb : s.bWren
  · cases hd : bDin s i <;> simp [Queue.next]
  · obtain ⟨d, hd⟩ := c.bWren hb
    have : bDin s i = some (d, i.resp d) := by simp [bDin, hd]
    rw [this]
    simp [Queue.next, h hb]

/-- What is shown and what is in `B_fifo`. -/
theorem b_step {s : Regs ρ} (c : Ctl s) (h : s.bWren = true → s.b.items.length < 16) (i : In ρ) :
    (if i.bready then (shown s).toList else []) ++ ((shown (step s i)).toList ++ (step s i).b.items) =
      (shown s).toList ++ s.b.items ++ midE s i := by
  obtain ⟨hi, hl⟩ := b_next c h i
  have e1 : (step s i).b = bNext s i := rfl
  have e2 : (step s i).bvalid = bvalidNext s i := rfl
  have hr := c.bRden
  have hv := c.bvalid
  unfold shown
  rw [e1, e2, hi, hl]
  unfold bvalidNext
  cases hst : s.st
  · rw [hst] at hr hv
    simp [hr, hv]
  · rw [hst] at hr hv
    have := c.strt hst
    cases hq : s.b.items with
    | nil => exact absurd hq this
    | cons e t => simp [hr, hv]
  · rw [hst] at hr hv
    obtain ⟨e, he⟩ := c.wait hst
    cases hb : i.bready <;> simp [hr, hv, he]

theorem x_step {s : Regs ρ} (c : Ctl s) (h : s.xWren = true → s.x.items.length < 16) (i : In ρ) :
    mid (step s i) ++ (step s i).x.items = s.x.items ++ xw s := by
  have e1 : (step s i).x = s.x.next 16 ⟨s.xWren, s.xRden, s.xDin⟩ := rfl
  have e2 : (step s i).bWren = s.xRden := rfl
  unfold mid xw
  rw [e1, e2]
  unfold Queue.next
  dsimp only
  cases hr : s.xRden
  · cases hw : s.xWren
    · simp
    · simp [h hw]
  · have := c.xRden hr
    cases hq : s.x.items with
    | nil => exact absurd hq this
    | cons a t =>
      cases hw : s.xWren
      · simp
      · have := h hw
        rw [hq] at this
        simp only [List.length_cons] at this
        simp [this]

theorem ctl_reset : Ctl (reset : Regs ρ) where
  xRden := by intro h; cases h
  bWren := by intro h; cases h
  bRden := rfl
  strt := by intro h; cases h
  bvalid := rfl
  wait := by intro h; cases h

theorem ctl_step {s : Regs ρ} (c : Ctl s) (h : s.bWren = true → s.b.items.length < 16) (i : In ρ) : Ctl (step s i) where
  xRden := by
    intro hx
    have hx : (if s.xRden then false else !s.x.items.isEmpty) = true := hx
    show (s.x.next 16 ⟨s.xWren, s.xRden, s.xDin⟩).items ≠ []
    cases hr : s.xRden
    · rw [hr] at hx
      unfold Queue.next
      simp only [Bool.false_eq_true, if_false, Bool.not_eq_true', List.isEmpty_eq_false_iff] at hx
      simp [hx]
    · rw [hr] at hx
      cases hx
  bWren := by
    intro hx
    have hx : s.xRden = true := hx
    show ∃ d, (s.x.next 16 ⟨s.xWren, s.xRden, s.xDin⟩).last = some d
    have := c.xRden hx
    cases hq : s.x.items with
    | nil => exact absurd hq this
    | cons a t => exact ⟨a, by simp [Queue.next, hx, hq]⟩
  bRden := by
    show bRdenNext s i = decide (stNext s i = .strt)
    unfold bRdenNext stNext
    cases s.st <;> dsimp only
    · cases s.b.items.isEmpty <;> rfl
    · rfl
    · cases (s.bvalid && i.bready) <;> cases s.b.items.isEmpty <;> rfl
  strt := by
    intro hx
    have hx : stNext s i = .strt := hx
    show (bNext s i).items ≠ []
    rw [(b_next c h i).1]
    have hr := c.bRden
    unfold stNext at hx
    cases hst : s.st
    · rw [hst] at hx hr
      dsimp only at hx
      cases hq : s.b.items with
      | nil => rw [hq] at hx; cases hx
      | cons a t => simp [hr]
    · rw [hst] at hx; cases hx
    · rw [hst] at hx hr
      dsimp only at hx
      cases hq : s.b.items with
      | nil =>
        rw [hq] at hx
        split at hx <;> cases hx
      | cons a t => simp [hr]
  bvalid := by
    show bvalidNext s i = decide (stNext s i = .wait)
    have hv := c.bvalid
    have hr := c.bRden
    unfold bvalidNext stNext
    cases hst : s.st <;> rw [hst] at hv hr <;> dsimp only
    · rw [hv, hr]
      cases s.b.items.isEmpty <;> simp
    · rw [hv, hr]; simp
    · rw [hv, hr]
      cases i.bready
      · simp
      · cases s.b.items.isEmpty <;> simp
  wait := by
    intro hx
    have hx : stNext s i = .wait := hx
    show ∃ e, (bNext s i).last = some e
    rw [(b_next c h i).2]
    have hr := c.bRden
    unfold stNext at hx
    cases hst : s.st
    · rw [hst] at hx
      dsimp only at hx
      split at hx <;> cases hx
    · rw [hst] at hr
      have := c.strt hst
      cases hq : s.b.items with
      | nil => exact absurd hq this
      | cons a t => exact ⟨a, by simp [hr]⟩
    · rw [hst] at hr
      obtain ⟨e, he⟩ := c.wait hst
      exact ⟨e, by simp [hr, he]⟩

/-- The early output after a cycle. -/
theorem pre_next {s : RtlFifo.Regs Nat} {q : Queue Nat} (v : RtlFifo.Inv fc s q) (w r : Bool) (d : Nat)
    (hne : (q.next 16 ⟨w, r, d⟩).items ≠ []) :
    (RtlFifo.step fc s ⟨w, r, d⟩).pre = (q.next 16 ⟨w, r, d⟩).items.head? ∨ (w = true ∧ (q.next 16 ⟨w, r, d⟩).items = [d]) :=
  RtlOrder.pre_next v w r d hne

/-- When it is said to be valid. -/
theorem valid_next {s : RtlFifo.Regs Nat} {q : Queue Nat} (v : RtlFifo.Inv fc s q) (i : RtlFifo.In Nat) :
    (RtlFifo.step fc s i).preValid = (!q.items.isEmpty && !(q.next 16 i).items.isEmpty) := by
  have v' := RtlFifo.inv_step fc (by decide) rfl v i
  have e1 : q.items.isEmpty = s.empty := by
    rw [v.empty]; cases q.items <;> simp
  have e2 : (q.next 16 i).items.isEmpty = (RtlFifo.step fc s i).empty := by
    rw [v'.empty]
    show (q.next 16 i).items.isEmpty = decide ((q.next 16 i).items.length = 0)
    cases (q.next 16 i).items <;> simp
  rw [e1, e2]
  change (if ((!s.full && i.wren) && (!s.empty && i.rden)) = true then !s.empty else if (!s.full && i.wren) = true then !s.empty else
    if (!s.empty && i.rden) = true then (!s.empty && !decide (s.cnt / 2 = 0)) else !s.empty) =
    (!s.empty && !(if ((!s.full && i.wren) && (!s.empty && i.rden)) = true then s.empty else if (!s.full && i.wren) = true then false else
      if (!s.empty && i.rden) = true then (decide (s.cnt / 2 = 0) && decide (s.cnt % 2 = 1)) else s.empty))
  cases hw' : (!s.full && i.wren) <;> cases hr' : (!s.empty && i.rden)
  · simp
  · have he : s.empty = false := by
      have := (Bool.and_eq_true_iff.mp hr').1
      simpa using this
    rw [he]
    have hn : s.cnt ≠ 0 := by
      have h1 := v.empty
      rw [he] at h1
      rw [v.cnt]
      intro h0
      rw [h0] at h1
      simp at h1
    simp only [Bool.false_and, Bool.false_eq_true, if_false, if_true, Bool.not_false, Bool.true_and]
    by_cases h : s.cnt / 2 = 0
    · have : s.cnt % 2 = 1 := by omega
      simp [h, this]
    · simp [h]
  · simp
  · simp

theorem count_ofDesc (d : Nat) (l : List (Nat × ρ)) : (l.map (·.1)).count d = (ofDesc d l).length := by
  unfold ofDesc
  rw [List.count, List.countP_map, List.countP_eq_length_filter]
  congr 1

theorem ofDesc_append (d : Nat) (a b : List (Nat × ρ)) : ofDesc d (a ++ b) = ofDesc d a ++ ofDesc d b := by simp [ofDesc]

theorem ofDesc_one (d e : Nat) (r : ρ) : ofDesc d [(e, r)] = if e = d then [(e, r)] else [] := by
  by_cases h : e = d <;> simp [ofDesc, h]

end

end Verif.RtlResp
