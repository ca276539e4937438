import Verif.RtlIrq.Spec

/-! The invariant of the flit status. -/

namespace Verif.RtlIrq

open Verif.RtlTx (Kind)

structure Inv (k : Kind) (w : World) : Prop where
  pos : 1 ≤ w.since
  clear : ∀ j, w.s.clear j = true → w.since = 1 ∧ w.s.status j = true
  sent : w.since ≠ 2 → ∀ j, isTx k j = true → w.s.status j = true → w.s.sent j = true

theorem inv_start (k : Kind) : Inv k World.start :=
  ⟨by decide, fun _ h => (by cases h), fun _ _ _ h => (by cases h)⟩

theorem inv_next {k : Kind} {w : World} {i : In} (h : Inv k w) (g : Good w i) : Inv k (w.next k i) := by
  have zero : w.since ≠ 1 → ∀ j, w.s.clear j = false := by
    intro hs j
    cases e : w.s.clear j with
    | false => rfl
    | true => exact absurd (h.clear j e).1 hs
  have hsi : (w.next k i).since = if i.wr then 1 else w.since + 1 := rfl
  have hst : ∀ j, (w.next k i).s.status j = statusNext k w.s i j := fun _ => rfl
  have hse : ∀ j, (w.next k i).s.sent j = sentNext w.s i j := fun _ => rfl
  have hcl : ∀ j, (w.next k i).s.clear j = clearNext w.s i j := fun _ => rfl
  refine ⟨by rw [hsi]; split <;> omega, ?_, ?_⟩
  · intro j hj
    rw [hcl, clearNext] at hj
    cases hw : i.wr with
    | false =>
      rw [hw] at hj
      simp only [Bool.false_eq_true, if_false] at hj
      cases e : w.s.clear j with
      | false => simp [e] at hj
      | true => simp [e, (h.clear j e).2] at hj
    | true =>
      have h3 := g.gap hw
      have z := zero (by omega)
      rw [hw] at hj
      simp only [if_true] at hj
      refine ⟨by rw [hsi, hw]; rfl, ?_⟩
      cases hc : i.clear with
      | none => rw [hc] at hj; simp [z j] at hj
      | some v =>
        rw [hc] at hj
        have hs := g.set v hw hc j hj
        rw [hst, statusNext, z (clears k j)]
        simp only [Bool.false_eq_true, if_false]
        split
        · next ht => exact h.sent (by omega) j ht hs
        · split
          · rfl
          · exact hs
  · intro hne j ht hs
    have h1 : w.since ≠ 1 := by
      intro e
      rw [hsi] at hne
      cases hw : i.wr with
      | false => rw [hw] at hne; simp at hne; omega
      | true => have := g.gap hw; omega
    have z := zero h1
    rw [hst, statusNext, z, ht] at hs
    simp only [Bool.false_eq_true, if_false, if_true] at hs
    rw [hse, sentNext, z, hs]
    simp

theorem inv_run {k : Kind} (t : List In) {w : World} (h : Inv k w) (g : All k w t) : Inv k (w.run k t) := by
  induction t generalizing w with
  | nil => exact h
  | cons i t ih => exact ih (inv_next h g.1) g.2

theorem zero {k : Kind} {w : World} (h : Inv k w) (hs : w.since ≠ 1) (j : Nat) : w.s.clear j = false := by
  cases e : w.s.clear j with
  | false => rfl
  | true => exact absurd (h.clear j e).1 hs

end Verif.RtlIrq
