import Verif.RtlTx.Lemmas

/-! Every cycle keeps the invariant. -/

namespace Verif.RtlTx

/-- The number of flits read from the RAM after the cycle. -/
def passed {α : Type} (w : World α) (p : Nat) : Nat := if w.s.st = .wait then p + 1 else p

section
variable {α : Type} {k : Kind} {w : World α} {i : In α} {p g1 : Nat}

theorem sending_eq (h : Inv w p g1) (c : Calm w i) : sending k w.s i = decide (w.s.st = .check) := by
  have hv := h.valid
  cases k with
  | chi => exact hv
  | cxs =>
    simp only [sending]
    by_cases e : w.s.st = .check
    · have hv' : w.s.valid = true := by rw [hv]; simpa using e
      rw [c.up (Or.inr hv'), hv']; simp [e]
    · rw [hv]; simp [e]

theorem dec_eq (h : Inv w p g1) (c : Calm w i) : dec k w.s i = decide (w.s.st = .check) := by
  have hs := sending_eq (k := k) h c
  obtain ⟨c1, c2, c3⟩ := c.live
  cases k <;> simp [dec, hs, c1, c2]

theorem v_eq (h : Inv w p g1) (c : Calm w i) : vNext k w.s i = decide (w.s.st = .check) := by
  have hs := sending_eq (k := k) h c
  obtain ⟨c1, c2, c3⟩ := c.live
  cases k <;> simp [vNext, hs, c1, c2]

theorem rtn_eq (c : Calm w i) : rtnNext k w.s i = false := by
  obtain ⟨c1, c2, c3⟩ := c.live
  cases k <;> simp [rtnNext, c2, c3]

theorem st_eq (c : Calm w i) : stNext w.s i =
    match w.s.st with
    | .idle => if w.s.prg && w.s.avail then .read else .idle
    | .read => if w.s.prg && w.s.avail then .wait else .idle
    | .wait => .send
    | .send => .check
    | .check => if w.s.prg && w.s.avail then .read else .idle := by
  unfold stNext
  cases e : w.s.st <;> simp
  have := c.up (Or.inl e)
  simp [this]

/-- Not after a wait or a send: the state is one of the first three. -/
theorem st_low (c : Calm w i) (e1 : w.s.st ≠ .wait) (e2 : w.s.st ≠ .send) :
    stNext w.s i ≠ .send ∧ stNext w.s i ≠ .check := by
  rw [st_eq c]
  cases e : w.s.st <;> simp_all <;> split <;> simp

theorem given_le (h : Inv w p g1) (g : Good w i) :
    w.given.length + (gives w i).length ≤ p + 15 ∧
    (w.s.st = .send → w.given.length + (gives w i).length ≤ p + 14) := by
  obtain ⟨o1, o2, o3⟩ := h.ordered
  have hn := gives_le g
  have key : ∀ j, w.given.length ≤ j → j < w.given.length + (gives w i).length →
      w.s.own (j % 15) = false ∧ w.s.flip (j % 15) = false := by
    intro j h1 h2
    exact ((flip_step g (j % 15) (Nat.mod_lt _ (by omega))).1 (by unfold Seg; omega)).2
  constructor
  · by_cases hp : p = w.given.length
    · omega
    · by_cases hc : w.given.length + (gives w i).length ≤ p + 15
      · exact hc
      · exfalso
        obtain ⟨k1, k2⟩ := key (p + 15) (by omega) (by omega)
        have hlt : (p + 15) % 15 < 15 := Nat.mod_lt _ (by omega)
        by_cases hg : p < g1
        · have := (h.own _ hlt).2 (Or.inl (by unfold Seg; omega))
          rw [this] at k1; cases k1
        · have := (h.fresh _ hlt (by unfold Seg; omega)).1
          rw [this] at k2; cases k2
  · intro e
    obtain ⟨b1, b2⟩ := h.busy (Or.inl e)
    by_cases hc : w.given.length + (gives w i).length ≤ p + 14
    · exact hc
    · exfalso
      obtain ⟨k1, k2⟩ := key (p + 14) (by omega) (by omega)
      have hlt : (p + 14) % 15 < 15 := Nat.mod_lt _ (by omega)
      have := (h.own _ hlt).2 (Or.inr ⟨e, rfl⟩)
      rw [this] at k1; cases k1

/-- Who owns what after the cycle. -/
theorem own_step (h : Inv w p g1) (c : Calm w i) (j : Nat) (hj : j < 15) :
    ownNext w.s j = true ↔
      Seg (passed w p) w.given.length j ∨ (stNext w.s i = .send ∧ j = (passed w p + 14) % 15) := by
  obtain ⟨o1, o2, o3⟩ := h.ordered
  have ho := h.own j hj
  have hf := h.flip j hj
  have hr := h.fresh j hj
  have hu := h.upd j hj
  have hb := h.busy
  have hst := st_eq c
  unfold ownNext passed
  have low := st_low c
  cases e : w.s.st with
  | wait =>
    have hw := h.wait e
    rw [e] at ho hu hst
    simp only [reduceCtorEq, or_self, false_and, or_false, iff_false, Bool.not_eq_true] at ho hu
    simp only [hst, if_true, true_and]
    cases hoo : w.s.own j with
    | true =>
      have := ho.1 hoo
      simp only [if_true, hu, Bool.not_false, true_iff]
      unfold Seg at *; omega
    | false =>
      simp only [Bool.false_eq_true, if_false]
      have hn : ¬ Seg p g1 j := fun x => by rw [ho.2 x] at hoo; cases hoo
      cases hff : w.s.flip j with
      | true =>
        rcases hf hff with x | x
        · rw [x] at hoo; cases hoo
        · simp only [true_iff]; unfold Seg at *; omega
      | false =>
        have : ¬ Seg g1 w.given.length j := fun x => by rw [(hr x).1] at hff; cases hff
        simp only [Bool.false_eq_true, false_iff]; unfold Seg at *; omega
  | send =>
    rw [e] at ho hu hst
    obtain ⟨b1, b2⟩ := hb (Or.inl e)
    simp only [reduceCtorEq, true_or, or_false, true_and] at ho hu
    simp only [hst, reduceCtorEq, if_false, false_and, or_false]
    cases hoo : w.s.own j with
    | true =>
      have := ho.1 hoo
      simp only [if_true]
      cases huu : w.s.upd j with
      | true => have := hu.1 huu; simp only [Bool.not_true, Bool.false_eq_true, false_iff]; unfold Seg at *; omega
      | false =>
        have hn : ¬ j = (p + 14) % 15 := fun x => by rw [hu.2 x] at huu; cases huu
        simp only [Bool.not_false, true_iff]; unfold Seg at *; omega
    | false =>
      simp only [Bool.false_eq_true, if_false]
      have hn : ¬ (Seg p g1 j ∨ j = (p + 14) % 15) := fun x => by rw [ho.2 x] at hoo; cases hoo
      cases hff : w.s.flip j with
      | true =>
        rcases hf hff with x | x
        · rw [x] at hoo; cases hoo
        · simp only [true_iff]; unfold Seg at *; omega
      | false =>
        have : ¬ Seg g1 w.given.length j := fun x => by rw [(hr x).1] at hff; cases hff
        simp only [Bool.false_eq_true, false_iff]; unfold Seg at *; omega
  | check =>
    rw [e] at ho hu
    obtain ⟨b1, b2⟩ := hb (Or.inr e)
    have l := (low (by simp [e]) (by simp [e])).1
    simp only [reduceCtorEq, or_true, false_and, or_false, true_and] at ho hu
    simp only [reduceCtorEq, if_false, l, false_and, or_false]
    cases hoo : w.s.own j with
    | true =>
      have := ho.1 hoo
      simp only [if_true]
      cases huu : w.s.upd j with
      | true => have := hu.1 huu; simp only [Bool.not_true, Bool.false_eq_true, false_iff]; unfold Seg at *; omega
      | false => simp only [Bool.not_false, true_iff]; unfold Seg at *; omega
    | false =>
      simp only [Bool.false_eq_true, if_false]
      have hn : ¬ Seg p g1 j := fun x => by rw [ho.2 x] at hoo; cases hoo
      cases hff : w.s.flip j with
      | true =>
        rcases hf hff with x | x
        · rw [x] at hoo; cases hoo
        · simp only [true_iff]; unfold Seg at *; omega
      | false =>
        have : ¬ Seg g1 w.given.length j := fun x => by rw [(hr x).1] at hff; cases hff
        simp only [Bool.false_eq_true, false_iff]; unfold Seg at *; omega
  | _ =>
    rw [e] at ho hu
    have l := (low (by simp [e]) (by simp [e])).1
    simp only [reduceCtorEq, or_self, false_and, or_false, iff_false, Bool.not_eq_true] at ho hu
    simp only [reduceCtorEq, if_false, l, false_and, or_false]
    cases hoo : w.s.own j with
    | true =>
      have := ho.1 hoo
      simp only [if_true, hu, Bool.not_false, true_iff]
      unfold Seg at *; omega
    | false =>
      simp only [Bool.false_eq_true, if_false]
      have hn : ¬ Seg p g1 j := fun x => by rw [ho.2 x] at hoo; cases hoo
      cases hff : w.s.flip j with
      | true =>
        rcases hf hff with x | x
        · rw [x] at hoo; cases hoo
        · simp only [true_iff]; unfold Seg at *; omega
      | false =>
        have : ¬ Seg g1 w.given.length j := fun x => by rw [(hr x).1] at hff; cases hff
        simp only [Bool.false_eq_true, false_iff]; unfold Seg at *; omega

/-- An owned place which the state machine does not take back stays owned. -/
theorem own_keep (h : Inv w p g1) (j : Nat) (hj : j < 15) (ho : w.s.own j = true)
    (hn : ¬(w.s.st = .send ∧ j = (p + 14) % 15)) : ownNext w.s j = true := by
  unfold ownNext
  rw [ho]
  simp only [if_true, Bool.not_eq_true']
  cases hu : w.s.upd j with
  | false => rfl
  | true =>
    exfalso
    obtain ⟨a, b⟩ := (h.upd j hj).1 hu
    rcases a with a | a
    · exact hn ⟨a, b⟩
    · obtain ⟨b1, b2⟩ := h.busy (Or.inr a)
      have o := h.ordered
      rcases (h.own j hj).1 ho with x | ⟨x, _⟩
      · unfold Seg at x; omega
      · rw [a] at x; cases x

end

end Verif.RtlTx
