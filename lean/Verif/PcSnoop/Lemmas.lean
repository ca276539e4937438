import Verif.PcSnoop.Spec

namespace Verif.PcSnoop

theorem run_hs (mx : Nat) (m : Mon) (v r inc : Bool) : (m.run mx v r inc).2.1 = (v && r) := by
  unfold Mon.run
  cases v <;> cases r <;> rfl

theorem not_hang (P : Prop) [Decidable P] :
    Err.validHang ∉ (if P then [Err.readyHang] else []) := by
  by_cases h : P
  · rw [if_pos h]; decide
  · rw [if_neg h]; decide

theorem count_le (f : Cyc → Bool) (h : List Cyc) : count f h ≤ h.length := by
  induction h with
  | nil => exact Nat.le_refl _
  | cons c h ih =>
    simp only [count, List.length_cons]
    split
    · omega
    · split <;> omega

/-- `m_cr` is what is owed, modulo `2^32`. -/
theorem ncr_eq (mx per : Nat) (h : List Cyc) :
    (after mx per h).ncr < 2 ^ 32 ∧
    ((after mx per h).ncr + count crHs h) % 2 ^ 32 = count acHs h % 2 ^ 32 := by
  induction h with
  | nil => exact ⟨by simp [after], rfl⟩
  | cons c h ih =>
    obtain ⟨h1, h2⟩ := ih
    rcases c with ⟨rst, acv, acr, crv, crr, data, cdv, cdr⟩
    simp only [after, step, count, run_hs, nextCr, inc32, dec32, acHs, crHs]
    generalize (after mx per h).ncr = n at *
    generalize count acHs h = a at *
    generalize count crHs h = b at *
    cases rst
    · cases acv <;> cases acr <;> cases crv <;> cases crr <;>
        simp only [Bool.and_true, Bool.and_false, Bool.false_eq_true, if_false, if_true] <;> omega
    · simp

/-- `m_cd` is what is owed, modulo `2^32`. -/
theorem ncd_eq (mx per : Nat) (h : List Cyc) :
    (after mx per h).ncd < 2 ^ 32 ∧
    ((after mx per h).ncd + count cdHs h) % 2 ^ 32 = (per * count crdHs h) % 2 ^ 32 := by
  induction h with
  | nil => exact ⟨by simp [after], rfl⟩
  | cons c h ih =>
    obtain ⟨h1, h2⟩ := ih
    rcases c with ⟨rst, acv, acr, crv, crr, data, cdv, cdr⟩
    simp only [after, step, count, run_hs, nextCd, dec32, crdHs, cdHs]
    generalize (after mx per h).ncd = n at *
    generalize count crdHs h = a at *
    generalize count cdHs h = b at *
    cases rst
    · cases crv <;> cases crr <;> cases data <;> cases cdv <;> cases cdr <;>
        simp only [Bool.and_true, Bool.and_false, Bool.false_eq_true, if_false, if_true, Nat.mul_add,
          Nat.mul_one] <;> omega
    · simp

theorem crWait_iff (mx per : Nat) (h : List Cyc) (ho : Orderly per h) (hl : h.length < 2 ^ 32) :
    0 < (after mx per h).ncr ↔ OwesCr h := by
  obtain ⟨h1, h2⟩ := ncr_eq mx per h
  have h3 : count crHs h ≤ count acHs h := by
    cases h with
    | nil => exact Nat.le_refl _
    | cons c h => exact ho.1
  have h4 := count_le acHs h
  unfold OwesCr
  omega

theorem cdWait_iff (mx per : Nat) (h : List Cyc) (ho : Orderly per h)
    (hl : per * h.length < 2 ^ 32) : 0 < (after mx per h).ncd ↔ OwesCd per h := by
  obtain ⟨h1, h2⟩ := ncd_eq mx per h
  have h3 : count cdHs h ≤ per * count crdHs h := by
    cases h with
    | nil => exact Nat.zero_le _
    | cons c h => exact ho.2.1
  have h4 := Nat.mul_le_mul_left per (count_le crdHs h)
  unfold OwesCd
  omega

theorem waitedCr_le (h : List Cyc) : waitedCr h ≤ h.length := by
  induction h with
  | nil => exact Nat.le_refl _
  | cons c h ih =>
    simp only [waitedCr, List.length_cons]
    split
    · omega
    · split <;> omega

theorem waitedCd_le (per : Nat) (h : List Cyc) : waitedCd per h ≤ h.length := by
  induction h with
  | nil => exact Nat.le_refl _
  | cons c h ih =>
    simp only [waitedCd, List.length_cons]
    split
    · omega
    · split <;> omega

theorem heldCr_le (h : List Cyc) : heldCr h ≤ h.length := by
  induction h with
  | nil => exact Nat.le_refl _
  | cons c h ih =>
    simp only [heldCr, List.length_cons]
    split
    · omega
    · split <;> omega

theorem cr_vw (mx per : Nat) (h : List Cyc) (ho : Orderly per h) (hl : h.length < 2 ^ 32) :
    (after mx per h).cr.vw = waitedCr h := by
  induction h with
  | nil => rfl
  | cons c h ih =>
    simp only [List.length_cons] at hl
    have hi := ih ho.2.2 (by omega)
    have hw := crWait_iff mx per h ho.2.2 (by omega)
    have hb := waitedCr_le h
    rcases c with ⟨rst, acv, acr, crv, crr, data, cdv, cdr⟩
    simp only [after, step, waitedCr]
    cases rst
    · simp only [Bool.false_eq_true, if_false, Mon.run, crHs, inc32]
      by_cases e : OwesCr h
      · have e' := hw.2 e
        cases crv <;> cases crr <;> simp [e, e', hi] <;> omega
      · have e' : ¬ 0 < (after mx per h).ncr := fun x => e (hw.1 x)
        cases crv <;> cases crr <;> simp [e, e', hi]
    · simp

theorem cd_vw (mx per : Nat) (h : List Cyc) (ho : Orderly per h) (hl : h.length < 2 ^ 32)
    (hp : per * h.length < 2 ^ 32) : (after mx per h).cd.vw = waitedCd per h := by
  induction h with
  | nil => rfl
  | cons c h ih =>
    simp only [List.length_cons] at hl hp
    have hp' : per * h.length < 2 ^ 32 :=
      Nat.lt_of_le_of_lt (Nat.mul_le_mul_left per (Nat.le_succ _)) hp
    have hi := ih ho.2.2 (by omega) hp'
    have hw := cdWait_iff mx per h ho.2.2 hp'
    have hb := waitedCd_le per h
    rcases c with ⟨rst, acv, acr, crv, crr, data, cdv, cdr⟩
    simp only [after, step, waitedCd]
    cases rst
    · simp only [Bool.false_eq_true, if_false, Mon.run, cdHs, inc32]
      by_cases e : OwesCd per h
      · have e' := hw.2 e
        cases cdv <;> cases cdr <;> simp [e, e', hi] <;> omega
      · have e' : ¬ 0 < (after mx per h).ncd := fun x => e (hw.1 x)
        cases cdv <;> cases cdr <;> simp [e, e', hi]
    · simp

theorem cr_rw (mx per : Nat) (h : List Cyc) (hl : h.length < 2 ^ 32) :
    (after mx per h).cr.rw = heldCr h := by
  induction h with
  | nil => rfl
  | cons c h ih =>
    simp only [List.length_cons] at hl
    have hi := ih (by omega)
    have hb := heldCr_le h
    rcases c with ⟨rst, acv, acr, crv, crr, data, cdv, cdr⟩
    simp only [after, step, heldCr]
    cases rst
    · simp only [Bool.false_eq_true, if_false, Mon.run, crHs, inc32]
      cases crv <;> cases crr <;> simp [hi] <;> omega
    · simp

theorem heldAc_le (h : List Cyc) : heldAc h ≤ h.length := by
  induction h with
  | nil => exact Nat.le_refl _
  | cons c h ih =>
    simp only [heldAc, List.length_cons]
    split
    · omega
    · split <;> omega

theorem ac_rw (mx per : Nat) (h : List Cyc) (hl : h.length < 2 ^ 32) :
    (after mx per h).ac.rw = heldAc h := by
  induction h with
  | nil => rfl
  | cons c h ih =>
    simp only [List.length_cons] at hl
    have hi := ih (by omega)
    have hb := heldAc_le h
    rcases c with ⟨rst, acv, acr, crv, crr, data, cdv, cdr⟩
    simp only [after, step, heldAc]
    cases rst
    · simp only [Bool.false_eq_true, if_false, Mon.run, acHs, inc32]
      cases acv <;> cases acr <;> simp [hi] <;> omega
    · simp

theorem heldCd_le (h : List Cyc) : heldCd h ≤ h.length := by
  induction h with
  | nil => exact Nat.le_refl _
  | cons c h ih =>
    simp only [heldCd, List.length_cons]
    split
    · omega
    · split <;> omega

theorem cd_rw (mx per : Nat) (h : List Cyc) (hl : h.length < 2 ^ 32) :
    (after mx per h).cd.rw = heldCd h := by
  induction h with
  | nil => rfl
  | cons c h ih =>
    simp only [List.length_cons] at hl
    have hi := ih (by omega)
    have hb := heldCd_le h
    rcases c with ⟨rst, acv, acr, crv, crr, data, cdv, cdr⟩
    simp only [after, step, heldCd]
    cases rst
    · simp only [Bool.false_eq_true, if_false, Mon.run, cdHs, inc32]
      cases cdv <;> cases cdr <;> simp [hi] <;> omega
    · simp

end Verif.PcSnoop
