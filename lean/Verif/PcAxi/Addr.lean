import Verif.PcAxi.Model

/-! # C47: addresses and lengths under the protocol checker -/

namespace Verif.PcAxi

/-! ## Specification -/

/-- An incrementing burst must stay within a 4 KiB page: first byte of the (aligned) first beat and last
byte of the last beat have the same page number. -/
def OnePage (addr size len : Nat) : Prop :=
  addr / 2 ^ size * 2 ^ size / 4096 = (addr / 2 ^ size * 2 ^ size + (len + 1) * 2 ^ size - 1) / 4096

/-! ## Proof -/

theorem page_eq (x y : BitVec 64) : ((x &&& ~~~(4095 : BitVec 64)) == (y &&& ~~~(4095 : BitVec 64))) =
    decide (x.toNat / 4096 = y.toNat / 4096) := by
  have hm : ∀ v : BitVec 64, (v &&& ~~~(4095 : BitVec 64)) = (v >>> 12) <<< 12 := by
    intro v
    apply BitVec.eq_of_getLsbD_eq
    intro i hi
    simp only [BitVec.getLsbD_and, BitVec.getLsbD_not, BitVec.getLsbD_shiftLeft, BitVec.getLsbD_ushiftRight, hi,
      decide_true, Bool.true_and]
    have h4 : (4095 : BitVec 64).getLsbD i = decide (i < 12) := by
      have : (4095 : BitVec 64) = BitVec.ofNat 64 (2 ^ 12 - 1) := rfl
      rw [this, BitVec.getLsbD_ofNat]
      rw [Nat.testBit_two_pow_sub_one]
      simp [hi]
    rw [h4]
    by_cases c : i < 12
    · simp [c]
    · have : 12 + (i - 12) = i := by omega
      simp [c, this]
  rw [hm, hm]
  have hn : ∀ v : BitVec 64, ((v >>> 12) <<< 12).toNat = v.toNat / 4096 * 4096 := by
    intro v
    rw [BitVec.toNat_shiftLeft, BitVec.toNat_ushiftRight, Nat.shiftLeft_eq, Nat.shiftRight_eq_div_pow]
    have := v.isLt
    rw [Nat.mod_eq_of_lt]
    · omega
  rw [Bool.eq_iff_iff, beq_iff_eq, decide_eq_true_iff, ← BitVec.toNat_inj, hn, hn]
  omega

/-- **The page check is exact**: an incrementing burst whose end does not wrap around the 64-bit address
space is reported iff it crosses a 4 KiB boundary.  All burst sizes of the protocol (1 to 128 bytes per
beat) and all lengths. -/
theorem page_checked (addr : BitVec 64) (size : Nat) (len : BitVec 8) (hs : size ≤ 7)
    (hw : addr.toNat / 2 ^ size * 2 ^ size + (len.toNat + 1) * 2 ^ size ≤ 2 ^ 64) :
    checkAlign addr 1 size len = true ↔ OnePage addr.toNat size len.toNat := by
  have hl := len.isLt
  have ha := addr.isLt
  have hp : 0 < 2 ^ size := Nat.two_pow_pos size
  have hp7 : 2 ^ size ≤ 2 ^ 7 := Nat.pow_le_pow_right (by decide) hs
  unfold checkAlign OnePage
  simp only [show ¬ ((1 : Nat) = 2) by decide, if_false, if_true]
  rw [page_eq, decide_eq_true_iff]
  have hal : (addr / BitVec.ofNat 64 (2 ^ size) * BitVec.ofNat 64 (2 ^ size)).toNat = addr.toNat / 2 ^ size * 2 ^ size := by
    have h1 : (BitVec.ofNat 64 (2 ^ size)).toNat = 2 ^ size := by
      rw [BitVec.toNat_ofNat, Nat.mod_eq_of_lt (by omega)]
    rw [BitVec.toNat_mul, BitVec.toNat_udiv, h1]
    have := Nat.div_mul_le_self addr.toNat (2 ^ size)
    exact Nat.mod_eq_of_lt (by omega)
  have hb : (len.toNat + 1) * 2 ^ size ≤ 256 * 2 ^ 7 := Nat.mul_le_mul (by omega) hp7
  have hb0 : 0 < (len.toNat + 1) * 2 ^ size := Nat.mul_pos (by omega) hp
  have hla : (addr / BitVec.ofNat 64 (2 ^ size) * BitVec.ofNat 64 (2 ^ size) +
      BitVec.ofNat 64 ((len.toNat + 1) * 2 ^ size) - 1).toNat =
      addr.toNat / 2 ^ size * 2 ^ size + (len.toNat + 1) * 2 ^ size - 1 := by
    rw [BitVec.toNat_sub, BitVec.toNat_add, hal, BitVec.toNat_ofNat]
    have : (1 : BitVec 64).toNat = 1 := rfl
    rw [this]
    generalize addr.toNat / 2 ^ size * 2 ^ size = a at *
    generalize (len.toNat + 1) * 2 ^ size = b at *
    omega
  rw [hal, hla]

/-- **The alignment check of wrapping bursts is exact.** -/
theorem wrap_alignment_checked (addr : BitVec 64) (size : Nat) (len : BitVec 8) (hs : size ≤ 7) :
    checkAlign addr 2 size len = true ↔ addr.toNat % 2 ^ size = 0 := by
  have ha := addr.isLt
  have hp7 : 2 ^ size ≤ 2 ^ 7 := Nat.pow_le_pow_right (by decide) hs
  unfold checkAlign
  simp only [if_true, beq_iff_eq]
  rw [← BitVec.toNat_inj]
  have h1 : (BitVec.ofNat 64 (2 ^ size)).toNat = 2 ^ size := by
    rw [BitVec.toNat_ofNat, Nat.mod_eq_of_lt (by omega)]
  rw [BitVec.toNat_mul, BitVec.toNat_udiv, h1]
  have := Nat.div_mul_le_self addr.toNat (2 ^ size)
  rw [Nat.mod_eq_of_lt (by omega)]
  have hd := Nat.div_add_mod addr.toNat (2 ^ size)
  rw [Nat.mul_comm] at hd
  omega

/-- **Only the low 32 bits of a read address are looked at, and that does not change the verdict** on a
burst that does not end beyond the 64-bit address space. -/
theorem read_truncation_harmless (addr : BitVec 64) (burst size : Nat) (len : BitVec 8) (hs : size ≤ 7)
    (hw : addr.toNat / 2 ^ size * 2 ^ size + (len.toNat + 1) * 2 ^ size ≤ 2 ^ 64) :
    checkAlign (readAddr addr) burst size len = checkAlign addr burst size len := by
  have hl := len.isLt
  have ha := addr.isLt
  have hp : 0 < 2 ^ size := Nat.two_pow_pos size
  have hp7 : 2 ^ size ≤ 2 ^ 7 := Nat.pow_le_pow_right (by decide) hs
  have hr : (readAddr addr).toNat = addr.toNat % 2 ^ 32 := by
    unfold readAddr
    rw [BitVec.toNat_ofNat, Nat.mod_eq_of_lt]
    have := Nat.mod_lt addr.toNat (show 0 < 2 ^ 32 by decide)
    omega
  have hb : (len.toNat + 1) * 2 ^ size ≤ 256 * 2 ^ 7 := Nat.mul_le_mul (by omega) hp7
  by_cases c2 : burst = 2
  · subst c2
    rw [Bool.eq_iff_iff, wrap_alignment_checked _ _ _ hs, wrap_alignment_checked _ _ _ hs, hr]
    have hd : (2 : Nat) ^ size ∣ 2 ^ 32 := Nat.pow_dvd_pow 2 (by omega)
    rw [Nat.mod_mod_of_dvd _ hd]
  · by_cases c1 : burst = 1
    · subst c1
      have hle := Nat.div_mul_le_self (addr.toNat % 2 ^ 32) (2 ^ size)
      rw [Bool.eq_iff_iff, page_checked addr size len hs hw, page_checked (readAddr addr) size len hs (by
        rw [hr]
        have := Nat.mod_lt addr.toNat (show 0 < 2 ^ 32 by decide)
        omega), hr]
      unfold OnePage
      have hq : addr.toNat / 2 ^ size * 2 ^ size =
          addr.toNat / 2 ^ 32 * 2 ^ 32 + addr.toNat % 2 ^ 32 / 2 ^ size * 2 ^ size := by
        have e32 : (2 : Nat) ^ 32 = 2 ^ (32 - size) * 2 ^ size := by
          rw [← Nat.pow_add]; congr 1; omega
        have hd := Nat.div_add_mod addr.toNat (2 ^ 32)
        generalize hx : addr.toNat / 2 ^ 32 = x at *
        generalize hy : addr.toNat % 2 ^ 32 = y at *
        rw [← hd, e32]
        have e : 2 ^ (32 - size) * 2 ^ size * x = 2 ^ size * (2 ^ (32 - size) * x) := by
          rw [Nat.mul_comm (2 ^ (32 - size)), Nat.mul_assoc]
        rw [e, Nat.mul_add_div hp, Nat.add_mul]
        congr 1
        rw [Nat.mul_comm x, Nat.mul_assoc, Nat.mul_assoc, Nat.mul_comm (2 ^ size) x]
      rw [hq]
      have hb0 : 0 < (len.toNat + 1) * 2 ^ size := Nat.mul_pos (by omega) hp
      generalize (len.toNat + 1) * 2 ^ size = b at *
      generalize addr.toNat % 2 ^ 32 / 2 ^ size * 2 ^ size = a at *
      generalize addr.toNat / 2 ^ 32 = x at *
      omega
    · unfold checkAlign
      simp [c1, c2]

/-- **The length check of wrapping bursts is exact**: 2, 4, 8 and 16 beats. -/
theorem wrap_length_checked (len : Nat) :
    checkLen 2 len = true ↔ ∃ k, 1 ≤ k ∧ k ≤ 4 ∧ len + 1 = 2 ^ k := by
  unfold checkLen
  simp only [if_true, Bool.or_eq_true, beq_iff_eq]
  constructor
  · rintro (((h | h) | h) | h)
    · exact ⟨1, by decide, by decide, h⟩
    · exact ⟨2, by decide, by decide, h⟩
    · exact ⟨3, by decide, by decide, h⟩
    · exact ⟨4, by decide, by decide, h⟩
  · rintro ⟨k, h1, h2, h3⟩
    have : k = 1 ∨ k = 2 ∨ k = 3 ∨ k = 4 := by omega
    rcases this with rfl | rfl | rfl | rfl <;> simp_all

/-- **Not checked**: fixed bursts of more than 16 beats, and the reserved burst type. -/
theorem fixed_length_unchecked : checkLen 0 255 = true ∧ checkAlign 0 0 0 255 = true ∧
    checkLen 3 255 = true ∧ checkAlign 1 3 7 255 = true := by decide

example : checkAlign 0xff8 1 3 0 = true ∧ checkAlign 0xff8 1 3 1 = false ∧ checkAlign 0xffc 2 3 1 = false := by decide
example : OnePage 0xff8 3 0 ∧ ¬ OnePage 0xff8 3 1 := by unfold OnePage; decide

end Verif.PcAxi
