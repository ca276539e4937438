import Verif.AceHw.Spec
import Verif.HwMaster.Core

/-! # Bytes through words, fields through registers -/

namespace Verif.AceHw
open Verif Verif.Axi
open Verif.HwMaster (write32 read32 axsizeOf)

theorem wordOf_byte : ∀ (d : List Byte) (sh k : Nat), sh % 8 = 0 → sh + 8 * d.length ≤ 32 → k < 4 →
    (wordOf sh d).extractLsb' (k * 8) 8 = if sh ≤ k * 8 then d.getD (k - sh / 8) 0 else 0 := by
  intro d
  induction d with
  | nil => intro sh k _ _ _; simp [wordOf]
  | cons b bs ih =>
    intro sh k h8 hl hk
    rw [List.length_cons] at hl
    have ih' := ih (sh + 8) k (by omega) (by omega) hk
    have hor : (wordOf sh (b :: bs)).extractLsb' (k * 8) 8 =
        (b.setWidth 32 <<< sh).extractLsb' (k * 8) 8 ||| (wordOf (sh + 8) bs).extractLsb' (k * 8) 8 := by
      rw [wordOf]
      ext i hi
      simp
    have h1 : (b.setWidth 32 <<< sh).extractLsb' (k * 8) 8 = if k * 8 = sh then b else 0 := by
      ext i hi
      simp only [BitVec.getElem_extractLsb', BitVec.getLsbD_shiftLeft, BitVec.getLsbD_setWidth]
      by_cases h : k * 8 = sh
      · rw [if_pos h]
        subst h
        simp [show k * 8 + i < 32 by omega, show ¬ (k * 8 + i < k * 8) by omega, show k * 8 + i - k * 8 = i by omega,
          show i < 32 by omega, BitVec.getLsbD_eq_getElem hi]
      · rw [if_neg h]
        by_cases h2 : k * 8 + i < sh
        · simp [h2]
        · have : b.getLsbD (k * 8 + i - sh) = false := BitVec.getLsbD_of_ge _ _ (by omega)
          simp [this]
    rw [hor, h1, ih']
    by_cases h : k * 8 = sh
    · rw [if_pos h, if_neg (by omega), if_pos (by omega), show k - sh / 8 = 0 by omega]
      simp
    · rw [if_neg h]
      by_cases h2 : sh + 8 ≤ k * 8
      · rw [if_pos h2, if_pos (by omega), show k - sh / 8 = k - (sh + 8) / 8 + 1 by omega]
        simp
      · rw [if_neg h2, if_neg (by omega)]
        simp

theorem write32_word (f : Nat → Byte) (a : Nat) (d : List Byte) (hd : d.length ≤ 4) (i : Nat) :
    write32 f a (wordOf 0 d) i = if a ≤ i ∧ i < a + 4 then d.getD (i - a) 0 else f i := by
  unfold write32
  by_cases h : a ≤ i ∧ i < a + 4
  · rw [if_pos h, if_pos h, wordOf_byte d 0 (i - a) (by omega) (by omega) (by omega), if_pos (by omega)]
    simp
  · rw [if_neg h, if_neg h]

/-- What pushing bytes leaves: the bytes, zeros up to the end of the last word, and
everything else as it was. -/
theorem pushBytes_get : ∀ (n : Nat) (f : Nat → Byte) (a : Nat) (d : List Byte) (i : Nat), d.length ≤ n →
    pushBytes f a d i = if a ≤ i ∧ i < a + (d.length + 3) / 4 * 4 then d.getD (i - a) 0 else f i := by
  intro n
  induction n with
  | zero =>
    intro f a d i h
    have : d = [] := List.length_eq_zero_iff.mp (by omega)
    subst this
    rw [pushBytes, if_pos rfl, if_neg (by simp)]
  | succ n ih =>
    intro f a d i h
    by_cases hd : d = []
    · subst hd
      rw [pushBytes, if_pos rfl, if_neg (by simp)]
    · have hp := List.length_pos_iff.mpr hd
      rw [pushBytes, if_neg hd, ih _ _ _ _ (by rw [List.length_drop]; omega), List.length_drop,
        write32_word _ _ _ (by rw [List.length_take]; omega)]
      by_cases h1 : a + 4 ≤ i ∧ i < a + 4 + (d.length - 4 + 3) / 4 * 4
      · rw [if_pos h1, if_pos (by omega)]
        rw [List.getD_eq_getElem?_getD, List.getD_eq_getElem?_getD, List.getElem?_drop, show 4 + (i - (a + 4)) = i - a by omega]
      · rw [if_neg h1]
        by_cases h2 : a ≤ i ∧ i < a + 4
        · rw [if_pos h2, if_pos (by omega)]
          rw [List.getD_eq_getElem?_getD, List.getD_eq_getElem?_getD, List.getElem?_take, if_pos (by omega)]
        · rw [if_neg h2, if_neg (by omega)]

theorem wordBytes_eq (f : Nat → Byte) (a k n : Nat) (h : k + n ≤ 4) :
    wordBytes (read32 f a) k n = (List.range n).map fun i => f (a + k + i) := by
  unfold wordBytes
  rw [List.range_eq_range']
  have : List.range' k n = (List.range' 0 n).map (k + ·) := by
    rw [List.map_add_range']; rfl
  rw [this, List.map_map]
  apply List.map_congr_left
  intro i hi
  rw [List.mem_range'_1] at hi
  simp only [Function.comp]
  rw [HwMaster.read32_byte f a (k + i) (by omega), Nat.add_assoc]

theorem range_split (f : Nat → Byte) (n k a : Nat) (h : n ≤ k) :
    ((List.range n).map fun i => f (a + i)) ++ ((List.range (k - n)).map fun i => f (a + n + i)) =
      (List.range k).map fun i => f (a + i) := by
  apply List.ext_getElem (by simp; omega)
  intro i h1 h2
  rw [List.getElem_append]
  simp only [List.length_map, List.length_range, List.getElem_map, List.getElem_range]
  split
  · rfl
  · rw [show a + n + (i - n) = a + i by omega]

theorem popWords_eq : ∀ (n : Nat) (f : Nat → Byte) (a len : Nat), len ≤ n →
    popWords f a len = (List.range len).map fun i => f (a + i) := by
  intro n
  induction n with
  | zero =>
    intro f a len h
    have : len = 0 := by omega
    subst this
    rw [popWords, if_pos rfl]; rfl
  | succ n ih =>
    intro f a len h
    by_cases h0 : len = 0
    · subst h0; rw [popWords, if_pos rfl]; rfl
    · rw [popWords, if_neg h0, wordBytes_eq _ _ _ _ (by omega), ih _ _ _ (by omega)]
      by_cases h4 : len ≤ 4
      · rw [show min len 4 = len by omega, Nat.sub_self]
        simp
      · rw [show min len 4 = 4 by omega]
        exact range_split f 4 len a (by omega)

/-- Every byte of the memory is taken from its place, whatever the offset. -/
theorem popBytes_eq (f : Nat → Byte) (off len : Nat) (h : 0 < len ∨ off % 4 = 0) :
    popBytes f off len = (List.range len).map fun i => f (off + i) := by
  unfold popBytes
  by_cases h4 : off % 4 = 0
  · rw [if_neg (by simp [h4]), popWords_eq len f off len (Nat.le_refl _)]
  · rw [if_pos h4]
    have hl : 0 < len := by rcases h with h | h; exact h; exact absurd h h4
    simp only
    rw [wordBytes_eq _ _ _ _ (by omega), popWords_eq _ _ _ _ (Nat.le_refl _), show off - off % 4 + off % 4 = off by omega]
    by_cases h5 : len ≤ 4 - off % 4
    · rw [show max 1 (min len (4 - off % 4)) = len by omega, Nat.sub_self]
      simp
    · rw [show max 1 (min len (4 - off % 4)) = 4 - off % 4 by omega, show off - off % 4 + 4 = off + (4 - off % 4) by omega]
      exact range_split f _ len off (by omega)

/-! ## Fields -/

theorem getLsbD_genF (shift k : Nat) (v : BitVec 8) (i : Nat) :
    (genF shift (2 ^ k - 1) v).getLsbD i = (decide (i < 32) && decide (shift ≤ i) && decide (i - shift < k) && v.getLsbD (i - shift)) := by
  unfold genF
  rw [BitVec.getLsbD_shiftLeft, BitVec.getLsbD_and, BitVec.getLsbD_setWidth, BitVec.getLsbD_ofNat, Nat.testBit_two_pow_sub_one]
  by_cases h1 : i < 32 <;> by_cases h2 : shift ≤ i <;> simp [h1, h2]
  · by_cases h3 : i - shift < k <;> simp [h3, show i - shift < 32 by omega]
    exact fun _ => h2

theorem getLsbD_getF (shift k : Nat) (r : BitVec 32) (i : Nat) (hi : i < 8) :
    (getF shift (2 ^ k - 1) r).getLsbD i = (decide (i < k) && r.getLsbD (shift + i)) := by
  unfold getF
  rw [BitVec.getLsbD_setWidth, BitVec.getLsbD_and, BitVec.getLsbD_ushiftRight, BitVec.getLsbD_ofNat, Nat.testBit_two_pow_sub_one]
  simp [hi, show i < 32 by omega, Bool.and_comm]

theorem high_bits (v : BitVec 8) (k : Nat) (h : v.toNat < 2 ^ k) (i : Nat) (hi : k ≤ i) : v.getLsbD i = false := by
  rw [BitVec.getLsbD]
  exact Nat.testBit_lt_two_pow (Nat.lt_of_lt_of_le h (Nat.pow_le_pow_right (by decide) hi))

end Verif.AceHw
