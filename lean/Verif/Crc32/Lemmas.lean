import Verif.Crc32.Model
import Verif.Crc32.Spec

/-! # Helper lemmas for CRC-32 -/

namespace Verif.Crc32
open Verif

theorem polyStep_xor (a b : BitVec 32) : polyStep (a ^^^ b) = polyStep a ^^^ polyStep b := by
  have h0 : (a ^^^ b).getLsbD 0 = (a.getLsbD 0 ^^ b.getLsbD 0) := BitVec.getLsbD_xor
  unfold polyStep
  rw [h0]
  generalize a.getLsbD 0 = x
  generalize b.getLsbD 0 = y
  generalize (0xEDB88320 : BitVec 32) = p
  apply BitVec.eq_of_getLsbD_eq
  intro i _
  have hz : (0 : BitVec 32).getLsbD i = false := BitVec.getLsbD_zero
  simp only [BitVec.getLsbD_xor, BitVec.getLsbD_ushiftRight]
  cases x <;> cases y <;> simp only [Bool.xor_true, Bool.xor_false, Bool.not_true, Bool.not_false, Bool.false_eq_true, if_true, if_false, hz] <;>
    cases a.getLsbD (1 + i) <;> cases b.getLsbD (1 + i) <;> cases p.getLsbD i <;> rfl

def iter (n : Nat) (r : BitVec 32) : BitVec 32 := match n with
  | 0 => r
  | n + 1 => iter n (polyStep r)

theorem iter_xor (n : Nat) (a b : BitVec 32) : iter n (a ^^^ b) = iter n a ^^^ iter n b := by
  induction n generalizing a b with
  | zero => rfl
  | succ n ih => simp only [iter, polyStep_xor, ih]

theorem polyStep_eq_zero (x : BitVec 32) (h : polyStep x = 0) : x = 0 := by
  have h31 : (polyStep x).getLsbD 31 = x.getLsbD 0 := by
    unfold polyStep
    rw [BitVec.getLsbD_xor, BitVec.getLsbD_ushiftRight, BitVec.getLsbD_of_ge x (1 + 31) (by omega)]
    cases x.getLsbD 0
    · simp
    · decide
  have h0 : x.getLsbD 0 = false := by
    rw [← h31, h]; decide
  unfold polyStep at h
  rw [h0] at h
  simp only [Bool.false_eq_true, if_false] at h
  apply BitVec.eq_of_getLsbD_eq
  intro i hi
  cases i with
  | zero => rw [h0]; exact BitVec.getLsbD_zero.symm
  | succ i =>
    have := congrArg (fun v => BitVec.getLsbD v i) h
    simp only [BitVec.getLsbD_xor, BitVec.getLsbD_ushiftRight] at this
    rw [show (0 : BitVec 32).getLsbD i = false from BitVec.getLsbD_zero, Bool.xor_false, Nat.add_comm] at this
    rw [this]; exact BitVec.getLsbD_zero.symm

theorem polyStep_inj {a b : BitVec 32} (h : polyStep a = polyStep b) : a = b := by
  have : polyStep (a ^^^ b) = 0 := by rw [polyStep_xor, h, BitVec.xor_self]; rfl
  have := polyStep_eq_zero _ this
  exact BitVec.xor_eq_zero_iff.mp this

theorem iter_inj (n : Nat) {a b : BitVec 32} (h : iter n a = iter n b) : a = b := by
  induction n generalizing a b with
  | zero => exact h
  | succ n ih => exact polyStep_inj (ih h)

theorem bitStep_inj {a b : BitVec 32} {x : Bool} (h : bitStep a x = bitStep b x) : a = b := by
  have h1 := polyStep_inj h
  have h2 := congrArg (· ^^^ (if x then (1 : BitVec 32) else 0)) h1
  simp only [BitVec.xor_assoc, BitVec.xor_self] at h2
  simpa using h2

theorem foldl_inj (w : List Bool) {a b : BitVec 32} (h : w.foldl bitStep a = w.foldl bitStep b) : a = b := by
  induction w generalizing a b with
  | nil => exact h
  | cons x xs ih => exact bitStep_inj (ih h)

/-- Bits packed into a word, first bit lowest. -/
def pack : List Bool → BitVec 32
  | [] => 0
  | b :: bs => (if b then (1 : BitVec 32) else 0) ^^^ (pack bs <<< 1)

theorem one_bit (i : Nat) : (1 : BitVec 32).getLsbD i = decide (i = 0) := by
  by_cases h : i < 32
  · have : ∀ i : Fin 32, (1 : BitVec 32).getLsbD i = decide (i.val = 0) := by decide
    exact this ⟨i, h⟩
  · rw [BitVec.getLsbD_of_ge _ _ (by omega)]; simp; omega

theorem pack_bit (w : List Bool) (i : Nat) (hi : i < 32) : (pack w).getLsbD i = w.getD i false := by
  induction w generalizing i with
  | nil => simp only [pack]; rw [show (0 : BitVec 32).getLsbD i = false from BitVec.getLsbD_zero]; simp
  | cons b bs ih =>
    have hb : ((if b then 1 else 0) : BitVec 32).getLsbD i = (b && decide (i = 0)) := by
      cases b
      · simp only [Bool.false_eq_true, if_false, Bool.false_and]; exact BitVec.getLsbD_zero
      · simp only [if_true, Bool.true_and]; exact one_bit i
    rw [pack, BitVec.getLsbD_xor, hb, BitVec.getLsbD_shiftLeft]
    cases i with
    | zero => simp
    | succ i => simp [hi, ih i (by omega)]

theorem pack_inj {u v : List Bool} (hl : u.length = v.length) (h32 : u.length ≤ 32) (h : pack u = pack v) : u = v := by
  apply List.ext_getElem hl
  intro i h1 h2
  have := congrArg (fun x => BitVec.getLsbD x i) h
  simp only [pack_bit _ i (by omega : i < 32)] at this
  simpa [List.getD_eq_getElem?_getD, h1, h2] using this

theorem polyStep_shl (x : BitVec 32) (h : x.getLsbD 31 = false) : polyStep (x <<< 1) = x := by
  unfold polyStep
  have h0 : (x <<< 1).getLsbD 0 = false := by rw [BitVec.getLsbD_shiftLeft]; simp
  rw [h0]
  apply BitVec.eq_of_getLsbD_eq
  intro i hi
  simp only [Bool.false_eq_true, if_false, BitVec.getLsbD_xor, BitVec.getLsbD_ushiftRight, BitVec.getLsbD_shiftLeft]
  rw [show (0 : BitVec 32).getLsbD i = false from BitVec.getLsbD_zero, Bool.xor_false]
  by_cases h' : 1 + i < 32
  · simp [h', show 1 + i - 1 = i by omega]
  · have : i = 31 := by omega
    subst this; rw [h]; simp

/-- Feeding up to 32 bits = adding them to the register and stepping. -/
theorem feed (w : List Bool) (s : BitVec 32) (h : w.length ≤ 32) : w.foldl bitStep s = iter w.length (s ^^^ pack w) := by
  induction w generalizing s with
  | nil =>
    simp only [List.foldl_nil, List.length_nil, iter, pack]
    exact (BitVec.xor_zero).symm
  | cons b bs ih =>
    simp only [List.length_cons] at h
    rw [List.foldl_cons, ih _ (by omega), List.length_cons, iter, pack, ← BitVec.xor_assoc, polyStep_xor (s ^^^ _),
      polyStep_shl]
    · rfl
    · rw [pack_bit _ _ (by omega), List.getD_eq_getElem?_getD, List.getElem?_eq_none (by omega)]; rfl

theorem iter_low_zero (n : Nat) (z : BitVec 32) (h : ∀ i, i < n → z.getLsbD i = false) : iter n z = z >>> n := by
  induction n generalizing z with
  | zero => exact (BitVec.ushiftRight_zero z).symm
  | succ n ih =>
    have hz : polyStep z = z >>> 1 := by
      unfold polyStep
      rw [h 0 (by omega)]
      simp only [Bool.false_eq_true, if_false]
      exact BitVec.xor_zero
    rw [iter, hz, ih, ← BitVec.shiftRight_add, Nat.add_comm]
    intro i hi
    rw [BitVec.getLsbD_ushiftRight]
    exact h _ (by omega)

/-- The whole table, entry by entry, against eight register steps. -/
theorem table_correct : ∀ i : Fin 256, table[i.val]! = iter 8 (BitVec.ofNat 32 i.val) := by
  decide +kernel

theorem pack_bitsOf (c : Byte) : pack (bitsOf c) = c.setWidth 32 := by
  apply BitVec.eq_of_getLsbD_eq
  intro i hi
  rw [pack_bit _ _ hi, BitVec.getLsbD_setWidth]
  simp only [hi, decide_true, Bool.true_and, bitsOf, List.getD_eq_getElem?_getD]
  by_cases h : i < 8
  · simp [h]
  · rw [List.getElem?_eq_none (by simp; omega), BitVec.getLsbD_of_ge _ _ (by omega)]; rfl

theorem ff_bit (i : Nat) : (0xFF : BitVec 32).getLsbD i = decide (i < 8) := by
  by_cases h : i < 32
  · have : ∀ i : Fin 32, (0xFF : BitVec 32).getLsbD i = decide (i.val < 8) := by decide
    exact this ⟨i, h⟩
  · rw [BitVec.getLsbD_of_ge _ _ (by omega)]; simp; omega

theorem byteStep_eq (crc : BitVec 32) (c : Byte) : byteStep crc c = (bitsOf c).foldl bitStep crc := by
  rw [feed _ _ (by simp [bitsOf]), pack_bitsOf]
  have hlen : (bitsOf c).length = 8 := by simp [bitsOf]
  rw [hlen]
  unfold byteStep
  generalize hy : crc ^^^ c.setWidth 32 = y
  have hlow : (y &&& 0xFF).toNat < 256 := by
    rw [BitVec.toNat_and]
    exact Nat.lt_of_le_of_lt Nat.and_le_right (by decide)
  have ht := table_correct ⟨(y &&& 0xFF).toNat, hlow⟩
  simp only [BitVec.ofNat_toNat, BitVec.setWidth_eq] at ht
  rw [ht]
  have hsplit : y = (y &&& 0xFF) ^^^ (y &&& ~~~ 0xFF) := by
    apply BitVec.eq_of_getLsbD_eq
    intro i hi
    simp only [BitVec.getLsbD_xor, BitVec.getLsbD_and, BitVec.getLsbD_not, hi]
    cases y.getLsbD i <;> cases (0xFF : BitVec 32).getLsbD i <;> rfl
  conv => rhs; rw [hsplit]
  rw [iter_xor]
  congr 1
  rw [iter_low_zero]
  · apply BitVec.eq_of_getLsbD_eq
    intro i hi
    rw [← hy]
    simp only [BitVec.getLsbD_ushiftRight, BitVec.getLsbD_and, BitVec.getLsbD_not, BitVec.getLsbD_xor, BitVec.getLsbD_setWidth, ff_bit]
    rw [BitVec.getLsbD_of_ge c (8 + i) (by omega)]
    by_cases h : 8 + i < 32
    · simp [h]
    · rw [BitVec.getLsbD_of_ge crc (8 + i) (by omega)]; simp
  · intro i hi
    simp only [BitVec.getLsbD_and, BitVec.getLsbD_not, ff_bit]
    simp [hi]

theorem foldl_byteStep (m : List Byte) (s : BitVec 32) : m.foldl byteStep s = (msgBits m).foldl bitStep s := by
  induction m generalizing s with
  | nil => rfl
  | cons c cs ih =>
    rw [List.foldl_cons, ih, byteStep_eq, msgBits, msgBits, List.flatMap_cons, List.foldl_append]

end Verif.Crc32
