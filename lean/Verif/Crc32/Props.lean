import Verif.Crc32.Lemmas

/-! # C18: the CRC-32 routine -/

namespace Verif.Crc32
open Verif Polynomial

/-- **C18 (bit serial).** For every starting value and every message, the
table-driven routine equals the bit-serial division register. -/
theorem crc32_bit_serial (crc : BitVec 32) (m : List Byte) :
    crc32 crc m = ((msgBits m).foldl bitStep (crc ^^^ 0xFFFFFFFF)) ^^^ 0xFFFFFFFF := by
  unfold crc32; rw [foldl_byteStep]

/-- **C18 (incremental).** For every split of every message. -/
theorem crc32_append (crc : BitVec 32) (a b : List Byte) : crc32 crc (a ++ b) = crc32 (crc32 crc a) b := by
  unfold crc32
  rw [List.foldl_append, BitVec.xor_assoc, BitVec.xor_self]
  congr 2
  exact BitVec.xor_zero.symm

theorem msgBits_length (m : List Byte) : (msgBits m).length = 8 * m.length := by
  induction m with
  | nil => rfl
  | cons c cs ih =>
    unfold msgBits at ih ⊢
    rw [List.flatMap_cons, List.length_append, ih, List.length_cons]
    simp [bitsOf]; omega

/-- **C18 (bursts).** Two messages whose bits in transmission order differ, and
differ only within some window of at most 32 bits, never have the same CRC. -/
theorem burst_detected (crc : BitVec 32) (m m' : List Byte) (pre w w' post : List Bool)
    (h : msgBits m = pre ++ w ++ post) (h' : msgBits m' = pre ++ w' ++ post)
    (hl : w.length = w'.length) (h32 : w.length ≤ 32) (hne : w ≠ w') : crc32 crc m ≠ crc32 crc m' := by
  intro he
  rw [crc32_bit_serial, crc32_bit_serial, h, h'] at he
  have he := congrArg (· ^^^ (0xFFFFFFFF : BitVec 32)) he
  simp only [BitVec.xor_assoc, BitVec.xor_self] at he
  rw [show (0#32 : BitVec 32) = 0 from rfl] at he
  have he : List.foldl bitStep (crc ^^^ 0xFFFFFFFF) (pre ++ w ++ post) = List.foldl bitStep (crc ^^^ 0xFFFFFFFF) (pre ++ w' ++ post) := by
    have z : ∀ x : BitVec 32, x ^^^ 0 = x := fun x => BitVec.xor_zero
    rwa [z, z] at he
  rw [List.foldl_append, List.foldl_append, List.foldl_append, List.foldl_append] at he
  have he := foldl_inj post he
  rw [feed w _ h32, feed w' _ (by omega), hl] at he
  have he := iter_inj _ he
  have he := congrArg (List.foldl bitStep (crc ^^^ 0xFFFFFFFF) pre ^^^ ·) he
  simp only [← BitVec.xor_assoc, BitVec.xor_self] at he
  have z : ∀ x : BitVec 32, 0#32 ^^^ x = x := fun x => BitVec.zero_xor
  rw [z, z] at he
  exact hne (pack_inj hl h32 he)

/-- The four bytes of a CRC in transmission order. -/
def crcBytes (c : BitVec 32) : List Byte := (List.range 4).map fun k => c.extractLsb' (8 * k) 8

theorem msgBits_crcBytes (c : BitVec 32) : msgBits (crcBytes c) = wordBits c := by
  unfold msgBits crcBytes wordBits bitsOf
  rw [show List.range 4 = [0, 1, 2, 3] from rfl, show List.range 8 = [0, 1, 2, 3, 4, 5, 6, 7] from rfl,
    show List.range 32 = [0, 1, 2, 3, 4, 5, 6, 7, 8, 9, 10, 11, 12, 13, 14, 15, 16, 17, 18, 19, 20, 21, 22, 23, 24, 25, 26, 27, 28, 29, 30, 31] from rfl]
  simp only [List.map_cons, List.map_nil, List.flatMap_cons, List.flatMap_nil, List.cons_append, List.nil_append,
    BitVec.getLsbD_extractLsb', List.append_nil, Nat.reduceLT, decide_true, Bool.true_and, Nat.reduceMul, Nat.reduceAdd]

theorem pack_wordBits (c : BitVec 32) : pack (wordBits c) = c := by
  apply BitVec.eq_of_getLsbD_eq
  intro i hi
  rw [pack_bit _ _ hi]
  simp [wordBits, List.getD_eq_getElem?_getD, hi]

/-- **C18 (residue).** A message followed by its CRC has the fixed CRC
`0x2144DF1C`, whatever the message. -/
theorem crc32_residue (m : List Byte) : crc32 0 (m ++ crcBytes (crc32 0 m)) = 0x2144DF1C := by
  rw [crc32_append, crc32_bit_serial (crc32 0 m), msgBits_crcBytes, feed _ _ (by simp [wordBits]), pack_wordBits]
  generalize crc32 0 m = c
  have e : c ^^^ 0xFFFFFFFF ^^^ c = 0xFFFFFFFF := by
    rw [BitVec.xor_comm c, BitVec.xor_assoc, BitVec.xor_self]; exact BitVec.xor_zero
  rw [e]
  have hl : (wordBits c).length = 32 := by simp [wordBits]
  rw [hl]
  decide +kernel

/-! ## Polynomial remainder -/

theorem bitsPoly_snoc (l : List Bool) (c : Bool) : bitsPoly (l ++ [c]) = X * bitsPoly l + (if c then 1 else 0) := by
  induction l with
  | nil => simp [bitsPoly]
  | cons b bs ih =>
    simp only [List.cons_append, bitsPoly, ih, List.length_append, List.length_cons, List.length_nil, mul_add]
    cases b <;> simp [pow_succ', add_assoc]

theorem two_eq_zero (p : (ZMod 2)[X]) : p + p = 0 := by
  ext n
  rw [coeff_add, coeff_zero]
  generalize p.coeff n = c
  revert c
  decide

theorem bitsPoly_xor (u v : List Bool) (h : u.length = v.length) :
    bitsPoly (List.zipWith (· ^^ ·) u v) = bitsPoly u + bitsPoly v := by
  induction u generalizing v with
  | nil => cases v <;> simp_all [bitsPoly]
  | cons a as ih =>
    cases v with
    | nil => simp at h
    | cons b bs =>
      simp only [List.length_cons, Nat.add_right_cancel_iff] at h
      simp only [List.zipWith_cons_cons, bitsPoly, ih bs h, List.length_zipWith, h, Nat.min_self]
      cases a <;> cases b
      · simp
      · simp; ring
      · simp; ring
      · have := two_eq_zero (X ^ bs.length : (ZMod 2)[X])
        simp only [Bool.xor_true, Bool.not_true, Bool.false_eq_true, if_false, if_true, zero_add]
        calc bitsPoly as + bitsPoly bs = (X ^ bs.length + X ^ bs.length) + (bitsPoly as + bitsPoly bs) := by rw [this, zero_add]
          _ = _ := by ring

/-- The polynomial of the division register. -/
noncomputable def regPoly (r : BitVec 32) : (ZMod 2)[X] := bitsPoly (wordBits r)

theorem wordBits_get (r : BitVec 32) (i : Nat) (h : i < (wordBits r).length) : (wordBits r)[i] = r.getLsbD i := by
  simp [wordBits]

theorem wordBits_len (r : BitVec 32) : (wordBits r).length = 32 := by simp [wordBits]

theorem regPoly_xor (a b : BitVec 32) : regPoly (a ^^^ b) = regPoly a + regPoly b := by
  unfold regPoly
  rw [← bitsPoly_xor _ _ (by rw [wordBits_len, wordBits_len])]
  congr 1
  apply List.ext_getElem (by simp [wordBits_len])
  intro i h1 h2
  rw [wordBits_get, List.getElem_zipWith, wordBits_get, wordBits_get, BitVec.getLsbD_xor]

theorem regPoly_shift (r : BitVec 32) :
    regPoly (r >>> 1) = X * regPoly r + (if r.getLsbD 0 then X ^ 32 else 0) := by
  have h1 : wordBits (r >>> 1) = (wordBits r).tail ++ [false] := by
    apply List.ext_getElem (by simp [wordBits_len])
    intro i h1 h2
    rw [wordBits_len] at h1
    rw [wordBits_get, BitVec.getLsbD_ushiftRight]
    by_cases hi : i < 31
    · rw [List.getElem_append_left (by simp [wordBits_len]; omega), List.getElem_tail, wordBits_get, Nat.add_comm]
    · rw [List.getElem_append_right (by simp [wordBits_len]; omega), BitVec.getLsbD_of_ge _ _ (by omega)]
      simp
  have h2 : wordBits r = r.getLsbD 0 :: (wordBits r).tail := by
    apply List.ext_getElem (by simp [wordBits_len])
    intro i h1 h2
    cases i with
    | zero => simp [wordBits]
    | succ i => simp
  unfold regPoly
  rw [h1, bitsPoly_snoc]
  conv => rhs; rw [h2]
  rw [bitsPoly]
  have hl : (wordBits r).tail.length = 31 := by simp [wordBits_len]
  rw [hl]
  cases r.getLsbD 0
  · simp
  · have := two_eq_zero (X ^ 32 : (ZMod 2)[X])
    simp only [Bool.false_eq_true, if_false, if_true, add_zero]
    calc X * bitsPoly (wordBits r).tail = X * bitsPoly (wordBits r).tail + (X ^ 32 + X ^ 32) := by rw [this, add_zero]
      _ = _ := by ring

theorem regPoly_poly : regPoly 0xEDB88320 = gen + X ^ 32 := by
  have h : wordBits 0xEDB88320 = [false, false, false, false, false, true, false, false, true, true, false, false, false, false, false, true, false, false, false, true, true, true, false, true, true, false, true, true, false, true, true, true] := by decide
  unfold regPoly
  rw [h]
  have := two_eq_zero (X ^ 32 : (ZMod 2)[X])
  simp only [bitsPoly, Bool.false_eq_true, if_false, if_true, List.length_cons, List.length_nil, gen]
  calc _ = (X ^ 26 + X ^ 23 + X ^ 22 + X ^ 16 + X ^ 12 + X ^ 11 + X ^ 10 + X ^ 8 + X ^ 7 + X ^ 5 + X ^ 4 + X ^ 2 + X + 1 : (ZMod 2)[X]) + (X ^ 32 + X ^ 32) := by
        rw [this]; ring
    _ = _ := by ring

theorem regPoly_bit (b : Bool) : regPoly (if b then (1 : BitVec 32) else 0) = if b then X ^ 31 else 0 := by
  unfold regPoly
  cases b
  · rw [show wordBits (if false then (1 : BitVec 32) else 0) = List.replicate 32 false by decide]
    simp [List.replicate, bitsPoly]
  · rw [show wordBits (if true then (1 : BitVec 32) else 0) = true :: List.replicate 31 false by decide]
    simp [List.replicate, bitsPoly]

/-- One register step multiplies by `x` modulo the generator. -/
theorem regPoly_step (r : BitVec 32) :
    regPoly (polyStep r) = X * regPoly r + (if r.getLsbD 0 then gen else 0) := by
  unfold polyStep
  rw [regPoly_xor, regPoly_shift]
  cases r.getLsbD 0
  · have := regPoly_bit false
    simp only [Bool.false_eq_true, if_false] at this
    simp only [Bool.false_eq_true, if_false, this, add_zero]
  · simp only [if_true, regPoly_poly]
    have := two_eq_zero (X ^ 32 : (ZMod 2)[X])
    calc X * regPoly r + X ^ 32 + (gen + X ^ 32) = X * regPoly r + gen + (X ^ 32 + X ^ 32) := by ring
      _ = _ := by rw [this, add_zero]

theorem run_congr (w : List Bool) (s : BitVec 32) :
    ∃ q, X ^ w.length * regPoly s + X ^ 32 * bitsPoly w = regPoly (w.foldl bitStep s) + gen * q := by
  induction w generalizing s with
  | nil => exact ⟨0, by simp [bitsPoly]⟩
  | cons b bs ih =>
    obtain ⟨q, hq⟩ := ih (bitStep s b)
    have hs : regPoly (bitStep s b) = X * regPoly s + (if b then X ^ 32 else 0) +
        (if (s ^^^ (if b then (1 : BitVec 32) else 0)).getLsbD 0 then gen else 0) := by
      unfold bitStep
      rw [regPoly_step, regPoly_xor, regPoly_bit]
      cases b <;> simp [mul_add, ← pow_succ']
    generalize (s ^^^ (if b then (1 : BitVec 32) else 0)).getLsbD 0 = c at hs
    refine ⟨q - (X ^ bs.length) * (if c then 1 else 0), ?_⟩
    rw [List.foldl_cons, mul_sub]
    have e : gen * q = X ^ bs.length * regPoly (bitStep s b) + X ^ 32 * bitsPoly bs - regPoly (List.foldl bitStep (bitStep s b) bs) := by
      rw [hq]; ring
    rw [e, hs, bitsPoly, List.length_cons]
    cases b <;> cases c <;> simp <;> ring

theorem bitsPoly_degree (l : List Bool) : (bitsPoly l).degree < l.length := by
  rw [degree_lt_iff_coeff_zero]
  induction l with
  | nil => simp [bitsPoly]
  | cons b bs ih =>
    intro m hm
    simp only [List.length_cons] at hm
    rw [bitsPoly, coeff_add, ih m (by omega), add_zero]
    cases b
    · simp
    · simp only [if_true, coeff_X_pow]
      rw [if_neg (by omega)]

theorem gen_degree : gen.degree = 32 ∧ gen.Monic := by
  have hlow : (X^26 + X^23 + X^22 + X^16 + X^12 + X^11 + X^10 + X^8 + X^7 + X^5 + X^4 + X^2 + X + 1 : (ZMod 2)[X]).degree < (32 : ℕ) := by
    have : (X^26 + X^23 + X^22 + X^16 + X^12 + X^11 + X^10 + X^8 + X^7 + X^5 + X^4 + X^2 + X + 1 : (ZMod 2)[X]) =
        bitsPoly [false, false, false, false, false, true, false, false, true, true, false, false, false, false, false, true, false, false, false, true, true, true, false, true, true, false, true, true, false, true, true, true] := by
      simp only [bitsPoly, Bool.false_eq_true, if_false, if_true, List.length_cons, List.length_nil]
      ring
    rw [this]
    exact bitsPoly_degree _
  refine ⟨?_, monic_X_pow_add hlow⟩
  unfold gen
  rw [degree_add_eq_left_of_degree_lt]
  · rw [degree_X_pow]; rfl
  · rw [degree_X_pow]; exact hlow

/-- **C18 (definition by division).** For every message of `n` bits, the
complemented result, read as a polynomial, is the remainder modulo the IEEE 802.3
generator of the message (times `x^32`) with its first 32 bits complemented (the
all-ones polynomial times `x^n`). -/
theorem crc32_is_remainder (m : List Byte) :
    regPoly (crc32 0 m ^^^ 0xFFFFFFFF) =
      (X ^ (8 * m.length) * regPoly 0xFFFFFFFF + X ^ 32 * bitsPoly (msgBits m)) %ₘ gen := by
  rw [crc32_bit_serial, BitVec.xor_assoc, BitVec.xor_self]
  have z : ∀ x : BitVec 32, x ^^^ 0#32 = x := fun x => BitVec.xor_zero
  have z' : ∀ x : BitVec 32, 0 ^^^ x = x := fun x => BitVec.zero_xor
  rw [z, z']
  obtain ⟨q, hq⟩ := run_congr (msgBits m) 0xFFFFFFFF
  rw [msgBits_length] at hq
  rw [hq]
  obtain ⟨hd, hm⟩ := gen_degree
  exact (div_modByMonic_unique q _ hm ⟨rfl, by rw [hd]; exact_mod_cast bitsPoly_degree _⟩).2.symm

example : crc32 0 [0x31, 0x32, 0x33, 0x34, 0x35, 0x36, 0x37, 0x38, 0x39] = 0xCBF43926 := by decide +kernel

example : crc32 0 [1, 2, 3] ≠ crc32 0 [1, 2, 7] :=
  burst_detected 0 [1, 2, 3] [1, 2, 7] (msgBits [1, 2]) (msgBits [3]) (msgBits [7]) [] (by decide) (by decide) (by decide) (by decide) (by decide)

end Verif.Crc32
