import Verif.Bitops.Model

/-! # C19: bit helpers -/

namespace Verif.Bitops
open Verif

/-- **C19 (32-bit mask).** For every length up to 32, exactly the low `len` bits. -/
theorem mask32_bits (len : Nat) (h : len ≤ 32) :
    ∃ m, mask32 len = some m ∧ ∀ i, i < 32 → m.getLsbD i = decide (i < len) := by
  unfold mask32
  rw [if_neg (by omega)]
  by_cases h32 : len = 32
  · rw [if_pos h32]
    refine ⟨_, rfl, fun i hi => ?_⟩
    subst h32
    rw [BitVec.getLsbD_not]
    simp only [hi, decide_true, Bool.true_and]
    rw [show (0 : BitVec 32).getLsbD i = false from BitVec.getLsbD_zero]
    rfl
  · rw [if_neg h32]
    refine ⟨_, rfl, fun i hi => ?_⟩
    have e : ((1 : BitVec 64) <<< len) - 1 = BitVec.ofNat 64 (2 ^ len - 1) := by
      have hp : 0 < 2 ^ len := Nat.two_pow_pos len
      have hl : 2 ^ len < 2 ^ 64 := Nat.pow_lt_pow_right (by omega) (by omega)
      apply BitVec.eq_of_toNat_eq
      rw [BitVec.toNat_sub, BitVec.toNat_shiftLeft, BitVec.toNat_ofNat, show BitVec.toNat (1 : BitVec 64) = 1 from rfl,
        Nat.shiftLeft_eq, Nat.one_mul, Nat.mod_eq_of_lt hl]
      omega
    rw [e, BitVec.getLsbD_setWidth, BitVec.getLsbD_ofNat, Nat.testBit_two_pow_sub_one]
    simp [hi, show i < 64 by omega]

/-- **C19 (32-bit field).** Exactly bits `bit .. bit+len-1`, moved down. -/
theorem field32_bits (v : BitVec 32) (bit len : Nat) (hb : bit < 32) (h : len ≤ 32) :
    ∃ r, field32 v bit len = some r ∧ ∀ i, i < 32 → r.getLsbD i = (decide (i < len) && v.getLsbD (bit + i)) := by
  obtain ⟨m, hm, hbits⟩ := mask32_bits len h
  unfold field32
  rw [if_neg (by omega), hm]
  refine ⟨_, rfl, fun i hi => ?_⟩
  rw [BitVec.getLsbD_and, BitVec.getLsbD_ushiftRight, hbits i hi, Bool.and_comm]

/-- **C19 (64-bit mask).** For every start and length, exactly bits
`start .. start+len-1`. -/
theorem mask64_bits (start len i : Nat) (hi : i < 64) :
    (mask64 start len).getLsbD i = (decide (start ≤ i) && decide (i < start + len)) := by
  unfold mask64
  by_cases h : start ≥ 64 ∨ len = 0
  · rw [if_pos h]
    simp
    omega
  · rw [if_neg h]
    simp only []
    rw [BitVec.getLsbD_shiftLeft]
    by_cases hl : len < 64
    · simp only [hl, if_true, BitVec.getLsbD_ushiftRight, BitVec.getLsbD_not]
      by_cases hs : i < start
      · simp [hs, show ¬ start ≤ i by omega]
      · have e : decide (64 - len + (i - start) < 64) = decide (i < start + len) := by
          congr 1; apply propext; omega
        simp [hi, hs, e]; omega
    · simp only [hl, if_false, BitVec.getLsbD_not]
      by_cases hs : i < start
      · simp [hs, show ¬ start ≤ i by omega]
      · have : i < start + len := by omega
        simp [hi, hs, this]; omega

example : ∃ m, mask32 5 = some m ∧ m = 31 := ⟨_, rfl, by decide⟩
example : field32 0xabcd1234 8 8 = some 0x12 := by decide
example : mask64 60 8 = 0xf000000000000000 := by decide

/-! ## Buffer conversions -/

theorem getLsbD_setRange8 {width : Nat} (s : BitVec width) (i : Nat) (b : Byte) (j : Nat) (hj : j < width) :
    (setRange8 s i b).getLsbD j = if i ≤ j ∧ j < i + 8 then b.getLsbD (j - i) else s.getLsbD j := by
  unfold setRange8
  rw [BitVec.getLsbD_or, BitVec.getLsbD_and, BitVec.getLsbD_not, BitVec.getLsbD_shiftLeft, BitVec.getLsbD_shiftLeft,
    BitVec.getLsbD_setWidth, BitVec.getLsbD_setWidth]
  have hff : ∀ k, (0xff : BitVec 8).getLsbD k = decide (k < 8) := by
    intro k
    by_cases hk : k < 8
    · have : ∀ k : Fin 8, (0xff : BitVec 8).getLsbD k = true := by decide
      rw [this ⟨k, hk⟩]; simp [hk]
    · rw [BitVec.getLsbD_of_ge _ _ (by omega)]; simp [hk]
  rw [hff]
  by_cases h1 : j < i
  · simp [hj, h1, show ¬ i ≤ j by omega]
  · by_cases h2 : j - i < 8
    · have : i ≤ j ∧ j < i + 8 := by omega
      have : j - i < width := by omega
      simp [*]
    · have h3 : ¬ (i ≤ j ∧ j < i + 8) := by omega
      rw [if_neg h3, BitVec.getLsbD_of_ge b (j - i) (by omega)]
      simp [hj, h1, h2]

theorem setRange8_extract {width : Nat} (s : BitVec width) (i : Nat) (b : Byte) (hi : i + 8 ≤ width) :
    (setRange8 s i b).extractLsb' i 8 = b := by
  apply BitVec.eq_of_getLsbD_eq
  intro k hk
  rw [BitVec.getLsbD_extractLsb', getLsbD_setRange8 _ _ _ _ (by omega)]
  simp [hk]

/-- Later iterations do not touch earlier bits. -/
theorem buf2bvFrom_low {width : Nat} (s r : BitVec width) (bitlen i : Nat) (buf : List Byte)
    (h : buf2bvFrom s bitlen i buf = some r) (j : Nat) (hj : j < i) (hjw : j < width) : r.getLsbD j = s.getLsbD j := by
  induction buf generalizing s i with
  | nil =>
    rw [buf2bvFrom] at h
    split at h
    · cases h
    · cases h; rfl
  | cons b rest ih =>
    rw [buf2bvFrom] at h
    split at h
    · rw [ih _ _ h (by omega), getLsbD_setRange8 _ _ _ _ hjw, if_neg (by omega)]
    · cases h; rfl

theorem roundtrip_from {width : Nat} (hw : width % 8 = 0) (s : BitVec width) (bitlen i : Nat) (hi8 : i % 8 = 0)
    (buf old : List Byte)
    (hbuf : min width bitlen ≤ i + 8 * buf.length) (hold : old.length = buf.length) :
    ∃ r, buf2bvFrom s bitlen i buf = some r ∧
      bv2bufFrom r bitlen i old = some (buf.take ((min width bitlen - i + 7) / 8) ++ old.drop ((min width bitlen - i + 7) / 8)) := by
  induction buf generalizing s i old with
  | nil =>
    have ho : old = [] := List.length_eq_zero_iff.mp hold
    subst ho
    have hn : ¬ (i < width ∧ i < bitlen) := by simp at hbuf; omega
    refine ⟨s, by rw [buf2bvFrom, if_neg hn], ?_⟩
    rw [bv2bufFrom, if_neg hn]; simp
  | cons b rest ih =>
    cases old with
    | nil => simp at hold
    | cons o os =>
      by_cases hc : i < width ∧ i < bitlen
      · obtain ⟨r, h1, h2⟩ := ih (setRange8 s i b) (i + 8) (by omega) os
          (by simp only [List.length_cons] at hbuf; omega) (by simpa using hold)
        refine ⟨r, by rw [buf2bvFrom, if_pos hc]; exact h1, ?_⟩
        rw [bv2bufFrom, if_pos hc]
        simp only [h2, Option.map_some]
        have hb : r.extractLsb' i 8 = b := by
          rw [← setRange8_extract s i b (by omega)]
          apply BitVec.eq_of_getLsbD_eq
          intro k hk
          rw [BitVec.getLsbD_extractLsb', BitVec.getLsbD_extractLsb',
            buf2bvFrom_low _ _ _ _ _ h1 (i + k) (by omega) (by omega)]
        have hk : (min width bitlen - i + 7) / 8 = (min width bitlen - (i + 8) + 7) / 8 + 1 := by omega
        rw [hb, hk, List.take_succ_cons, List.drop_succ_cons, List.cons_append]
      · refine ⟨s, by rw [buf2bvFrom, if_neg hc], ?_⟩
        rw [bv2bufFrom, if_neg hc]
        have : (min width bitlen - i + 7) / 8 = 0 := by omega
        rw [this]; simp

/-- **C19 (buffer to bit vector and back).** For every vector width (a multiple
of 8) and bit length, copying a buffer into a bit vector and back returns its
bytes up to the bit length (rounded up to a byte) and leaves the rest of the
destination alone. -/
theorem buf_bv_roundtrip {width : Nat} (hw : width % 8 = 0) (s : BitVec width) (bitlen : Nat) (buf old : List Byte)
    (hbuf : min width bitlen ≤ 8 * buf.length) (hold : old.length = buf.length) :
    ∃ r, buf2bv s bitlen buf = some r ∧
      bv2buf r bitlen old = some (buf.take ((min width bitlen + 7) / 8) ++ old.drop ((min width bitlen + 7) / 8)) := by
  obtain ⟨r, h1, h2⟩ := roundtrip_from hw s bitlen 0 rfl buf old (by simpa using hbuf) hold
  refine ⟨r, by rw [buf2bv, if_neg (by simp [hw])]; exact h1, ?_⟩
  rw [bv2buf, if_neg (by simp [hw])]
  simpa using h2

theorem buf2bv_value {width : Nat} (s r : BitVec width) (bitlen i : Nat) (buf : List Byte)
    (h : buf2bvFrom s bitlen i buf = some r) (k : Nat) (b : Byte) (hk : buf[k]? = some b)
    (hr : i + 8 * k < width ∧ i + 8 * k < bitlen) (j : Nat) (hj : j < 8) (hjw : i + 8 * k + j < width) :
    r.getLsbD (i + 8 * k + j) = b.getLsbD j := by
  induction buf generalizing s i k with
  | nil => simp at hk
  | cons x xs ih =>
    rw [buf2bvFrom, if_pos (by omega)] at h
    cases k with
    | zero =>
      simp at hk
      subst hk
      rw [buf2bvFrom_low _ _ _ _ _ h _ (by omega) hjw, getLsbD_setRange8 _ _ _ _ hjw, if_pos (by omega)]
      congr 1; omega
    | succ k =>
      simp at hk
      have e : i + 8 * (k + 1) = i + 8 + 8 * k := by omega
      rw [e] at hr hjw ⊢
      exact ih _ _ h k hk hr hjw

/-- **C19 (placement).** Bit `j` of byte `k` of the buffer becomes bit `8k+j`. -/
theorem buf2bv_placement {width : Nat} (s r : BitVec width) (bitlen : Nat) (buf : List Byte)
    (h : buf2bv s bitlen buf = some r) (k : Nat) (b : Byte) (hk : buf[k]? = some b)
    (hr : 8 * k < min width bitlen) (j : Nat) (hj : j < 8) : r.getLsbD (8 * k + j) = b.getLsbD j := by
  unfold buf2bv at h
  split at h
  · cases h
  · rename_i hw
    have := buf2bv_value s r bitlen 0 buf h k b hk (by omega) j hj (by omega)
    simpa using this

example : buf2bv (0 : BitVec 16) 16 [0x34, 0x12] = some 0x1234 := by
  simp [buf2bv, buf2bvFrom]; decide

end Verif.Bitops
