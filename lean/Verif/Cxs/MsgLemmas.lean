import Verif.Cxs.Spec

/-! Field and word lemmas for the CCIX message model. -/
namespace Verif.Cxs

theorem getLsbD_mask (f : Field) (i : Nat) : f.mask.getLsbD i = (decide (i < 32) && decide (i < f.width)) := by
  simp [Field.mask, BitVec.getLsbD_ofNat]

theorem getLsbD_get (f : Field) (r : W) (i : Nat) :
    (f.get r).getLsbD i = (r.getLsbD (f.shift + i) && decide (i < 32) && decide (i < f.width)) := by
  simp only [Field.get, BitVec.getLsbD_and, BitVec.getLsbD_ushiftRight, getLsbD_mask, Bool.and_assoc]

theorem getLsbD_put (f : Field) (v : W) (i : Nat) :
    (f.put v).getLsbD i =
      (decide (i < 32) && decide (f.shift ≤ i) && decide (i - f.shift < f.width) && v.getLsbD (i - f.shift)) := by
  simp only [Field.put, BitVec.getLsbD_shiftLeft, BitVec.getLsbD_and, getLsbD_mask]
  by_cases h : i < 32 <;> by_cases h2 : f.shift ≤ i
  · have h3 : i - f.shift < 32 := by omega
    simp only [h, h2, h3, Nat.not_lt.mpr h2, decide_true, decide_false, Bool.not_false, Bool.true_and]
    cases v.getLsbD (i - f.shift) <;> simp
  · simp [h, h2]
  · simp [h]
  · simp [h]

/-- A value that fits its field. -/
def Field.Fits (f : Field) (v : W) : Prop := v.toNat < 2 ^ f.width

theorem fits_bit {f : Field} {v : W} (h : f.Fits v) {i : Nat} (hi : f.width ≤ i) : v.getLsbD i = false := by
  rw [BitVec.getLsbD, Nat.testBit_lt_two_pow]
  exact Nat.lt_of_lt_of_le h (Nat.pow_le_pow_right (by omega) hi)

theorem set_iff (f : Field) (v : W) : v &&& ~~~f.mask = 0 ↔ f.Fits v := by
  constructor
  · intro h
    unfold Field.Fits
    apply Nat.lt_pow_two_of_testBit
    intro i hi
    have := congrArg (fun x : W => x.getLsbD i) h
    simp only [BitVec.getLsbD_and, BitVec.getLsbD_not, getLsbD_mask] at this
    by_cases h32 : i < 32
    · have hw : ¬ i < f.width := by omega
      simpa [h32, hw, BitVec.getLsbD] using this
    · exact Nat.testBit_lt_two_pow (Nat.lt_of_lt_of_le v.isLt (Nat.pow_le_pow_right (by omega) (by omega)))
  · intro h
    apply BitVec.eq_of_getLsbD_eq
    intro i hi
    simp only [BitVec.getLsbD_and, BitVec.getLsbD_not, getLsbD_mask]
    by_cases hw : i < f.width
    · simp [hi, hw]
    · simp [hw, fits_bit h (Nat.le_of_not_lt hw)]

theorem set_of_fits {f : Field} {v : W} (h : f.Fits v) : f.set v = some (f.put v) := by
  rw [Field.set, if_pos ((set_iff f v).2 h)]

theorem set_of_not {f : Field} {v : W} (h : ¬ f.Fits v) : f.set v = none := by
  rw [Field.set, if_neg (fun c => h ((set_iff f v).1 c))]

/-- Fields that share no bit. -/
def Field.Apart (f g : Field) : Bool := decide (f.shift + f.width ≤ g.shift ∨ g.shift + g.width ≤ f.shift)

@[simp] theorem get_or (f : Field) (x y : W) : f.get (x ||| y) = f.get x ||| f.get y := by
  apply BitVec.eq_of_getLsbD_eq
  intro i hi
  simp only [BitVec.getLsbD_or, getLsbD_get]
  cases x.getLsbD (f.shift + i) <;> cases y.getLsbD (f.shift + i) <;> simp

@[simp] theorem get_zero (f : Field) : f.get 0 = 0 := by
  simp [Field.get]

theorem get_put_apart {f g : Field} (h : f.Apart g = true) (v : W) : f.get (g.put v) = 0 := by
  have h := of_decide_eq_true h
  apply BitVec.eq_of_getLsbD_eq
  intro i hi
  simp only [getLsbD_get, getLsbD_put, BitVec.ofNat_eq_ofNat, BitVec.getLsbD_zero]
  by_cases hw : i < f.width
  · have : ¬ (g.shift ≤ f.shift + i ∧ f.shift + i - g.shift < g.width) := by omega
    by_cases h1 : g.shift ≤ f.shift + i
    · have h2 : ¬ (f.shift + i - g.shift < g.width) := fun c => this ⟨h1, c⟩
      simp [h2]
    · simp [h1]
  · simp [hw]

theorem get_put {f : Field} (hf : f.shift + f.width ≤ 32) {v : W} (h : f.Fits v) : f.get (f.put v) = v := by
  apply BitVec.eq_of_getLsbD_eq
  intro i hi
  simp only [getLsbD_get, getLsbD_put]
  by_cases hw : i < f.width
  · have h1 : f.shift + i < 32 := by omega
    simp [hw, hi, h1]
  · simp [hw, fits_bit h (Nat.le_of_not_lt hw)]

/-! Words and bytes -/

theorem wordBytes_word4 (a b c d : Byte) : wordBytes (word4 a b c d) = [a, b, c, d] := by
  simp only [wordBytes, word4, List.cons.injEq, and_true]
  refine ⟨?_, ?_, ?_, ?_⟩ <;>
  · apply BitVec.eq_of_getLsbD_eq
    intro i hi
    simp only [BitVec.getLsbD_setWidth, BitVec.getLsbD_ushiftRight, BitVec.getLsbD_or,
      BitVec.getLsbD_shiftLeft]
    have h : i = 0 ∨ i = 1 ∨ i = 2 ∨ i = 3 ∨ i = 4 ∨ i = 5 ∨ i = 6 ∨ i = 7 := by omega
    rcases h with rfl | rfl | rfl | rfl | rfl | rfl | rfl | rfl <;> simp

theorem word4_wordBytes (w : W) :
    word4 ((w >>> 24).setWidth 8) ((w >>> 16).setWidth 8) ((w >>> 8).setWidth 8) (w.setWidth 8) = w := by
  apply BitVec.eq_of_getLsbD_eq
  intro i hi
  simp only [word4, BitVec.getLsbD_or, BitVec.getLsbD_shiftLeft, BitVec.getLsbD_setWidth,
    BitVec.getLsbD_ushiftRight]
  by_cases h1 : i < 8
  · have a1 : i < 24 := by omega
    have a2 : i < 16 := by omega
    simp [hi, h1, a1, a2]
  · by_cases h2 : i < 16
    · have a1 : i < 24 := by omega
      have a2 : i - 8 < 8 := by omega
      have a3 : i - 8 < 32 := by omega
      have a4 : 8 + (i - 8) = i := by omega
      simp [hi, h1, h2, a1, a2, a3, a4]
    · by_cases h3 : i < 24
      · have a2 : i - 16 < 8 := by omega
        have a3 : i - 16 < 32 := by omega
        have a4 : 16 + (i - 16) = i := by omega
        have a5 : ¬ i - 8 < 8 := by omega
        simp [hi, h1, h2, h3, a2, a3, a4, a5]
      · have a2 : i - 24 < 8 := by omega
        have a3 : i - 24 < 32 := by omega
        have a4 : 24 + (i - 24) = i := by omega
        have a5 : ¬ i - 8 < 8 := by omega
        have a6 : ¬ i - 16 < 8 := by omega
        simp [hi, h1, h2, h3, a2, a3, a4, a5, a6]

@[simp] theorem wordsBytes_length (ws : List W) : (wordsBytes ws).length = 4 * ws.length := by
  induction ws with
  | nil => rfl
  | cons w ws ih =>
    simp only [wordsBytes, List.flatMap_cons, List.length_append, List.length_cons] at ih ⊢
    rw [ih]; simp [wordBytes]; omega

theorem beWords_wordsBytes (ws : List W) : beWords (wordsBytes ws) = ws := by
  induction ws with
  | nil => rfl
  | cons w ws ih =>
    have e : wordsBytes (w :: ws) = wordBytes w ++ wordsBytes ws := by simp [wordsBytes]
    rw [e]
    simp only [wordBytes, List.cons_append, List.nil_append, beWords]
    rw [word4_wordBytes, ih]

/-- `placeData` on a whole number of words. -/
theorem placeData_some : ∀ (d : List Byte), d.length % 4 = 0 →
    ∃ ws, placeData d = some ws ∧ wordsBytes ws = d ∧ 4 * ws.length = d.length
  | [], _ => ⟨[], rfl, rfl, rfl⟩
  | a :: b :: c :: e :: rest, h => by
    obtain ⟨ws, h1, h2, h3⟩ := placeData_some rest (by simp only [List.length_cons] at h; omega)
    refine ⟨word4 a b c e :: ws, by simp [placeData, h1], ?_, by simp only [List.length_cons]; omega⟩
    have e' : wordsBytes (word4 a b c e :: ws) = wordBytes (word4 a b c e) ++ wordsBytes ws := by
      simp [wordsBytes]
    rw [e', wordBytes_word4, h2]; rfl
  | [_], h => by simp at h
  | [_, _], h => by simp at h
  | [_, _, _], h => by simp at h

theorem getLsbD_bitsWord (g : Nat → Bool) (k : Nat) (hk : k < 32) : (bitsWord g).getLsbD k = g k := by
  have gen : ∀ (n : Nat), n ≤ 32 → ∀ k, k < 32 →
      ((List.range n).foldl (fun (w : W) i => if g i then w ||| (1#32 <<< i) else w) 0).getLsbD k
        = (decide (k < n) && g k) := by
    intro n
    induction n with
    | zero => intro _ k hk; simp
    | succ n ih =>
      intro hn k hk
      rw [List.range_succ, List.foldl_append]
      simp only [List.foldl_cons, List.foldl_nil]
      have ih := ih (by omega) k hk
      generalize hw : (List.range n).foldl (fun (w : W) i => if g i then w ||| (1#32 <<< i) else w) 0 = w at ih ⊢
      by_cases hkn : k = n
      · subst hkn
        have hf : w.getLsbD k = false := by rw [ih]; simp
        cases hg : g k
        · simp [hf]
        · simp [hk]
      · have h1 : decide (k < n + 1) = decide (k < n) := by
          by_cases h : k < n
          · simp [h]; omega
          · simp [h]; omega
        rw [h1, ← ih]
        split
        · rw [BitVec.getLsbD_or, BitVec.getLsbD_shiftLeft]
          by_cases h2 : k < n
          · simp [h2]
          · have : k - n ≠ 0 := by omega
            simp [BitVec.getLsbD_one, this, h2]
        · rfl
  have := gen 32 (by omega) k hk
  rw [bitsWord, this]
  simp [hk]

theorem beOfBit_beIndex (i : Nat) (hi : i < 32) : beIndex i < 32 ∧ beOfBit (beIndex i) = i := by
  unfold beIndex beOfBit
  omega

@[simp] theorem placeBE_length (be : List Bool) (len : Nat) : (placeBE be len).length = (len + 31) / 32 := by
  simp [placeBE]

open Spec in
theorem beBit_placeBE (be : List Bool) (len i : Nat) (rest : List W) (hi : i < len) :
    beBit (placeBE be len ++ rest) i = enabled be i := by
  have hk : i / 32 < (len + 31) / 32 := by omega
  have hlen : i / 32 < (placeBE be len).length := by simpa using hk
  unfold beBit
  rw [List.getD_eq_getElem?_getD, List.getElem?_append_left hlen, List.getElem?_eq_getElem hlen]
  simp only [Option.getD_some, placeBE, List.getElem_map, List.getElem_range]
  obtain ⟨h1, h2⟩ := beOfBit_beIndex (i % 32) (Nat.mod_lt _ (by omega))
  have e : 32 * (i / 32) + i % 32 = i := Nat.div_add_mod i 32
  unfold enabled
  split
  · rw [getLsbD_bitsWord _ _ h1, h2, e]
    simp [hi]
  · rw [getLsbD_bitsWord _ _ h1, h2, e]
    simp [hi]

end Verif.Cxs
