import Verif.HwMaster.Spec
import Verif.HwSlave.Geometry
import Verif.Bitops.Props
import Verif.Aligner.Props

namespace Verif.HwMaster
open Verif Verif.Axi

/-! ## Strobes -/

/-- Whether buffer byte `i` belongs to an access of `size` bytes at `off`. -/
def enAt (off size : Nat) (be : List Bool) (i : Nat) : Bool :=
  decide (off ≤ i ∧ i < off + size) && beEnabled be (i - off)

theorem beEnabled_nil (i : Nat) : beEnabled [] i = true := rfl

theorem beEnabled_getD (be : List Bool) (h : be ≠ []) (i : Nat) :
    be.getD (i % be.length) false = beEnabled be i := by
  unfold beEnabled
  have hl : 0 < be.length := List.length_pos_iff.mpr h
  have hm : i % be.length < be.length := Nat.mod_lt _ hl
  rw [List.getD_eq_getElem?_getD, List.getElem?_eq_getElem hm]
  rfl

theorem ff_bit (j p : Nat) (hj : j < 4) (hp : p < 4) :
    ((0xff : BitVec 32) <<< (j * 8)).getLsbD (p * 8) = decide (j = p) := by
  have : ∀ j : Fin 4, ∀ p : Fin 4, ((0xff : BitVec 32) <<< (j.val * 8)).getLsbD (p.val * 8) = decide (j.val = p.val) := by
    decide +kernel
  exact this ⟨j, hj⟩ ⟨p, hp⟩

theorem beWord_bits (off size : Nat) (be : List Bool) (hbe : be ≠ []) (bit p : Nat) (hp : p < 4) :
    ∀ (k j : Nat) (v : BitVec 32), j + k = 4 →
      (beWord off size be bit k j v).getLsbD (p * 8) =
        (v.getLsbD (p * 8) || (decide (j ≤ p) && enAt off size be (bit + p))) := by
  intro k
  induction k with
  | zero =>
    intro j v h
    have : decide (j ≤ p) = false := by simp; omega
    simp [beWord, this]
  | succ k ih =>
    intro j v h
    unfold beWord
    by_cases h1 : bit + j < off
    · rw [if_pos h1, ih (j + 1) v (by omega)]
      by_cases hjp : j = p
      · subst hjp
        have : enAt off size be (bit + j) = false := by simp [enAt]; omega
        simp [this]
      · have : decide (j + 1 ≤ p) = decide (j ≤ p) := by simp; omega
        rw [this]
    · rw [if_neg h1]
      by_cases h2 : bit + j ≥ off + size
      · rw [if_pos h2]
        by_cases hjp : j ≤ p
        · have : enAt off size be (bit + p) = false := by simp [enAt]; omega
          simp [this]
        · simp [hjp]
      · rw [if_neg h2, ih (j + 1) _ (by omega), beEnabled_getD be hbe]
        by_cases hjp : j = p
        · subst hjp
          have e : enAt off size be (bit + j) = beEnabled be (bit + j - off) := by
            unfold enAt
            rw [decide_eq_true (by omega), Bool.true_and]
          rw [e]
          have : decide (j + 1 ≤ j) = false := by simp
          rw [this]
          cases beEnabled be (bit + j - off) with
          | false => simp
          | true =>
            have := ff_bit j j (by omega) hp
            simp only [decide_true] at this
            rw [if_pos rfl, BitVec.getLsbD_or, this]; simp
        · have e1 : decide (j + 1 ≤ p) = decide (j ≤ p) := by simp; omega
          have e2 := ff_bit j p (by omega) hp
          rw [decide_eq_false hjp] at e2
          rw [e1]
          split
          · rw [BitVec.getLsbD_or, e2, Bool.or_false]
          · rfl

theorem strbWord_bits (off size : Nat) (be : List Bool) (bit p : Nat) (hp : p < 4) :
    (strbWord off size be bit).getLsbD (p * 8) = enAt off size be (bit + p) := by
  unfold strbWord
  by_cases hbe : be ≠ []
  · rw [if_pos hbe, beWord_bits off size be hbe bit p hp 4 0 0 rfl]
    simp
  · rw [if_neg hbe]
    have hbe : be = [] := by simpa using hbe
    subst hbe
    have hen : enAt off size [] (bit + p) = decide (off ≤ bit + p ∧ bit + p < off + size) := by
      simp [enAt, beEnabled_nil]
    rw [hen]
    by_cases h1 : bit ≤ off
    · rw [if_pos h1, BitVec.getLsbD_setWidth, Bitops.mask64_bits _ _ _ (by omega), decide_eq_true (show p * 8 < 32 by omega),
        Bool.true_and, ← Bool.decide_and]
      by_cases h2 : off ≤ bit + p ∧ bit + p < off + size
      · rw [decide_eq_true h2, decide_eq_true (by omega)]
      · rw [decide_eq_false h2, decide_eq_false (by omega)]
    · rw [if_neg h1]
      by_cases h2 : size > bit - off
      · rw [if_pos h2, BitVec.getLsbD_setWidth, Bitops.mask64_bits _ _ _ (by omega), decide_eq_true (show p * 8 < 32 by omega),
          Bool.true_and, ← Bool.decide_and]
        by_cases h3 : off ≤ bit + p ∧ bit + p < off + size
        · rw [decide_eq_true h3, decide_eq_true (by omega)]
        · rw [decide_eq_false h3, decide_eq_false (by omega)]
      · rw [if_neg h2, decide_eq_false (by omega)]
        simp

theorem putWords_bit (off size : Nat) (be : List Bool) : ∀ (k w : Nat) (f : Nat → Byte) (i : Nat),
    (putWords off size be k w f i).getLsbD 0 =
      if 4 * w ≤ i ∧ i < 4 * (w + k) then enAt off size be i else (f i).getLsbD 0 := by
  intro k
  induction k with
  | zero => intro w f i; rw [if_neg (by omega)]; rfl
  | succ k ih =>
    intro w f i
    rw [putWords, ih]
    by_cases h1 : 4 * (w + 1) ≤ i ∧ i < 4 * (w + 1 + k)
    · rw [if_pos h1, if_pos (by omega)]
    · rw [if_neg h1]
      unfold write32
      by_cases h2 : 4 * w ≤ i ∧ i < 4 * w + 4
      · rw [if_pos h2, if_pos (by omega), BitVec.getLsbD_extractLsb']
        have := strbWord_bits off size be (4 * w) (i - 4 * w) (by omega)
        rw [show 4 * w + (i - 4 * w) = i by omega] at this
        rw [Nat.add_zero, this]
        simp
      · rw [if_neg h2, if_neg (by omega)]

theorem setupWstrb_bit (c : Cfg) (hb : Bus c.db) (addr size : Nat) (be : List Bool) (f : Nat → Byte) (i : Nat)
    (hi : i < nrBeats c.db (addr % c.db) size * c.db) :
    (setupWstrb c addr size be f i).getLsbD 0 = enAt (addr % c.db) size be i := by
  unfold setupWstrb
  rw [putWords_bit, if_pos]
  generalize nrBeats c.db (addr % c.db) size = n at *
  refine ⟨by omega, ?_⟩
  have : 4 * (0 + n * ((c.db + 3) / 4)) = n * c.db := by
    rcases hb with h | h | h <;> rw [h] <;> omega
  omega

/-! ## Copies -/

theorem read32_byte (f : Nat → Byte) (a k : Nat) (hk : k < 4) :
    ((read32 f a) >>> (k * 8)).setWidth 8 = f (a + k) := by
  unfold read32
  have : k = 0 ∨ k = 1 ∨ k = 2 ∨ k = 3 := by omega
  rcases this with rfl | rfl | rfl | rfl <;>
  · ext i hi
    simp only [BitVec.getElem_setWidth, BitVec.getLsbD_ushiftRight, BitVec.getLsbD_append]
    simp [show ¬ (8 + i < 8) by omega, show ¬ (16 + i < 8) by omega, show ¬ (24 + i < 8) by omega, hi,
      show 16 + i - 8 = 8 + i by omega, show 24 + i - 8 = 16 + i by omega]

theorem copyWord_get (be : List Bool) (hbe : be ≠ []) : ∀ (n pos : Nat) (v : BitVec 32) (buf : List Byte) (p : Nat), p < buf.length →
    (copyWord be n pos v buf)[p]? =
      if pos ≤ p ∧ p < pos + n ∧ beEnabled be p = true then some ((v >>> ((p - pos) * 8)).setWidth 8) else buf[p]? := by
  intro n
  induction n with
  | zero => intro pos v buf p _; rw [if_neg (by omega)]; rfl
  | succ n ih =>
    intro pos v buf p hp
    rw [copyWord, ih _ _ _ _ (by split <;> simpa using hp), beEnabled_getD be hbe]
    by_cases h1 : pos = p
    · subst h1
      rw [if_neg (by omega)]
      by_cases h2 : beEnabled be pos = true
      · rw [if_pos h2, if_pos ⟨by omega, by omega, h2⟩]
        simp [hp]
      · rw [if_neg h2, if_neg (fun h => h2 h.2.2)]
    · by_cases h2 : pos + 1 ≤ p ∧ p < pos + 1 + n ∧ beEnabled be p = true
      · rw [if_pos h2, if_pos ⟨by omega, by omega, h2.2.2⟩, ← BitVec.shiftRight_add]
        congr 3
        omega
      · rw [if_neg h2, if_neg (c := pos ≤ p ∧ _) (by intro h; exact h2 ⟨by omega, by omega, h.2.2⟩)]
        split
        · rw [List.getElem?_set_ne (by omega)]
        · rfl

theorem copyWord_length (be : List Bool) : ∀ (n pos : Nat) (v : BitVec 32) (buf : List Byte),
    (copyWord be n pos v buf).length = buf.length := by
  intro n
  induction n with
  | zero => intro pos v buf; rfl
  | succ n ih => intro pos v buf; rw [copyWord, ih]; split <;> simp

theorem copyLoop_get (f : Nat → Byte) (be : List Bool) (hbe : be ≠ []) (len : Nat) :
    ∀ (k a wo i : Nat) (buf : List Byte), len - i ≤ k → wo < 4 → buf.length = len →
      (copyLoop f be len a wo i buf).length = len ∧
      ∀ p, p < len → (copyLoop f be len a wo i buf)[p]? =
        if i ≤ p ∧ beEnabled be p = true then some (f (a + wo + (p - i))) else buf[p]? := by
  intro k
  induction k with
  | zero =>
    intro a wo i buf hk hw hl
    rw [copyLoop, if_neg (by omega)]
    exact ⟨hl, fun p hp => by rw [if_neg (by omega)]⟩
  | succ k ih =>
    intro a wo i buf hk hw hl
    by_cases h : i < len
    · rw [copyLoop, if_pos ⟨h, hw⟩]
      obtain ⟨h1, h2⟩ := ih (a + 4) 0 (i + min (len - i) (4 - wo))
        (copyWord be (min (len - i) (4 - wo)) i (read32 f a >>> (wo * 8)) buf) (by omega) (by omega)
        (by rw [copyWord_length, hl])
      refine ⟨h1, fun p hp => ?_⟩
      rw [h2 p hp, copyWord_get be hbe _ _ _ _ _ (by omega)]
      by_cases he : beEnabled be p = true
      · by_cases h3 : i + min (len - i) (4 - wo) ≤ p
        · rw [if_pos ⟨h3, he⟩, if_pos ⟨by omega, he⟩]
          congr 2
          omega
        · rw [if_neg (fun x => h3 x.1)]
          by_cases h4 : i ≤ p
          · rw [if_pos ⟨h4, by omega, he⟩, if_pos ⟨h4, he⟩, ← BitVec.shiftRight_add,
              show wo * 8 + (p - i) * 8 = (wo + (p - i)) * 8 by omega, read32_byte f a _ (by omega)]
            congr 2
            omega
          · rw [if_neg (by omega), if_neg (by omega)]
      · simp [he]
    · rw [copyLoop, if_neg (by omega)]
      exact ⟨hl, fun p hp => by rw [if_neg (by omega)]⟩

theorem copyFrom_eq (f : Nat → Byte) (off : Nat) (be : List Bool) (buf : List Byte) (m : Mem) (a sw : Nat)
    (hf : ∀ i, i < buf.length → f (off + i) = m (a + i % sw)) :
    copyFrom f off be buf = readFrom m a sw be 0 buf := by
  have hget : ∀ (d : List Byte) (i j : Nat), j < d.length →
      (readFrom m a sw be i d)[j]? = if beEnabled be (i + j) then some (m (a + (i + j) % sw)) else d[j]? := by
    intro d
    induction d with
    | nil => intro i j h; simp at h
    | cons x d ih =>
      intro i j h
      cases j with
      | zero => simp only [readFrom, Nat.add_zero, List.getElem?_cons_zero]; split <;> rfl
      | succ j =>
        simp only [readFrom, List.getElem?_cons_succ]
        rw [ih (i + 1) j (by simpa using h), show i + 1 + j = i + (j + 1) by omega]
  unfold copyFrom
  by_cases hbe : be = []
  · rw [if_pos hbe]
    apply List.ext_getElem?
    intro p
    by_cases hp : p < buf.length
    · rw [hget buf 0 p hp, hbe, Nat.zero_add, beEnabled_nil]
      simp [hp, hf]
    · rw [List.getElem?_eq_none (by simp; omega), List.getElem?_eq_none (by simp; omega)]
  · rw [if_neg hbe]
    obtain ⟨h1, h2⟩ := copyLoop_get f be hbe buf.length buf.length (off - off % 4) (off % 4) 0 buf (by omega)
      (Nat.mod_lt _ (by omega)) rfl
    apply List.ext_getElem?
    intro p
    by_cases hp : p < buf.length
    · rw [hget buf 0 p hp, h2 p hp, Nat.zero_add]
      by_cases he : beEnabled be p = true
      · rw [if_pos ⟨by omega, he⟩, if_pos he, ← hf p hp]
        congr 2
        have := Nat.mod_le off 4
        omega
      · rw [if_neg (fun h => he h.2), if_neg he]
    · rw [List.getElem?_eq_none (by omega), List.getElem?_eq_none (by simp; omega)]

end Verif.HwMaster
