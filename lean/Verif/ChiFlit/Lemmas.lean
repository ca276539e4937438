import Verif.ChiFlit.Model
/-! Helper lemmas for the CHI flit model. -/
namespace Verif.ChiFlit

theorem testBit_getBits (f : Flit) : ∀ (w pos i : Nat),
    (getBits f pos w).testBit i = (decide (i < w) && f (pos + i))
  | 0, pos, i => by simp [getBits]
  | w + 1, pos, 0 => by
    rw [getBits, Nat.testBit_zero]
    cases f pos <;> simp <;> omega
  | w + 1, pos, i + 1 => by
    rw [getBits, Nat.testBit_succ]
    have : ((f pos).toNat + 2 * getBits f (pos + 1) w) / 2 = getBits f (pos + 1) w := by
      cases f pos <;> simp <;> omega
    rw [this, testBit_getBits f w]
    have e : pos + 1 + i = pos + (i + 1) := by omega
    rw [e]
    congr 1
    simp

theorem getBits_congr {f g : Flit} {pos w : Nat} (h : ∀ i, pos ≤ i → i < pos + w → f i = g i) :
    getBits f pos w = getBits g pos w := by
  apply Nat.eq_of_testBit_eq
  intro i
  rw [testBit_getBits, testBit_getBits]
  by_cases hi : i < w
  · rw [h (pos + i) (by omega) (by omega)]
  · simp [hi]

theorem getBits_lt (f : Flit) (pos w : Nat) : getBits f pos w < 2 ^ w := by
  apply Nat.lt_pow_two_of_testBit
  intro i hi
  rw [testBit_getBits]
  simp; intro; omega

theorem getBits_put (f : Flit) (pos w v : Nat) : getBits (putBits f pos w v) pos w = v % 2 ^ w := by
  apply Nat.eq_of_testBit_eq
  intro i
  rw [testBit_getBits, Nat.testBit_mod_two_pow]
  by_cases hi : i < w
  · have : pos ≤ pos + i ∧ pos + i < pos + w := by omega
    simp [putBits, hi]
  · simp [hi]

theorem putBits_other {f : Flit} {pos w v i : Nat} (h : i < pos ∨ pos + w ≤ i) :
    putBits f pos w v i = f i := by
  unfold putBits
  rw [if_neg (by omega)]

/-- A mask with (at least) the low `w` bits set. -/
def Full (m : Option Nat) (w : Nat) : Prop := ∃ k, m = some k ∧ ∀ i, i < w → k.testBit i = true

theorem full_pow (w : Nat) : Full (some (2 ^ w - 1)) w :=
  ⟨_, rfl, fun i hi => by rw [Nat.testBit_two_pow_sub_one]; simp [hi]⟩

theorem full_mask (ub : Ub) {bits w : Nat} (h : bits ≤ 32 ∧ w ≤ 30 ∨ bits = 32 ∧ w ≤ 31 ∨ bits = 64 ∧ w ≤ 63) :
    Full (mask ub bits w) w := by
  unfold mask
  split
  · exact full_pow w
  · split
    · exact full_pow w
    · split
      · exact full_pow w
      · omega

theorem full_intMask (ub : Ub) {w : Nat} (h : w ≤ 30) : Full (intMask ub w) w := by
  unfold intMask
  rw [if_pos h]
  exact full_pow w

theorem and_full {k w : Nat} (hk : ∀ i, i < w → k.testBit i = true) (v : Nat) :
    (v &&& k) % 2 ^ w = v % 2 ^ w := by
  apply Nat.eq_of_testBit_eq
  intro i
  rw [Nat.testBit_mod_two_pow, Nat.testBit_mod_two_pow, Nat.testBit_and]
  by_cases hi : i < w
  · simp [hi, hk i hi]
  · simp [hi]

/-- A packed field and the extraction that reads it back. -/
def Pair (ub : Ub) (typed : Bool) (x : Field) (s : Slot) : Prop :=
  x.w = s.w ∧
  ((x.bits = 1 ∧ s.bits = 1 ∧ x.w = 1) ∨
   (x.bits ≠ 1 ∧ s.bits ≠ 1 ∧ x.w ≤ s.bits ∧ Full (mask ub x.bits x.w) x.w ∧
     Full (if typed then mask ub s.bits s.w else intMask ub s.w) x.w))

/-- Fields and extractions paired up one by one. -/
inductive Pairs (ub : Ub) (typed : Bool) : List Field → List Slot → Prop
  | nil : Pairs ub typed [] []
  | cons {x s xs ss} : Pair ub typed x s → Pairs ub typed xs ss → Pairs ub typed (x :: xs) (s :: ss)

theorem Pairs.append {ub : Ub} {typed : Bool} {xs ys : List Field} {ss ts : List Slot}
    (h : Pairs ub typed xs ss) (h' : Pairs ub typed ys ts) : Pairs ub typed (xs ++ ys) (ss ++ ts) := by
  induction h with
  | nil => exact h'
  | cons p _ ih => exact .cons p ih

def total (xs : List Field) : Nat := (xs.map (·.w)).sum

theorem field_roundtrip {ub : Ub} {typed : Bool} {x : Field} {s : Slot} (h : Pair ub typed x s)
    {W : Nat} {f : Flit} {pos : Nat} (hW : pos + x.w ≤ W) :
    ∃ f', setField ub W f pos x = some f' ∧ (∀ i, i < pos ∨ pos + x.w ≤ i → f' i = f i) ∧
      ∀ g : Flit, (∀ i, pos ≤ i → i < pos + x.w → g i = f' i) →
        getField ub typed g pos s = some (x.v % 2 ^ x.w) := by
  obtain ⟨hw, h⟩ := h
  rcases h with ⟨h1, h2, h3⟩ | ⟨h1, h2, h3, ⟨k, hk, hk'⟩, ⟨l, hl, hl'⟩⟩
  · refine ⟨putBits f pos 1 x.v, ?_, ?_, ?_⟩
    · unfold setField
      rw [if_pos h1, if_pos (by omega)]
    · intro i hi
      exact putBits_other (by omega)
    · intro g hg
      unfold getField
      rw [if_pos h2, getBits_congr (g := putBits f pos 1 x.v) (fun i a b => hg i a (by omega)),
        getBits_put, h3]
  · refine ⟨putBits f pos x.w (x.v &&& k), ?_, fun i hi => putBits_other hi, ?_⟩
    · unfold setField
      rw [if_neg h1, hk]
      simp only
      rw [if_pos hW]
    · intro g hg
      unfold getField
      rw [if_neg h2, hl]
      simp only
      rw [← hw, getBits_congr (g := putBits f pos x.w (x.v &&& k)) hg, getBits_put, and_full hk']
      have lt : x.v % 2 ^ x.w < 2 ^ x.w := Nat.mod_lt _ (Nat.two_pow_pos _)
      have e := and_full hl' (x.v % 2 ^ x.w)
      rw [Nat.mod_eq_of_lt lt, Nat.mod_eq_of_lt (Nat.lt_of_le_of_lt Nat.and_le_left lt)] at e
      rw [e, Nat.mod_eq_of_lt (Nat.lt_of_lt_of_le lt (Nat.pow_le_pow_right (by omega) h3))]

theorem fields_roundtrip {ub : Ub} {typed : Bool} {W : Nat} {xs : List Field} {ss : List Slot}
    (h : Pairs ub typed xs ss) : ∀ {f : Flit} {pos : Nat}, pos + total xs ≤ W →
    ∃ f', setFields ub W f pos xs = some (f', pos + total xs) ∧
      (∀ i, i < pos ∨ pos + total xs ≤ i → f' i = f i) ∧
      ∀ g : Flit, (∀ i, pos ≤ i → i < pos + total xs → g i = f' i) →
        getFields ub typed g pos ss = some (xs.map fun x => x.v % 2 ^ x.w, pos + total xs) := by
  induction h with
  | nil =>
    intro f pos _
    exact ⟨f, by simp [setFields, total], fun _ _ => rfl, fun g _ => by simp [getFields, total]⟩
  | @cons x s xs ss hp _ ih =>
    intro f pos hW
    have ht : total (x :: xs) = x.w + total xs := by simp [total]
    rw [ht] at hW
    obtain ⟨f1, e1, o1, g1⟩ := field_roundtrip hp (W := W) (f := f) (pos := pos) (by omega)
    obtain ⟨f2, e2, o2, g2⟩ := ih (f := f1) (pos := pos + x.w) (by omega)
    refine ⟨f2, ?_, ?_, ?_⟩
    · rw [setFields, e1]
      simp only
      rw [e2, ht]
      simp [Nat.add_assoc]
    · intro i hi
      rw [ht] at hi
      rw [o2 i (by omega), o1 i (by omega)]
    · intro g hg
      rw [ht] at hg
      have a := g1 g (fun i h1 h2 => by rw [hg i h1 (by omega), o2 i (Or.inl h2)])
      have b := g2 g (fun i h1 h2 => hg i (by omega) (by omega))
      rw [getFields, a]
      simp only
      rw [← hp.1, b, ht]
      simp [Nat.add_assoc]

theorem setFields_pos {ub : Ub} {W : Nat} : ∀ {xs : List Field} {f : Flit} {p : Nat} {g q},
    setFields ub W f p xs = some (g, q) → q = p + total xs
  | [], f, p, g, q, h => by
    simp only [setFields, Option.some.injEq, Prod.mk.injEq] at h
    simp [total, h.2]
  | x :: xs, f, p, g, q, h => by
    simp only [setFields] at h
    split at h
    · exact absurd h (by simp)
    · rw [setFields_pos h]
      simp [total]
      omega

theorem setFields_append {ub : Ub} {W : Nat} : ∀ {xs ys : List Field} {f : Flit} {p : Nat} {g q},
    setFields ub W f p xs = some (g, q) → setFields ub W f p (xs ++ ys) = setFields ub W g q ys
  | [], ys, f, p, g, q, h => by
    simp only [setFields, Option.some.injEq, Prod.mk.injEq] at h
    rw [h.1, h.2]
    rfl
  | x :: xs, ys, f, p, g, q, h => by
    simp only [setFields] at h
    simp only [List.cons_append, setFields]
    cases e : setField ub W f p x with
    | none => simp [e] at h
    | some f' =>
      simp only [e] at h ⊢
      exact setFields_append h

theorem pair_num (ub : Ub) (typed : Bool) {b b' w v : Nat} (h : b ≠ 1 ∧ b' ≠ 1) (hw : w ≤ b')
    (hm : Full (mask ub b w) w)
    (hm' : Full (if typed then mask ub b' w else intMask ub w) w) :
    Pair ub typed ⟨b, w, v⟩ ⟨b', w⟩ := ⟨rfl, Or.inr ⟨h.1, h.2, hw, hm, hm'⟩⟩

/-- The common case: both types below 64 bits, narrow field. -/
theorem pair_small (ub : Ub) (typed : Bool) {b b' w v : Nat}
    (h : (b = 8 ∨ b = 16 ∨ b = 32) ∧ (b' = 8 ∨ b' = 16 ∨ b' = 32)) (hw : w ≤ b') (hw' : w ≤ 30) :
    Pair ub typed ⟨b, w, v⟩ ⟨b', w⟩ := by
  refine pair_num ub typed (by omega) hw (full_mask ub (by omega)) ?_
  cases typed
  · exact full_intMask ub hw'
  · exact full_mask ub (by omega)

theorem pair_flag (ub : Ub) (typed : Bool) (b : Bool) : Pair ub typed (flag b) flagSlot :=
  ⟨rfl, Or.inl ⟨rfl, rfl, rfl⟩⟩

/-! ### The data loop -/

theorem setDataFrom_ok {W : Nat} {buf : List (BitVec 8)} {pos : Nat} : ∀ (n i : Nat) (f : Flit),
    i + n ≤ buf.length → pos + 8 * (i + n) ≤ W →
    ∃ f', setDataFrom W buf f pos i n = some f' ∧
      (∀ k, k < pos + 8 * i ∨ pos + 8 * (i + n) ≤ k → f' k = f k) ∧
      ∀ j (hj : j < buf.length), i ≤ j → j < i + n → ∀ k, k < 8 →
        f' (pos + 8 * j + k) = (buf[j]).toNat.testBit k
  | 0, i, f, _, _ => ⟨f, rfl, fun _ _ => rfl, fun j _ a b => by omega⟩
  | n + 1, i, f, hl, hW => by
    have hi : i < buf.length := by omega
    obtain ⟨f', e, o, d⟩ := setDataFrom_ok n (i + 1)
      (putBits f (pos + 8 * i) 8 (buf[i]).toNat) (W := W) (buf := buf) (pos := pos)
      (by omega) (by omega)
    refine ⟨f', ?_, ?_, ?_⟩
    · rw [setDataFrom, List.getElem?_eq_getElem hi]
      simp only
      rw [if_pos (by omega), e]
    · intro k hk
      rw [o k (by omega), putBits_other (by omega)]
    · intro j hj h1 h2 k hk
      by_cases hji : j = i
      · subst hji
        rw [o _ (by omega)]
        unfold putBits
        rw [if_pos (by omega)]
        congr 1
        omega
      · exact d j hj (by omega) (by omega) k hk

/-- The loop reads one byte too many: with a buffer of exactly the needed length
it leaves the buffer. -/
theorem setDataFrom_overread {W : Nat} {buf : List (BitVec 8)} {pos : Nat} :
    ∀ (n i : Nat) (f : Flit), buf.length < i + n → i ≤ buf.length →
      setDataFrom W buf f pos i n = none
  | 0, i, f, h, h' => by omega
  | n + 1, i, f, h, h' => by
    rw [setDataFrom]
    by_cases hi : i < buf.length
    · rw [List.getElem?_eq_getElem hi]
      simp only
      split
      · exact setDataFrom_overread n (i + 1) _ (by omega) (by omega)
      · rfl
    · rw [List.getElem?_eq_none (by omega)]

theorem setDataFrom_range {W : Nat} {buf : List (BitVec 8)} {pos : Nat} :
    ∀ (n i : Nat) (f : Flit), W < pos + 8 * (i + n) → 0 < n →
      setDataFrom W buf f pos i n = none
  | 0, i, f, h, h' => by omega
  | n + 1, i, f, h, h' => by
    rw [setDataFrom]
    split
    · rfl
    · split
      · exact setDataFrom_range n (i + 1) _ (by omega) (by omega)
      · rfl

end Verif.ChiFlit
