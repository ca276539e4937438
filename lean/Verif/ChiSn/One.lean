import Verif.ChiSn.Lemmas

/-! # One request: the node does what the specification says -/

namespace Verif.ChiSn

theorem carries_placed (m : Mem) (tag a n : Nat) (sep uc : Bool) :
    CarriesBytes m a n ⟨tag, placed (lineOff a) (m.range a n), some (placedEn (lineOff a) n), sep, uc⟩ := by
  refine ⟨by simp [placed], placedEn (lineOff a) n, rfl, by simp [placedEn], ?_⟩
  intro i hi
  have hb : (placedEn (lineOff a) n).getD i false = decide (lineOff a ≤ i ∧ i < lineOff a + n) := by
    simp only [placedEn, List.getD_eq_getElem?_getD, List.getElem?_map]
    rw [List.getElem?_range hi]; rfl
  have hd : (placed (lineOff a) (m.range a n)).getD i 0 =
      if lineOff a ≤ i ∧ i < lineOff a + (m.range a n).length then
        (m.range a n).getD (i - lineOff a) 0 else 0 := by
    simp only [placed, List.getD_eq_getElem?_getD, List.getElem?_map]
    rw [List.getElem?_range hi]; rfl
  show ((placedEn (lineOff a) n).getD i false = true ↔ _) ∧
    ((placedEn (lineOff a) n).getD i false = true → (placed (lineOff a) (m.range a n)).getD i 0 = _)
  rw [hb, hd, decide_eq_true_iff]
  have el : lineOff a = a % 64 := rfl
  refine ⟨by rw [el]; omega, fun hh => ?_⟩
  rw [if_pos (by rw [Mem.range_length]; exact hh)]
  simp only [Mem.range, List.getD_eq_getElem?_getD, List.getElem?_map]
  rw [List.getElem?_range (by omega)]
  show m (a + (i - lineOff a)) = _
  rw [el] at hh ⊢
  congr 1; omega

/-- The kinds of request exclude each other. -/
theorem atomic_kinds (r : Req) : r.isAtomic = true →
    r.isRead = false ∧ r.isReadSep = false ∧ r.isWrite = false ∧ r.isMaint = false ∧
    ((r.isAtStore = true ∧ r.isAtLoad = false ∧ r.isAtSwap = false ∧ r.isAtCmp = false) ∨
     (r.isAtStore = false ∧ r.isAtLoad = true ∧ r.isAtSwap = false ∧ r.isAtCmp = false) ∨
     (r.isAtStore = false ∧ r.isAtLoad = false ∧ r.isAtSwap = true ∧ r.isAtCmp = false) ∨
     (r.isAtStore = false ∧ r.isAtLoad = false ∧ r.isAtSwap = false ∧ r.isAtCmp = true)) := by
  simp only [Req.isAtomic, Req.isRead, Req.isReadSep, Req.isWrite, Req.isMaint, Req.isAtStore, Req.isAtLoad,
    Req.isAtSwap, Req.isAtCmp, Bool.and_eq_true, decide_eq_true_eq, beq_eq_false_iff_ne, Bool.or_eq_false_iff,
    Bool.and_eq_false_iff, decide_eq_false_iff_not, beq_iff_eq, ne_eq]
  intro h
  omega

theorem nonatomic_kinds (r : Req) : r.isAtomic = false →
    r.isAtStore = false ∧ r.isAtLoad = false ∧ r.isAtSwap = false ∧ r.isAtCmp = false := by
  simp only [Req.isAtomic, Req.isAtStore, Req.isAtLoad,
    Req.isAtSwap, Req.isAtCmp, beq_eq_false_iff_ne,
    Bool.and_eq_false_iff, decide_eq_false_iff_not, ne_eq]
  omega

theorem read_kinds (r : Req) : (r.isRead || r.isReadSep) = true → r.isWrite = false ∧ r.isMaint = false := by
  simp only [Req.isRead, Req.isReadSep, Req.isWrite, Req.isMaint, Bool.or_eq_true, beq_iff_eq,
    Bool.or_eq_false_iff, beq_eq_false_iff_ne, ne_eq]
  omega

theorem atomicDo_rmw (t : Txn) (m : Mem) (new : List Byte) (hle : t.req.len ≤ 64)
    (hf : t.req.addr % 64 + t.req.len ≤ 64) (hc : t.req.isAtCmp = false)
    (hn : atomicNew t (m.range t.req.addr t.req.len) = some new) :
    atomicDo t m = some (m.store t.req.addr new, if t.req.isAtStore then none
      else some ⟨t.req.tag, placed (lineOff t.req.addr) (m.range t.req.addr t.req.len),
        some (placedEn (lineOff t.req.addr) t.req.len), false, false⟩) := by
  unfold atomicDo
  have e1 : ¬ lineSz < t.req.len := Nat.not_lt.2 hle
  have e2 : (!t.req.isAtStore && decide (lineSz < lineOff t.req.addr + t.req.len)) = false := by
    rw [decide_eq_false (show ¬ lineSz < lineOff t.req.addr + t.req.len by
      show ¬ 64 < t.req.addr % 64 + t.req.len; omega), Bool.and_false]
  simp only [hn, hc, if_neg e1, Mem.range_length, e2, Bool.false_eq_true, if_false]
  rfl

theorem rmw_new (t : Txn) (m : Mem) (hf : t.req.addr % 64 + t.req.len ≤ 64)
    (hk : (t.req.isAtStore || t.req.isAtLoad) = true) :
    atomicNew t (m.range t.req.addr t.req.len) =
      rmw t.req.opcode t.req.big (m.range t.req.addr t.req.len) (t.at t.req.addr t.req.len) := by
  unfold atomicNew
  rw [Mem.range_length, if_pos hk, if_pos (show lineOff t.req.addr + t.req.len ≤ lineSz from hf),
    bytes_at t hf]

theorem sends_atomic (t : Txn) (m : Mem) (ha : t.req.isAtomic = true)
    (hc : t.req.isAtCmp = false) :
    Sends t m (if t.req.isAtStore then none
      else some ⟨t.req.tag, placed (lineOff t.req.addr) (m.range t.req.addr t.req.len),
        some (placedEn (lineOff t.req.addr) t.req.len), false, false⟩) := by
  obtain ⟨k1, k2, _⟩ := atomic_kinds _ ha
  cases hs : t.req.isAtStore
  · refine ⟨rfl, .inr ⟨ha, by simp [hs], ?_⟩⟩
    rw [hc]
    exact carries_placed m t.req.tag _ _ false false
  · exact ⟨by simp [k1, k2], by simp [hs]⟩

/-- Atomic stores and loads that name add or clear. -/
theorem add_clr_ok (t : Txn) (m : Mem) (ha : t.req.isAtomic = true)
    (hk : (t.req.isAtStore || t.req.isAtLoad) = true)
    (hl : t.req.len = 1 ∨ t.req.len = 2 ∨ t.req.len = 4 ∨ t.req.len = 8)
    (hal : t.req.addr % t.req.len = 0) (hop : t.req.opcode % 8 < 2) :
    ∃ o, atomicDo t m = some (specMem t m, o) ∧ Sends t m o := by
  obtain ⟨k1, k2, k3, k4, k5⟩ := atomic_kinds _ ha
  have hf := fits (dvd_small (by omega)) hal
  have hc : t.req.isAtCmp = false := by
    rcases k5 with ⟨a, b, c, d⟩ | ⟨a, b, c, d⟩ | ⟨a, b, c, d⟩ | ⟨a, b, c, d⟩
    · exact d
    · exact d
    · exact d
    · rw [a, b] at hk; cases hk
  have h1 := rmw_add_clr hop t.req.big (m.range t.req.addr t.req.len) (t.at t.req.addr t.req.len)
    (by rw [Mem.range_length]; exact hl) (by simp)
  rw [← rmw_new t m hf hk, Mem.range_length] at h1
  refine ⟨_, ?_, sends_atomic t m ha hc⟩
  rw [atomicDo_rmw t m _ (by omega) hf hc h1]
  unfold specMem
  simp only [k3, hk, Bool.false_eq_true, if_false, if_true]

theorem swap_ok (t : Txn) (m : Mem) (ha : t.req.isAtomic = true) (hk : t.req.isAtSwap = true)
    (hl : t.req.len ≤ 64) (hf : t.req.addr % 64 + t.req.len ≤ 64) :
    ∃ o, atomicDo t m = some (specMem t m, o) ∧ Sends t m o := by
  obtain ⟨k1, k2, k3, k4, k5⟩ := atomic_kinds _ ha
  have hkk : t.req.isAtStore = false ∧ t.req.isAtLoad = false ∧ t.req.isAtCmp = false := by
    rcases k5 with ⟨a, b, c, d⟩ | ⟨a, b, c, d⟩ | ⟨a, b, c, d⟩ | ⟨a, b, c, d⟩
    · rw [hk] at c; cases c
    · rw [hk] at c; cases c
    · exact ⟨a, b, d⟩
    · rw [hk] at c; cases c
  obtain ⟨a, b, c⟩ := hkk
  have h1 : atomicNew t (m.range t.req.addr t.req.len) = some (t.at t.req.addr t.req.len) := by
    unfold atomicNew
    rw [Mem.range_length, if_neg (by simp [a, b]), if_pos hk,
      if_pos (show lineOff t.req.addr + t.req.len ≤ lineSz from hf), bytes_at t hf]
  refine ⟨_, ?_, sends_atomic t m ha c⟩
  rw [atomicDo_rmw t m _ hl hf c h1]
  unfold specMem
  simp only [k3, a, b, hk, Bool.false_eq_true, Bool.or_false, if_false, if_true]

theorem even_len {l : Nat} (hl : l = 2 ∨ l = 4 ∨ l = 8 ∨ l = 16 ∨ l = 32) :
    l ∣ 64 ∧ l / 2 ∣ 64 ∧ l = l / 2 + l / 2 ∧ 0 < l / 2 := by
  rcases hl with h | h | h | h | h <;> subst h <;> decide

/-- Where the two halves of a compare lie. -/
theorem halves {a l : Nat} (hl : l ∣ 64) (h2 : l = l / 2 + l / 2) (hp : 0 < l / 2) (ha : a % (l / 2) = 0) :
    (a % l = 0 ∧ a % 64 % l = 0 ∧ a % 64 + l ≤ 64) ∨
    (a % l = l / 2 ∧ a % 64 % l = l / 2 ∧ l / 2 ≤ a % 64 ∧ a % 64 + l / 2 ≤ 64) := by
  have hd := Nat.mod_mod_of_dvd a hl
  have hlt : a % l < l := Nat.mod_lt _ (by omega)
  have h64 : a % 64 < 64 := Nat.mod_lt _ (by omega)
  have hm : a % l % (l / 2) = 0 := by
    rw [Nat.mod_mod_of_dvd a (⟨2, by omega⟩ : l / 2 ∣ l)]; exact ha
  obtain ⟨q, hq⟩ := Nat.dvd_of_mod_eq_zero hm
  have hq2 : q < 2 := by
    rcases Nat.lt_or_ge q 2 with h | h
    · exact h
    · have : l / 2 * 2 ≤ l / 2 * q := Nat.mul_le_mul_left _ h
      omega
  rcases (by omega : q = 0 ∨ q = 1) with h | h
  · subst h
    exact .inl ⟨by omega, by omega, fits hl (by omega)⟩
  · subst h
    have e : a % 64 % l = l / 2 := by omega
    have h3 : (a - l / 2) % l = 0 := by
      have hdm := Nat.div_add_mod a l
      have : a - l / 2 = l * (a / l) := by omega
      rw [this, Nat.mul_mod_right]
    have h4 := fits hl h3
    have hle : a % 64 % l ≤ a % 64 := Nat.mod_le _ _
    have hla : a % l ≤ a := Nat.mod_le _ _
    refine .inr ⟨by omega, e, by omega, by omega⟩

theorem cas_ok (t : Txn) (m : Mem) (ha : t.req.isAtomic = true) (hk : t.req.isAtCmp = true)
    (hl : t.req.len = 2 ∨ t.req.len = 4 ∨ t.req.len = 8 ∨ t.req.len = 16 ∨ t.req.len = 32)
    (hal : t.req.addr % (t.req.len / 2) = 0) :
    ∃ o, atomicDo t m = some (specMem t m, o) ∧ Sends t m o := by
  obtain ⟨k1, k2, k3, k4, k5⟩ := atomic_kinds _ ha
  have hkk : t.req.isAtStore = false ∧ t.req.isAtLoad = false ∧ t.req.isAtSwap = false := by
    rcases k5 with ⟨a, b, c, d⟩ | ⟨a, b, c, d⟩ | ⟨a, b, c, d⟩ | ⟨a, b, c, d⟩
    · rw [hk] at d; cases d
    · rw [hk] at d; cases d
    · rw [hk] at d; cases d
    · exact ⟨a, b, c⟩
  obtain ⟨n1, n2, n3⟩ := hkk
  obtain ⟨e1, e2, e3, e4⟩ := even_len hl
  have hh := halves e1 e3 e4 hal
  have hfh : t.req.addr % 64 + t.req.len / 2 ≤ 64 := by omega
  -- the bytes written back
  have hnew : ∃ new, atomicNew t (m.range t.req.addr t.req.len) = some new ∧
      m.store t.req.addr new = specMem t m := by
    unfold atomicNew
    rw [if_neg (by simp [n1, n2]), if_neg (by simp [n3])]
    have hso : ∃ so, swapOff (lineOff t.req.addr) t.req.len = some so ∧ so + t.req.len / 2 ≤ 64 ∧
        so = (if t.req.addr % t.req.len = 0 then t.req.addr + t.req.len / 2
          else t.req.addr - t.req.len / 2) % 64 := by
      unfold swapOff
      rw [if_neg (by omega)]
      have el : lineOff t.req.addr = t.req.addr % 64 := rfl
      rw [el]
      rcases hh with ⟨h1, h2, h3⟩ | ⟨h1, h2, h3, h4⟩
      · rw [if_neg (by omega), if_pos h1]
        exact ⟨_, rfl, by omega, by omega⟩
      · rw [if_pos (by omega), if_pos h3, if_neg (by omega)]
        exact ⟨_, rfl, by omega, by omega⟩
    obtain ⟨so, hs1, hs2, hs3⟩ := hso
    unfold cas
    simp only [Mem.range_length, hs1]
    have hb : t.bytes so (t.req.len / 2) = t.at (if t.req.addr % t.req.len = 0 then
        t.req.addr + t.req.len / 2 else t.req.addr - t.req.len / 2) (t.req.len / 2) := by
      rw [hs3, ← bytes_at t (by omega)]; rfl
    have hb2 := bytes_at t (a := t.req.addr) hfh
    have c1 : lineOff t.req.addr + t.req.len / 2 ≤ lineSz ∧ so + t.req.len / 2 ≤ lineSz := ⟨hfh, hs2⟩
    refine ⟨_, (if_pos c1).trans rfl, ?_⟩
    rw [range_take m _ (by omega), hb2, hb]
    unfold specMem
    simp only [k3, n1, n2, n3, hk, Bool.false_eq_true, Bool.or_false, if_false, if_true]
    by_cases hm : m.range t.req.addr (t.req.len / 2) = t.at t.req.addr (t.req.len / 2)
    · rw [if_pos hm, if_pos hm]
      have := store_app_range m t.req.addr (t.at (if t.req.addr % t.req.len = 0 then
        t.req.addr + t.req.len / 2 else t.req.addr - t.req.len / 2) (t.req.len / 2)) t.req.len
      rw [at_length] at this
      exact this
    · rw [if_neg hm, if_neg hm, store_range_self]
  obtain ⟨new, hn1, hn2⟩ := hnew
  have d1 : ¬ lineSz < t.req.len := by show ¬ 64 < t.req.len; omega
  have d2 : (!t.req.isAtStore && decide (lineSz < lineOff t.req.addr + t.req.len / 2)) = false := by
    rw [decide_eq_false (show ¬ lineSz < lineOff t.req.addr + t.req.len / 2 by
      show ¬ 64 < t.req.addr % 64 + t.req.len / 2; omega), Bool.and_false]
  refine ⟨some ⟨t.req.tag, placed (lineOff t.req.addr) (m.range t.req.addr (t.req.len / 2)),
    some (placedEn (lineOff t.req.addr) (t.req.len / 2)), false, false⟩, ?_, ?_⟩
  · unfold atomicDo
    simp only [hn1, hk, if_true, range_take m _ (show t.req.len / 2 ≤ t.req.len by omega), if_neg d1,
      Mem.range_length, d2, Bool.false_eq_true, if_false]
    rw [← hn2, n1]; rfl
  · refine ⟨rfl, .inr ⟨ha, by simp [n1], ?_⟩⟩
    rw [hk]
    exact carries_placed m t.req.tag _ _ false false

/-- One request of any legal kind. -/
theorem perform_ok (t : Txn) (m : Mem) (hl : Legal t.req) (hop : AddClr t.req) :
    ∃ o, perform t m = some (specMem t m, o) ∧ Sends t m o := by
  obtain ⟨l1, l2, l3, l4⟩ := hl
  unfold perform
  cases ha : t.req.isAtomic
  · obtain ⟨n1, n2, n3, n4⟩ := nonatomic_kinds _ ha
    simp only [Bool.false_eq_true, if_false]
    by_cases hr : (t.req.isRead || t.req.isReadSep) = true
    · rw [if_pos hr]
      have hrr : t.req.isRead = true ∨ t.req.isReadSep = true := by simpa using hr
      have e : specMem t m = m := by
        unfold specMem
        simp only [(read_kinds _ hr).1, n1, n2, n3, n4, Bool.false_eq_true, Bool.or_false, if_false]
      exact ⟨some _, by rw [readDo_eq t m (l1 hrr), e], rfl, .inl ⟨hrr, ⟨rfl, rfl⟩, rfl⟩⟩
    · rw [if_neg hr]
      have hrr : ¬ (t.req.isRead = true ∨ t.req.isReadSep = true) := by simpa using hr
      cases hw : t.req.isWrite
      · refine ⟨none, ?_, hrr, by simp [ha]⟩
        have e : specMem t m = m := by
          unfold specMem
          simp only [hw, n1, n2, n3, n4, Bool.false_eq_true, Bool.or_false, if_false]
        rw [e]; rfl
      · exact ⟨none, by simp only [if_true]; rw [writeDo_eq t m hw (l2 hw)], hrr, by simp [ha]⟩
  · simp only [if_true]
    obtain ⟨_, _, _, _, k5⟩ := atomic_kinds _ ha
    rcases k5 with ⟨a, b, c, d⟩ | ⟨a, b, c, d⟩ | ⟨a, b, c, d⟩ | ⟨a, b, c, d⟩
    · exact add_clr_ok t m ha (by simp [a]) (l3 (.inl a)).1 (l3 (.inl a)).2 (hop (.inl a))
    · exact add_clr_ok t m ha (by simp [b]) (l3 (.inr (.inl b))).1 (l3 (.inr (.inl b))).2 (hop (.inr b))
    · have h := l3 (.inr (.inr c))
      exact swap_ok t m ha c (by omega) (fits (dvd_small (by omega)) h.2)
    · exact cas_ok t m ha d (l4 d).1 (l4 d).2

end Verif.ChiSn
