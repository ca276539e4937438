import Verif.Xgmii.Model

/-! # Lane packing lemmas -/

namespace Verif.Xgmii
open Verif

theorem laneCtrl (c : BitVec 8) (l : Nat) (hl : l < 8) : decide (c &&& ((1 : BitVec 8) <<< l) ≠ 0) = c.getLsbD l := by
  have : ∀ l : Fin 8, ∀ c : BitVec 8, decide (c &&& ((1 : BitVec 8) <<< l.val) ≠ 0) = c.getLsbD l := by decide +kernel
  exact this ⟨l, hl⟩ c

theorem fill_data (bs : List Byte) : ∀ (n l : Nat) (data : BitVec 64) (c : BitVec 8) (ctrl : BitVec 64),
    bs.length ≤ n → l + bs.length ≤ 8 → (∀ j, l * 8 ≤ j → data.getLsbD j = false) → ∀ k, k < 8 →
    (((fillLanes n l data c ctrl bs).1) >>> (k * 8)).setWidth 8 =
      if k < l then (data >>> (k * 8)).setWidth 8 else bs.getD (k - l) 0 := by
  induction bs with
  | nil =>
    intro n l data c ctrl _ _ hz k hk
    have e : (fillLanes n l data c ctrl []).1 = data := by cases n <;> rfl
    rw [e]
    split
    · rfl
    · apply BitVec.eq_of_getLsbD_eq
      intro i hi
      rw [BitVec.getLsbD_setWidth, BitVec.getLsbD_ushiftRight, hz _ (by omega)]
      simp
  | cons b bs ih =>
    intro n l data c ctrl hn hl hz k hk
    cases n with
    | zero => simp at hn
    | succ n =>
      simp only [List.length_cons] at hn hl
      rw [fillLanes, ih n (l + 1) _ _ _ (by omega) (by omega) _ k hk]
      · have hbit : ∀ i, i < 8 → ((data ||| (b.setWidth 64 <<< (l * 8))) >>> (k * 8)).getLsbD i =
            (data.getLsbD (k * 8 + i) || (decide (k = l) && b.getLsbD i)) := by
          intro i hi
          rw [BitVec.getLsbD_ushiftRight, BitVec.getLsbD_or, BitVec.getLsbD_shiftLeft, BitVec.getLsbD_setWidth]
          congr 1
          by_cases h : k = l
          · subst h; simp [show k * 8 + i < 64 by omega, show i < 64 by omega]
          · by_cases h2 : k < l
            · simp [show k * 8 + i < l * 8 by omega, h]
            · rw [BitVec.getLsbD_of_ge b _ (by omega)]; simp [h]
        by_cases h1 : k < l
        · rw [if_pos h1, if_pos (by omega)]
          apply BitVec.eq_of_getLsbD_eq
          intro i hi
          rw [BitVec.getLsbD_setWidth, BitVec.getLsbD_setWidth, hbit i hi, BitVec.getLsbD_ushiftRight]
          simp [show k ≠ l by omega]
        · rw [if_neg h1]
          by_cases h2 : k = l
          · subst h2
            rw [if_pos (by omega), Nat.sub_self]
            apply BitVec.eq_of_getLsbD_eq
            intro i hi
            rw [BitVec.getLsbD_setWidth, hbit i hi, hz _ (by omega)]
            simp [hi]
          · rw [if_neg (by omega), show k - l = (k - (l + 1)) + 1 by omega]
            simp
      · intro j hj
        rw [BitVec.getLsbD_or, hz j (by omega), BitVec.getLsbD_shiftLeft, BitVec.getLsbD_setWidth,
          BitVec.getLsbD_of_ge b _ (by omega)]
        simp

theorem fill_ctrl (bs : List Byte) : ∀ (n l : Nat) (data : BitVec 64) (c : BitVec 8) (ctrl : BitVec 64),
    bs.length ≤ n → l + bs.length ≤ 8 → ∀ k, k < 8 →
    ((fillLanes n l data c ctrl bs).2.1).getLsbD k =
      if l ≤ k ∧ k < l + bs.length then ctrl.getLsbD (k - l) else c.getLsbD k := by
  induction bs with
  | nil =>
    intro n l data c ctrl _ _ k hk
    have e : (fillLanes n l data c ctrl []).2.1 = c := by cases n <;> rfl
    rw [e, if_neg (by simp)]
  | cons b bs ih =>
    intro n l data c ctrl hn hl k hk
    cases n with
    | zero => simp at hn
    | succ n =>
      simp only [List.length_cons] at hn hl ⊢
      rw [fillLanes, ih n (l + 1) _ _ _ (by omega) (by omega) k hk]
      have hone : ∀ j, ((1 : BitVec 8) <<< l).getLsbD j = (decide (j < 8) && decide (j = l)) := by
        intro j
        by_cases hj : j < 8
        · have : ∀ l j : Fin 8, ((1 : BitVec 8) <<< l.val).getLsbD j = (decide (j.val < 8) && decide (j.val = l.val)) := by decide
          exact this ⟨l, by omega⟩ ⟨j, hj⟩
        · rw [BitVec.getLsbD_of_ge _ _ (by omega)]; simp [hj]
      have hone' : ∀ i, (1 : BitVec 64).getLsbD i = decide (i = 0) := by
        intro i
        by_cases hi : i < 64
        · have : ∀ i : Fin 64, (1 : BitVec 64).getLsbD i = decide (i.val = 0) := by decide
          exact this ⟨i, hi⟩
        · rw [BitVec.getLsbD_of_ge _ _ (by omega)]; simp; omega
      rw [BitVec.getLsbD_or, BitVec.getLsbD_and, BitVec.getLsbD_not, hone, BitVec.getLsbD_shiftLeft, BitVec.getLsbD_setWidth,
        BitVec.getLsbD_and, hone', BitVec.getLsbD_ushiftRight]
      by_cases h1 : l + 1 ≤ k ∧ k < l + 1 + bs.length
      · rw [if_pos h1, if_pos (by omega), show 1 + (k - (l + 1)) = k - l by omega]
      · rw [if_neg h1]
        by_cases h2 : k = l
        · subst h2; rw [if_pos (by omega)]; simp [hk]
        · rw [if_neg (by omega)]
          by_cases h3 : k < l
          · simp [hk, h2, h3]
          · simp [hk, h2, show k - l ≠ 0 by omega]

theorem fill_rest : ∀ (n l : Nat) (data : BitVec 64) (c : BitVec 8) (ctrl : BitVec 64) (bs : List Byte),
    (fillLanes n l data c ctrl bs).2.2.2 = bs.drop n ∧ (n ≤ bs.length → (fillLanes n l data c ctrl bs).2.2.1 = ctrl >>> n) := by
  intro n
  induction n with
  | zero => intro l data c ctrl bs; exact ⟨rfl, fun _ => (BitVec.ushiftRight_zero ctrl).symm⟩
  | succ n ih =>
    intro l data c ctrl bs
    cases bs with
    | nil => exact ⟨rfl, fun h => by simp at h⟩
    | cons b bs =>
      rw [fillLanes]
      obtain ⟨h1, h2⟩ := ih (l + 1) (data ||| (b.setWidth 64 <<< (l * 8)))
        ((c &&& ~~~ ((1 : BitVec 8) <<< l)) ||| ((ctrl &&& 1).setWidth 8 <<< l)) (ctrl >>> 1) bs
      refine ⟨h1, fun h => ?_⟩
      rw [h2 (by simpa using h), ← BitVec.shiftRight_add, Nat.add_comm]

/-- Only the first `n` bytes matter for the column. -/
theorem fill_take : ∀ (n l : Nat) (data : BitVec 64) (c : BitVec 8) (ctrl : BitVec 64) (bs : List Byte),
    (fillLanes n l data c ctrl bs).1 = (fillLanes n l data c ctrl (bs.take n)).1 ∧
    (fillLanes n l data c ctrl bs).2.1 = (fillLanes n l data c ctrl (bs.take n)).2.1 := by
  intro n
  induction n with
  | zero => intros; exact ⟨rfl, rfl⟩
  | succ n ih =>
    intro l data c ctrl bs
    cases bs with
    | nil => exact ⟨rfl, rfl⟩
    | cons b bs => rw [List.take_succ_cons, fillLanes, fillLanes]; exact ih _ _ _ _ _

/-- Bytes with the low bits of a control word. -/
def tagged (ctrl : BitVec 64) : List Byte → List (Byte × Bool)
  | [] => []
  | b :: bs => (b, ctrl.getLsbD 0) :: tagged (ctrl >>> 1) bs

theorem tagged_length (ctrl : BitVec 64) (bs : List Byte) : (tagged ctrl bs).length = bs.length := by
  induction bs generalizing ctrl with
  | nil => rfl
  | cons b bs ih => simp [tagged, ih]

theorem tagged_get (ctrl : BitVec 64) (bs : List Byte) (k : Nat) (h : k < bs.length) :
    (tagged ctrl bs)[k]? = some (bs[k], ctrl.getLsbD k) := by
  induction bs generalizing ctrl k with
  | nil => simp at h
  | cons b bs ih =>
    cases k with
    | zero => rfl
    | succ k =>
      simp only [tagged, List.getElem?_cons_succ, List.getElem_cons_succ]
      have hk : k < bs.length := by simpa using h
      rw [ih _ _ hk, BitVec.getLsbD_ushiftRight]
      simp [Nat.add_comm]

theorem tagged_append (ctrl : BitVec 64) (a b : List Byte) :
    tagged ctrl (a ++ b) = tagged ctrl a ++ tagged (ctrl >>> a.length) b := by
  induction a generalizing ctrl with
  | nil => simp [tagged]
  | cons x xs ih =>
    simp only [List.cons_append, tagged, ih, List.length_cons]
    rw [← BitVec.shiftRight_add, Nat.add_comm]

theorem lanes_le (m : Mode) : 0 < m.lanes ∧ m.lanes ≤ 8 := by cases m <;> decide

/-- What the receiver sees of the first column. -/
theorem lanesOf_fill (m : Mode) (buf : List Byte) (ctrl : BitVec 64) (h : m.lanes ≤ buf.length) :
    lanesOf m ⟨(fillLanes m.lanes 0 0 0xff ctrl buf).1, (fillLanes m.lanes 0 0 0xff ctrl buf).2.1⟩ =
      tagged ctrl (buf.take m.lanes) := by
  obtain ⟨hp, h8⟩ := lanes_le m
  obtain ⟨e1, e2⟩ := fill_take m.lanes 0 0 0xff ctrl buf
  rw [e1, e2]
  have hl : (buf.take m.lanes).length = m.lanes := by simp; omega
  apply List.ext_getElem?
  intro k
  by_cases hk : k < m.lanes
  · rw [tagged_get _ _ _ (by omega)]
    unfold lanesOf
    rw [List.getElem?_map, List.getElem?_range hk, Option.map_some]
    unfold lane
    rw [laneCtrl _ _ (by omega), fill_ctrl _ _ _ _ _ _ (by omega) (by omega) k (by omega),
      fill_data _ _ _ _ _ _ (by omega) (by omega) (by intro j _; exact BitVec.getLsbD_zero) k (by omega)]
    rw [if_neg (by omega), if_pos (by omega), Nat.sub_zero]
    congr 2
    rw [List.getD_eq_getElem?_getD, List.getElem?_eq_getElem (by omega)]
    rfl
  · rw [List.getElem?_eq_none (by simp [lanesOf]; omega), List.getElem?_eq_none (by rw [tagged_length]; omega)]

/-- The flattened stream the receiver sees. -/
theorem pushBuf_lanes (m : Mode) (buf : List Byte) (ctrl : BitVec 64) (h : buf.length % m.lanes = 0) :
    (pushBuf m buf ctrl).flatMap (lanesOf m) = tagged ctrl buf := by
  unfold pushBuf
  have key : ∀ (fuel : Nat) (buf : List Byte) (ctrl : BitVec 64), buf.length ≤ fuel → buf.length % m.lanes = 0 →
      (pushBufN fuel m buf ctrl).flatMap (lanesOf m) = tagged ctrl buf := by
    intro fuel
    induction fuel with
    | zero =>
      intro buf ctrl hf _
      have : buf = [] := List.length_eq_zero_iff.mp (by omega)
      subst this; rfl
    | succ fuel ih =>
      intro buf ctrl hf hm
      obtain ⟨hp, h8⟩ := lanes_le m
      by_cases hb : buf = []
      · subst hb; simp [pushBufN, tagged]
      · rw [pushBufN, if_neg hb]
        simp only [List.flatMap_cons]
        have hpos : 0 < buf.length := List.length_pos_iff.mpr hb
        have hge : m.lanes ≤ buf.length := by
          rcases Nat.lt_or_ge buf.length m.lanes with h | h
          · rw [Nat.mod_eq_of_lt h] at hm; omega
          · exact h
        obtain ⟨r1, r2⟩ := fill_rest m.lanes 0 0 0xff ctrl buf
        rw [lanesOf_fill m buf ctrl hge, r1, r2 hge, ih]
        · conv => rhs; rw [← List.take_append_drop m.lanes buf]
          rw [tagged_append, List.length_take, Nat.min_eq_left hge]
        · simp; omega
        · rw [List.length_drop, ← Nat.mod_eq_sub_mod hge]; exact hm
  exact key _ _ _ (Nat.le_refl _) h

end Verif.Xgmii
