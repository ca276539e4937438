import Verif.Mcdma.Model
/-! Helper lemmas for the MCDMA. -/
namespace Verif.Mcdma
open Verif

theorem range_field (m : Mem) (a n off k : Nat) (h : off + k ≤ n) :
    field (m.range a n) off k = leDec (m.range (a + off) k) := by
  unfold field
  congr 1
  apply List.ext_getElem
  · simp; omega
  · intro i h1 h2
    simp [Mem.range, Nat.add_assoc]

/-- Writing a descriptor back changes only the word that was changed. -/
theorem store_back (m m' : Mem) (a off : Nat) (w : List Byte) (hw : w.length = 4) (ho : off + 4 ≤ 52)
    (hm : ∀ i, i < 52 → m' (a + i) = m (a + i)) :
    m'.store a ((m.range a 52).take off ++ w ++ (m.range a 52).drop (off + 4)) = m'.store (a + off) w := by
  have hl : ((m.range a 52).take off ++ w ++ (m.range a 52).drop (off + 4)).length = 52 := by
    simp; omega
  funext x
  unfold Mem.store
  rw [hl, hw]
  by_cases h1 : a ≤ x ∧ x < a + 52
  · rw [if_pos h1]
    have hx := hm (x - a) (by omega)
    rw [show a + (x - a) = x by omega] at hx
    by_cases h2 : a + off ≤ x ∧ x < a + off + 4
    · rw [if_pos h2]
      simp only [List.getD_eq_getElem?_getD]
      rw [List.getElem?_append_left (by simp; omega), List.getElem?_append_right (by simp; omega)]
      congr 2
      simp
      omega
    · rw [if_neg h2, hx]
      simp only [List.getD_eq_getElem?_getD]
      by_cases h3 : x < a + off
      · rw [List.getElem?_append_left (by simp; omega), List.getElem?_append_left (by simp; omega)]
        rw [List.getElem?_take_of_lt (by omega)]
        simp [Mem.range, show x - a < 52 by omega, show a + (x - a) = x by omega]
      · rw [List.getElem?_append_right (by simp; omega)]
        have e : off + 4 + (x - a - (min off 52 + 4)) = x - a := by omega
        simp [Mem.range, hw, e, show x - a < 52 by omega, show a + (x - a) = x by omega]
  · rw [if_neg h1, if_neg (by omega)]

theorem setIdle_idle (x : Ch) (b : Bool) : (x.setIdle b).sr.getLsbD 0 = b := by
  unfold Ch.setIdle
  cases b <;> simp

theorem irq_idle (x : Ch) : x.irq.sr.getLsbD 0 = x.sr.getLsbD 0 := by
  unfold Ch.irq
  simp

theorem irq_idleRx (x : Ch) : x.irq.sr.getLsbD 1 = x.sr.getLsbD 1 := by
  unfold Ch.irq
  simp

theorem setIdleRx_idle (x : Ch) (b : Bool) : (x.setIdleRx b).sr.getLsbD 1 = b := by
  unfold Ch.setIdleRx
  cases b <;> simp

theorem irq_ioc (x : Ch) : x.irq.sr.getLsbD 5 = true := by
  unfold Ch.irq
  simp

theorem leDec_lt (bs : List Byte) : leDec bs < 256 ^ bs.length := by
  induction bs with
  | nil => simp [leDec]
  | cons b bs ih =>
    simp only [leDec, List.length_cons, Nat.pow_succ]
    have := b.isLt
    omega

theorem goto_cur (x : Ch) (v : Nat) (h : v < 2 ^ 64) : (x.goto v).cur = v := by
  unfold Ch.cur Ch.goto
  simp only [BitVec.toNat_ofNat]
  omega

theorem goto_rest (x : Ch) (v : Nat) :
    (x.goto v).sr = x.sr ∧ (x.goto v).cr = x.cr ∧ (x.goto v).tail = x.tail := ⟨rfl, rfl, rfl⟩

theorem irq_rest (x : Ch) : x.irq.cur = x.cur ∧ x.irq.cr = x.cr ∧ x.irq.tail = x.tail := ⟨rfl, rfl, rfl⟩

theorem setIdle_rest (x : Ch) (b : Bool) :
    (x.setIdle b).cur = x.cur ∧ (x.setIdle b).cr = x.cr ∧ (x.setIdle b).tail = x.tail := ⟨rfl, rfl, rfl⟩

theorem setIdleRx_rest (x : Ch) (b : Bool) :
    (x.setIdleRx b).cur = x.cur ∧ (x.setIdleRx b).cr = x.cr ∧ (x.setIdleRx b).tail = x.tail := ⟨rfl, rfl, rfl⟩

end Verif.Mcdma
