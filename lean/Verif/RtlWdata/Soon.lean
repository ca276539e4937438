import Verif.RtlWdata.Run

/-!
Helper lemmas: when nothing comes in, the bridge comes to rest.
-/

namespace Verif.RtlWdata

def rank : St → Nat
  | .idle => 2
  | .newTxn => 1
  | .newWait => 4
  | .conTxn => 1
  | .conWait => 4
  | .waitData => 2

def left (w : World) : Nat := 4 * w.s.w.items.length + 5 * w.s.din.toList.length + rank w.s.st + w.s.we.toNat

/-- Nothing is going on. -/
structure Rest (w : World) : Prop where
  st : (w.s.st = .idle ∧ (w.s.aw.items = [] ∨ w.s.w.items = [])) ∨ (w.s.st = .waitData ∧ w.s.w.items = [])
  din : w.s.din = none
  we : w.s.we = false

section
variable {c : Cfg} {w : World} {v : View}

theorem taken_quiet (s : Regs) : taken s .quiet = none := by
  unfold taken
  split <;> rfl

theorem left_next (h : Inv c w v) : Rest (w.next c .quiet) ∨ left (w.next c .quiet) < left w := by
  have hd : (w.next c .quiet).s.din = none := taken_quiet w.s
  have hi : (w.next c .quiet).s.w.items = _ := items_next h
  have hwe : (w.next c .quiet).s.we = w.s.wRdenFf := rfl
  have haw := aw_next (c := c) (w := w) (i := .quiet) rfl
  have hst : (w.next c .quiet).s.st = stNext c w.s := rfl
  have hde : w.s.din.toList.length ≤ 1 := by cases w.s.din <;> simp
  have n := h.now
  unfold Now at n
  unfold left
  rw [hd, hwe]
  have hwe1 : w.s.we.toNat ≤ 1 := by cases w.s.we <;> simp
  cases hs : w.s.st <;> rw [hs] at n <;> dsimp only at n
  · obtain ⟨h1, h2, h3, h4, h5, h6, h7⟩ := n
    rw [h4] at hi
    rw [h5] at haw
    have hst' : stNext c w.s = if w.s.begin? then .newTxn else .idle := by simp only [stNext, hs]
    rw [hst, hi, h6, hst']
    simp only [rank, List.length_append, Bool.toNat_false, Bool.false_eq_true, if_false]
    by_cases hb : w.s.begin? = true
    · right
      rw [if_pos hb]
      simp
      omega
    · rw [if_neg hb]
      dsimp only
      by_cases hdin : w.s.din = none
      · left
        refine ⟨.inl ⟨by rw [hst, hst', if_neg hb], ?_⟩, hd, by rw [hwe, h6]⟩
        rw [hi, hdin, haw]
        by_cases ha : w.s.aw.items = []
        · exact .inl ha
        · right
          have : w.s.w.items = [] := by
            cases hw : w.s.w.items with
            | nil => rfl
            | cons a b => exact absurd (by simp [Regs.begin?, Regs.none, hw, ha]) hb
          simp [this]
      · right
        obtain ⟨b, e⟩ := Option.ne_none_iff_exists'.mp hdin
        simp [e]
        omega
  · obtain ⟨h1, h2, h3, h4, h5, h6, h7, h8, h9⟩ := n
    right
    rw [h6] at hi
    have hl : 0 < w.s.w.items.length := List.length_pos_iff.mpr h4
    rw [hst, hi, h8]
    simp only [stNext, hs, rank, List.length_append, if_true, List.length_drop]
    simp
    omega
  · obtain ⟨h1, b, r, rs, e1, e2, e3, e4, e5, e6, e7, e8, e9, e10, e11⟩ := n
    right
    rw [e6] at hi
    have hrk : rank (stNext c w.s) ≤ 2 := by
      simp only [stNext, hs]
      split
      · decide
      · split <;> decide
    have hrk' : rank w.s.st = 4 := by rw [hs]; rfl
    rw [hs] at hrk'
    rw [hst, hi, e8, hrk', List.length_append]
    simp
    omega
  · obtain ⟨k, h1, h2, h3, h4⟩ := n
    right
    rw [h3] at hi
    have hl : 0 < w.s.w.items.length := List.length_pos_iff.mpr h1
    rw [hst, hi, h4]
    simp only [stNext, hs, rank, List.length_append, if_true, List.length_drop]
    simp
    omega
  · obtain ⟨k, b, e2, e3, e6, e8, e10⟩ := n
    right
    rw [e6] at hi
    have hrk : rank (stNext c w.s) ≤ 2 := by
      simp only [stNext, hs]
      split
      · decide
      · split <;> decide
    have hrk' : rank w.s.st = 4 := by rw [hs]; rfl
    rw [hs] at hrk'
    rw [hst, hi, e8, hrk', List.length_append]
    simp
    omega
  · obtain ⟨k, h2, h3, h4⟩ := n
    rw [h3] at hi
    have hst' : stNext c w.s = if !w.s.none then .conTxn else .waitData := by simp only [stNext, hs]
    rw [hst, hi, h4, hst']
    simp only [rank, List.length_append, Bool.toNat_false, Bool.false_eq_true, if_false]
    by_cases hb : (!w.s.none) = true
    · right
      rw [if_pos hb]
      simp
      omega
    · rw [if_neg hb]
      dsimp only
      have hw : w.s.w.items = [] := by simpa [Regs.none] using hb
      by_cases hdin : w.s.din = none
      · left
        refine ⟨.inr ⟨by rw [hst, hst', if_neg hb], ?_⟩, hd, by rw [hwe, h4]⟩
        rw [hi, hdin]
        simp [hw]
      · right
        obtain ⟨b, e⟩ := Option.ne_none_iff_exists'.mp hdin
        simp [e]
        omega

/-- At rest it stays so. -/
theorem rest_next (h : Inv c w v) (r : Rest w) : Rest (w.next c .quiet) := by
  have hi : (w.next c .quiet).s.w.items = _ := items_next h
  have haw := aw_next (c := c) (w := w) (i := .quiet) rfl
  have hst : (w.next c .quiet).s.st = stNext c w.s := rfl
  have n := h.now
  unfold Now at n
  rcases r.st with ⟨hs, hb⟩ | ⟨hs, hb⟩ <;> rw [hs] at n <;> dsimp only at n
  · obtain ⟨h1, h2, h3, h4, h5, h6, h7⟩ := n
    have hbeg : w.s.begin? = false := by
      rcases hb with hb | hb <;> simp [Regs.begin?, Regs.none, hb]
    refine ⟨.inl ⟨?_, ?_⟩, taken_quiet _, h6⟩
    · rw [hst]
      simp [stNext, hs, hbeg]
    · rw [hi, haw, h4, h5, r.din]
      simpa using hb
  · obtain ⟨k, h2, h3, h4⟩ := n
    refine ⟨.inr ⟨?_, ?_⟩, taken_quiet _, h4⟩
    · rw [hst]
      simp [stNext, hs, Regs.none, hb]
    · rw [hi, h3, r.din]
      simpa using hb

theorem left_le (h : Inv c w v) : left w ≤ 45 := by
  have := h.room
  have hr : rank w.s.st ≤ 4 := by cases w.s.st <;> simp [rank]
  have hw : w.s.we.toNat ≤ 1 := by cases w.s.we <;> simp
  have hd : w.s.din.toList.length ≤ 1 := by cases w.s.din <;> simp
  unfold left
  omega

theorem polite_quiet : Polite c w .quiet := by
  intro r hr
  simp [In.quiet] at hr

theorem rest_run (n : Nat) : ∀ {w : World} {v : View}, Inv c w v → (Rest w ∨ left w ≤ n) →
    (∃ v', Inv c (w.run c (List.replicate n .quiet)) v') ∧
      (0 < n → Rest (w.run c (List.replicate n .quiet))) := by
  induction n with
  | zero =>
    intro w v h _
    exact ⟨⟨v, h⟩, fun h => absurd h (by simp)⟩
  | succ n ih =>
    intro w v h hl
    obtain ⟨v', h'⟩ := inv_next h (polite_quiet (c := c) (w := w))
    have hl' : Rest (w.next c .quiet) ∨ left (w.next c .quiet) ≤ n := by
      rcases hl with r | hl
      · exact .inl (rest_next h r)
      · rcases left_next h with r | hlt
        · exact .inl r
        · right
          omega
    obtain ⟨a, b⟩ := ih h' hl'
    refine ⟨a, fun _ => ?_⟩
    cases n with
    | zero =>
      rcases hl' with r | hl'
      · exact r
      · exfalso
        have : 0 < left (w.next c .quiet) := by
          unfold left
          have : 0 < rank (w.next c .quiet).s.st := by cases (w.next c .quiet).s.st <;> simp [rank]
          omega
        omega
    | succ n => exact b (by omega)

end

theorem run_append (c : Cfg) (a b : List In) : ∀ w : World, w.run c (a ++ b) = (w.run c a).run c b := by
  induction a with
  | nil => exact fun _ => rfl
  | cons i a ih => exact fun w => ih _

end Verif.RtlWdata
