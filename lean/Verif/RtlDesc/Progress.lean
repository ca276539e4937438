import Verif.RtlDesc.Props

/-!
# Nobody waits for ever
-/

namespace Verif.RtlDesc

/-- A FIFO is not full while a descriptor waits. -/
theorem room {w : World} (v : Inv w) {d : Nat} (hd : d < 16) (h : w.b.waits d = true) :
    w.s.wq.items.length < 16 ∧ w.s.rq.items.length < 16 := by
  have key : (d :: (w.s.wq.items ++ w.s.rq.items)).length ≤ (List.range 16).length := by
    apply List.Nodup.length_le_of_subset
    · rw [List.nodup_iff_count]
      intro a
      by_cases ha : a < 16
      · have h1 := v.books a ha
        have h2 := v.small a ha
        rw [List.count_cons, List.count_append]
        unfold held at h1
        by_cases e : d = a
        · subst e
          rw [h, bit, if_pos rfl] at h1
          simp only [beq_self_eq_true, if_true]
          omega
        · have e' : (d == a) = false := by simpa using e
          rw [e']
          simp only [Bool.false_eq_true, if_false]
          omega
      · have : a ∉ d :: (w.s.wq.items ++ w.s.rq.items) := by
          intro hm
          rcases List.mem_cons.mp hm with e | hm
          · omega
          · rcases List.mem_append.mp hm with hm | hm
            · exact ha (v.wlt a hm).1
            · exact ha (v.rlt a hm).1
        rw [List.count_eq_zero.mpr this]
        omega
    · intro a hm
      rw [List.mem_range]
      rcases List.mem_cons.mp hm with e | hm
      · omega
      · rcases List.mem_append.mp hm with hm | hm
        · exact (v.wlt a hm).1
        · exact (v.rlt a hm).1
  simp only [List.length_cons, List.length_append, List.length_range] at key
  omega

/-- How many wait. -/
def waiting (b : Books) : Nat := (List.range 16).countP b.waits

theorem countP_drop (a : Nat) (p q : Nat → Bool) (hq : ∀ x, q x = if a == x then false else p x) : ∀ (l : List Nat), l.Nodup → a ∈ l →
    p a = true → l.countP q + 1 = l.countP p := by
  have out : ∀ l : List Nat, a ∉ l → l.countP q = l.countP p := by
    intro l hl
    apply List.countP_congr
    intro x hx
    have : (a == x) = false := by
      have : a ≠ x := fun e => hl (e ▸ hx)
      simpa using this
    rw [hq, this]
    simp
  intro l
  induction l with
  | nil => intro _ h; cases h
  | cons x t ih =>
    intro hn hm hp
    rw [List.nodup_cons] at hn
    by_cases e : a = x
    · subst e
      have hqa : q a = false := by rw [hq]; simp
      rw [List.countP_cons, List.countP_cons, hqa, hp, out t hn.1]
      simp
    · have hm : a ∈ t := by
        rcases List.mem_cons.mp hm with h | h
        · exact absurd h e
        · exact h
      have hqx : q x = p x := by
        rw [hq]
        have : (a == x) = false := by simpa using e
        rw [this]
        simp
      rw [List.countP_cons, List.countP_cons, hqx]
      have := ih hn.2 hm hp
      omega

theorem pick_if {s : Regs} {d : Nat} (hd : d < 16) (hp : s.pend d = true) (h1 : s.rq.items.length < 16) (h2 : s.wq.items.length < 16) :
    ∃ k, pick s = some k := by
  cases h : pick s with
  | some k => exact ⟨k, rfl⟩
  | none =>
    exfalso
    have := List.find?_eq_none.mp h d (by simpa using hd)
    apply this
    rw [hp]
    simp
    omega

/-- The number of cycles it may still take. -/
def toGo (w : World) : Nat := 2 * waiting w.b - bit w.s.wen

theorem toGo_next {w : World} (v : Inv w) {i : In} (hg : ∀ d < 16, gives w i d = false) : toGo (w.next i) ≤ toGo w - 1 := by
  have hsame : w.s.wen = false → waiting (w.next i).b = waiting w.b := by
    intro e
    unfold waiting
    apply List.countP_congr
    intro d hd
    have hd : d < 16 := by simpa using hd
    change (if gives w i d then true else if w.s.wen && w.s.wid == d then false else w.b.waits d) = true ↔ _
    rw [hg d hd, e]
    simp
  cases hwen : w.s.wen
  · have e := hsame hwen
    rcases Nat.eq_zero_or_pos (waiting w.b) with h0 | h0
    · unfold toGo
      rw [e, h0]
      omega
    · obtain ⟨d, hm, hw⟩ := List.countP_pos_iff.mp h0
      have hd : d < 16 := by simpa using hm
      obtain ⟨r1, r2⟩ := room v hd hw
      obtain ⟨k, hk⟩ := pick_if hd (by rw [v.pend d hd, hw]) r2 r1
      have hwen' : (w.next i).s.wen = true := by
        change (alloc w.s).1 = true
        unfold alloc
        rw [v.writing, hwen, hk]
        rfl
      unfold toGo
      rw [e, hwen, hwen']
      simp only [bit, if_true, Bool.false_eq_true, if_false]
      omega
  · obtain ⟨h1, h2, _⟩ := v.wen hwen
    rw [v.pend _ h1] at h2
    have hc : waiting (w.next i).b + 1 = waiting w.b := by
      have e : waiting (w.next i).b = (List.range 16).countP (fun x => if w.s.wid == x then false else w.b.waits x) := by
        unfold waiting
        apply List.countP_congr
        intro d hd
        have hd : d < 16 := by simpa using hd
        change (if gives w i d then true else if w.s.wen && w.s.wid == d then false else w.b.waits d) = true ↔ _
        rw [hg d hd, hwen]
        simp
      rw [e]
      exact countP_drop w.s.wid w.b.waits _ (fun _ => rfl) _ List.nodup_range (by simpa using h1) h2
    unfold toGo
    rw [hwen]
    simp only [bit, if_true]
    omega

/-- Nothing is given in these cycles. -/
def Quiet (w : World) : List In → Prop
  | [] => True
  | i :: t => (∀ d < 16, gives w i d = false) ∧ Quiet (w.next i) t

theorem toGo_run (ins : List In) : ∀ {w : World}, Inv w → AllPolite w ins → Quiet w ins → toGo (w.run ins) ≤ toGo w - ins.length := by
  induction ins with
  | nil => intro w _ _ _; exact Nat.le_refl _
  | cons i t ih =>
    intro w v p q
    have h1 := toGo_next v q.1
    have h2 := ih (inv_next v p.1) p.2 q.2
    change toGo ((w.next i).run t) ≤ _
    rw [List.length_cons]
    omega

theorem allPolite_append (a : List In) : ∀ (w : World) (b : List In), AllPolite w (a ++ b) → AllPolite w a ∧ AllPolite (w.run a) b := by
  induction a with
  | nil => intro w b h; exact ⟨trivial, h⟩
  | cons i t ih =>
    intro w b h
    obtain ⟨h1, h2⟩ := ih _ b h.2
    exact ⟨⟨h.1, h1⟩, h2⟩

/-- **Every descriptor gets into a FIFO**: 32 cycles after the last ownership
was given nobody waits, however many were given at once. -/
theorem nobody_waits (ins quiet : List In) (h : AllPolite World.start (ins ++ quiet)) (q : Quiet (World.start.run ins) quiet)
    (hl : 32 ≤ quiet.length) : nobody ((World.start.run ins).run quiet).b = true := by
  obtain ⟨h1, h2⟩ := allPolite_append ins World.start quiet h
  have v := inv_run ins inv_start h1
  have hg := toGo_run quiet v h2 q
  have hle : toGo (World.start.run ins) ≤ 32 := by
    have : waiting (World.start.run ins).b ≤ 16 := by
      unfold waiting
      exact Nat.le_trans List.countP_le_length (by simp)
    unfold toGo
    omega
  have v' := inv_run quiet v h2
  generalize (World.start.run ins).run quiet = w at v' hg
  have h0 : waiting w.b = 0 := by
    have : toGo w = 0 := by omega
    unfold toGo at this
    have hb : bit w.s.wen ≤ 1 := by unfold bit; split <;> omega
    omega
  unfold nobody
  rw [List.all_eq_true]
  intro d hd
  cases e : w.b.waits d
  · rfl
  · have : 0 < waiting w.b := List.countP_pos_iff.mpr ⟨d, hd, e⟩
    omega

end Verif.RtlDesc
