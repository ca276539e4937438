import Verif.RtlRx.Lemmas

/-!
One cycle keeps the invariant.
-/

namespace Verif.RtlRx

open Verif.RtlTx (Kind ring bits Seg ring_seg)

theorem grants_give {α : Type} {k : Kind} {w : World α} {f b a o : Nat} (h : Inv k w f b a o) :
    grants w.s = w.s.give := by
  have h1 := h.ordered
  have h2 := h.room
  have h3 := h.credit
  have h4 := h.owed
  unfold grants
  rw [h.avail]
  cases hg : w.s.give with
  | false => simp
  | true =>
    rw [hg, if_pos rfl] at h2
    have : w.s.credit ≠ 0 := by
      cases hb : w.s.back <;> simp [hb] at h3 h4 <;> omega
    simp [this]

theorem incr_count {α : Type} {k : Kind} {w : World α} {f b a o : Nat} (h : Inv k w f b a o) :
    (if incr k w.s then 1 else 0) = (if w.s.second.isSome then 1 else 0) + (if w.s.back then 1 else 0) := by
  have ha := h.apart
  cases k with
  | chi => rw [(h.quiet rfl).1]; rfl
  | cxs =>
    cases hb : w.s.back with
    | false => simp [incr, hb]
    | true => simp [incr, hb, ha hb]

theorem second_first {α : Type} {k : Kind} {w : World α} {i : In α} (c : Calm k w i) :
    secondNext k w.s i = w.s.first := by
  cases k with
  | chi => rfl
  | cxs =>
    unfold secondNext
    cases hf : w.s.first with
    | none => simp
    | some x => rw [c.up rfl (by rw [hf]; rfl)]; rfl

/-- The credits given back and not yet given out again. -/
def owedNext {α : Type} (w : World α) (i : In α) (o : Nat) : Nat :=
  (if i.refill = none ∧ w.s.lpd = true ∧ i.lp = false then (if w.s.back then 1 else 0) else o) + (if i.rtn then 1 else 0)

/-- The credits still to give. -/
theorem left_step {α : Type} {k : Kind} {w : World α} {i : In α} {f b a o : Nat} (h : Inv k w f b a o)
    (g : Good w i) (c : Calm k w i) :
    (if grants w.s then w.granted + 1 else w.granted) + (leftNext k w.s i).1 + (if (leftNext k w.s i).2 then 1 else 0)
      + owedNext w i o = i.refill.getD w.total + w.got.length + (if i.rtn then w.returned + 1 else w.returned) := by
  have h1 := h.ordered
  have h2 := h.room
  have h3 := h.allowed
  have h4 := h.came
  have h5 := h.total
  have h6 := h.credit
  have h7 := h.owed
  rw [grants_give h]
  have hr1 : (if i.rtn then w.returned + 1 else w.returned) = w.returned + (if i.rtn then 1 else 0) := by
    cases i.rtn <;> rfl
  rw [hr1]
  cases hr : i.refill with
  | some r =>
    obtain ⟨t0, r15⟩ := g.once r hr
    have e : owedNext w i o = o + (if i.rtn then 1 else 0) := by simp [owedNext, hr]
    rw [e]
    simp only [leftNext, hr, Option.getD_some, Bool.false_eq_true, if_false]
    cases hg : w.s.give <;> simp [hg] at h2 ⊢ <;> omega
  | none =>
    by_cases he : w.s.lpd = true ∧ i.lp = false
    · obtain ⟨c1, c2, c3⟩ := c.empty he
      have e : owedNext w i o = (if w.s.back then 1 else 0) + (if i.rtn then 1 else 0) := by simp [owedNext, hr, he]
      have hk : k = .cxs := by
        cases k with
        | cxs => rfl
        | chi => have := (h.quiet rfl).2; rw [he.1] at this; cases this
      have na : (List.range 15).any (pulse w.s) = false := by
        rw [List.any_eq_false]
        intro j hj
        rw [c2 j (List.mem_range.1 hj)]; simp
      have lv : leftNext k w.s i = (w.s.credit, false) := by
        simp [leftNext, hr, na, he, hk]
      have nf : w.got.length ≤ f := by
        rw [seg_any _ _ _ h1.1 h.fresh] at na
        simpa using na
      rw [lv, e, c3, Option.getD_none]
      simp only [Bool.false_eq_true, if_false, Nat.add_zero]
      omega
    · have e : owedNext w i o = o + (if i.rtn then 1 else 0) := by
        unfold owedNext
        rw [if_neg (fun x => he x.2)]
      have nl : (w.s.lpd && !i.lp) = false := by
        cases x : w.s.lpd <;> cases y : i.lp <;> simp [x, y] at he ⊢
      have lv : leftNext k w.s i = if f < w.got.length then ((w.s.left + pulses w.s) % 16, false)
          else if (decide (w.s.left ≠ 0) && i.run) = true then (w.s.left - 1, true) else (w.s.left, false) := by
        simp only [leftNext, hr, Bool.and_assoc, nl, Bool.and_false, Bool.false_eq_true, if_false]
        rw [seg_any _ _ _ h1.1 h.fresh]
        simp only [decide_eq_true_eq]
      rw [lv, Option.getD_none, e]
      by_cases hp : f < w.got.length
      · rw [if_pos hp]
        have e : pulses w.s = w.got.length - f := seg_count _ _ _ h1.1 (by omega) h.fresh
        have lt : w.s.left + (w.got.length - f) < 16 := by omega
        rw [e, Nat.mod_eq_of_lt lt]
        cases hg : w.s.give <;> simp [hg] at h2 ⊢ <;> omega
      · rw [if_neg hp]
        by_cases hl : (decide (w.s.left ≠ 0) && i.run) = true
        · rw [if_pos hl]
          simp only [Bool.and_eq_true, decide_eq_true_eq] at hl
          cases hg : w.s.give <;> simp [hg] at h2 ⊢ <;> omega
        · rw [if_neg hl]
          cases hg : w.s.give <;> simp [hg] at h2 ⊢ <;> omega

/-- The counter of credits. -/
theorem count_step {α : Type} {k : Kind} {w : World α} {i : In α} {f b a o : Nat} (h : Inv k w f b a o)
    (g : Good w i) :
    (count k w.s.credit w.s.avail (incr k w.s) (grants w.s) i.refill).1 +
      (if grants w.s then w.granted + 1 else w.granted)
      = i.refill.getD w.total + (a + (if w.s.second.isSome then 1 else 0)) + w.returned ∧
    (count k w.s.credit w.s.avail (incr k w.s) (grants w.s) i.refill).2 =
      decide ((count k w.s.credit w.s.avail (incr k w.s) (grants w.s) i.refill).1 ≠ 0) := by
  have h1 := h.ordered
  have h2 := h.room
  have h3 := h.allowed
  have h4 := h.came
  have h5 := h.total
  have h6 := h.credit
  have h7 := h.owed
  have hin := incr_count h
  have hgg := grants_give h
  rw [hgg]
  cases hr : i.refill with
  | some r =>
    obtain ⟨t0, r15⟩ := g.once r hr
    have hg : w.s.give = false := by
      cases hg : w.s.give with
      | false => rfl
      | true => exfalso; rw [hg, if_pos rfl] at h2; omega
    have hc : w.s.credit = 0 := by omega
    have hs : incr k w.s = false := by
      cases hs : incr k w.s with
      | false => rfl
      | true => exfalso; rw [hs, if_pos rfl] at hin; omega
    have hs2 : w.s.second.isSome = false := by
      cases hs : w.s.second.isSome with
      | false => rfl
      | true => exfalso; rw [hs, if_pos rfl] at h4; omega
    have ha : w.s.avail = false := by rw [h.avail, hc]; rfl
    rw [hg, hs, hc, ha, count_refill k r r15, hs2]
    simp only [Bool.false_eq_true, if_false, Option.getD_some]
    refine ⟨?_, trivial⟩
    omega
  | none =>
    have e := count_exact k w.s.credit w.s.avail (incr k w.s) w.s.give (by omega) h.avail
      (by intro hg; rw [hg, if_pos rfl] at h2; cases hb : w.s.back <;> simp [hb] at h6 h7 <;> omega)
      (by intro hs; rw [hs, if_pos rfl] at hin; omega)
    refine ⟨?_, e.2⟩
    have e1 := e.1
    simp only [Option.getD_none]
    cases hg : w.s.give <;> simp only [hg] at e1 ⊢ <;> simp at e1 ⊢ <;> omega

theorem inv_next {α : Type} {k : Kind} {w : World α} {i : In α} {f b a o : Nat} (h : Inv k w f b a o)
    (g : Good w i) (p : Peer w i) (c : Calm k w i) :
    Inv k (w.next k i) w.got.length a (a + (if w.s.second.isSome then 1 else 0)) (owedNext w i o) := by
  have h1 := h.ordered
  have h2 := h.room
  have h3 := h.allowed
  have h4 := h.came
  have h5 := h.total
  have h6 := h.credit
  have h7 := h.owed
  have hr1 : (if i.rtn then w.returned + 1 else w.returned) = w.returned + (if i.rtn then 1 else 0) := by
    cases i.rtn <;> rfl
  have tk := pulse_step (c := k) g
  have tl : w.got.length + (takes w i).length ≤ b := by
    by_cases hz : (takes w i).length = 0
    · omega
    · have tl := takes_le g
      have hk : (w.got.length + (takes w i).length - 1) % 15 < 15 := Nat.mod_lt _ (by omega)
      have s := (tk _ hk).2 (by unfold Seg; omega)
      have o := (h.own _ hk).1 s.1
      have nf : ¬Seg f w.got.length ((w.got.length + (takes w i).length - 1) % 15) := by
        rw [← h.fresh _ hk]; unfold pulse; rw [s.2]; simp
      unfold Seg at o nf
      omega
  have lg : (w.got ++ takes w i).length = w.got.length + (takes w i).length := List.length_append
  have ls : (w.sent ++ i.flit.toList).length = w.sent.length + (if i.flit.isSome then 1 else 0) := by
    rw [List.length_append]; cases i.flit <;> simp
  constructor
  case ordered =>
    show w.got.length ≤ (w.got ++ takes w i).length ∧ (w.got ++ takes w i).length ≤ a ∧ _
    rw [lg]
    refine ⟨by omega, by omega, by omega, ?_⟩
    cases w.s.second.isSome <;> simp
  case total =>
    show i.refill.getD w.total ≤ 15
    cases hr : i.refill with
    | none => exact h5
    | some r => exact (g.once r hr).2
  case came =>
    show (w.sent ++ i.flit.toList).length = _ + (if (secondNext k w.s i).isSome then 1 else 0) + (if i.flit.isSome then 1 else 0)
    rw [ls, second_first c]; omega
  case allowed =>
    show (w.sent ++ i.flit.toList).length + (if i.rtn then w.returned + 1 else w.returned) ≤
      (if grants w.s then w.granted + 1 else w.granted)
    rw [List.length_append, hr1]
    have pf := p.flit
    have pb := p.back
    have : w.sent.length + i.flit.toList.length + w.returned + (if i.rtn then 1 else 0) ≤ w.granted := by
      cases hb : i.rtn with
      | true => have := pb hb; simp; omega
      | false =>
        cases hf : i.flit with
        | none => simp; omega
        | some x => have := pf (by rw [hf]; rfl); simp; omega
    cases grants w.s <;> simp <;> omega
  case room => exact left_step h g c
  case owed =>
    show owedNext w i o ≤ (if i.rtn then w.returned + 1 else w.returned) ∧ (i.rtn = true → 1 ≤ owedNext w i o)
    rw [hr1]
    unfold owedNext
    constructor
    · by_cases he : i.refill = none ∧ w.s.lpd = true ∧ i.lp = false
      · rw [if_pos he]; cases hb : w.s.back <;> simp [hb] at h7 ⊢; omega
      · rw [if_neg he]; omega
    · intro e; rw [e, if_pos rfl]; omega
  case credit =>
    show (count k w.s.credit w.s.avail (incr k w.s) (grants w.s) i.refill).1 +
      (if grants w.s then w.granted + 1 else w.granted) + (if i.rtn then 1 else 0)
      = i.refill.getD w.total + (a + (if w.s.second.isSome then 1 else 0)) + (if i.rtn then w.returned + 1 else w.returned)
    have := (count_step h g).1
    rw [hr1]; omega
  case avail => exact (count_step h g).2
  case addr =>
    show addrNext w.s = _
    unfold addrNext
    rw [h.addr]
    cases w.s.second.isSome with
    | false => simp
    | true =>
      simp only [if_true]
      by_cases e : a % 15 = 14
      · rw [if_pos e]; omega
      · rw [if_neg e]; omega
  case upd =>
    intro j hj
    show updNext w.s j = true ↔ _
    unfold updNext Seg
    rw [h.addr]
    cases w.s.second.isSome with
    | false => simp
    | true => simp only [Bool.true_and, decide_eq_true_eq, if_true]; omega
  case own =>
    intro j hj
    show ownNext w.s j = true ↔ _
    have o := h.own j hj
    have u := h.upd j hj
    have q := h.fresh j hj
    unfold ownNext
    cases ho : w.s.own j with
    | true =>
      rw [ho] at o
      have o := o.1 rfl
      rw [if_pos rfl]
      cases hp : pulse w.s j with
      | true =>
        rw [hp] at q
        have q := q.1 rfl
        simp only [Bool.not_true, Bool.false_eq_true, false_iff]
        unfold Seg at o q ⊢; omega
      | false =>
        rw [hp] at q
        have q : ¬Seg f w.got.length j := fun e => by have := q.2 e; simp at this
        simp only [Bool.not_false, true_iff]
        unfold Seg at o q ⊢; omega
    | false =>
      rw [ho] at o
      have o : ¬Seg f b j := fun e => by have := o.2 e; simp at this
      rw [if_neg (by simp), u]
      unfold Seg at o ⊢; omega
  case fresh =>
    intro j hj
    show pulse (step k w.s i) j = true ↔ Seg w.got.length (w.got ++ takes w i).length j
    rw [lg]; exact (tk j hj).1
  case second =>
    intro x hx
    have hx : secondNext k w.s i = some x := hx
    rw [second_first c] at hx
    have e := h.first x hx
    show (w.sent ++ i.flit.toList)[_]? = _
    rw [List.getElem?_append_left (by rw [hx] at h4; simp at h4; omega)]
    exact e
  case first =>
    intro x hx
    have hx : i.flit = some x := hx
    show (w.sent ++ i.flit.toList)[a + (if w.s.second.isSome then 1 else 0) + (if (secondNext k w.s i).isSome then 1 else 0)]? = _
    rw [second_first c, ← h4, hx]
    simp
  case mem =>
    intro j hf hj
    show (w.sent ++ i.flit.toList)[j]? = some (memNext w.s (j % 15))
    rw [List.getElem?_append_left (by omega)]
    unfold memNext
    cases hs : w.s.second with
    | none =>
      rw [hs] at hj
      exact h.mem j (by omega) (by simpa using hj)
    | some x =>
      rw [hs] at hj h4
      simp only [Option.isSome_some, if_true] at hj h4
      dsimp only
      rw [h.addr]
      by_cases e : j = a
      · subst e
        rw [if_pos rfl]
        exact h.second x hs
      · rw [if_neg (by omega)]
        exact h.mem j (by omega) (by omega)
  case got =>
    show w.got ++ takes w i = (w.sent ++ i.flit.toList).take (w.got ++ takes w i).length
    rw [lg, List.take_append_of_le_length (by omega)]
    apply List.ext_getElem?
    intro j
    by_cases hj : j < w.got.length
    · have e := congrArg (fun l => l[j]?) h.got
      rw [List.getElem?_append_left hj, show w.got[j]? = _ from e, List.getElem?_take, List.getElem?_take, if_pos hj, if_pos (by omega)]
    · rw [List.getElem?_append_right (by omega)]
      by_cases hl : j < w.got.length + (takes w i).length
      · rw [takes_get w i _ (by omega), List.getElem?_take, if_pos hl, h.mem j (by omega) (by omega)]
        congr 3; omega
      · rw [List.getElem?_eq_none (by omega), List.getElem?_take, if_neg hl]
  case quiet => exact fun e => c.chi e
  case apart =>
    intro e
    show secondNext k w.s i = none
    rw [second_first c]; exact c.apart e

theorem inv_run {α : Type} {k : Kind} (t : List (In α)) {w : World α} {f b a o : Nat} (h : Inv k w f b a o)
    (g : All Good k w t) (p : All Peer k w t) (c : All (Calm k) k w t) : ∃ f b a o, Inv k (w.run k t) f b a o := by
  induction t generalizing w f b a o with
  | nil => exact ⟨f, b, a, o, h⟩
  | cons i t ih => exact ih (inv_next h g.1 p.1 c.1) g.2 p.2 c.2

end Verif.RtlRx
