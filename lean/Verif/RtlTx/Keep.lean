import Verif.RtlTx.Step

/-! The invariant is kept. -/

namespace Verif.RtlTx

section
variable {α : Type} {k : Kind} {w : World α} {i : In α} {p g1 : Nat}

theorem send_iff (c : Calm w i) : stNext w.s i = .send ↔ w.s.st = .wait := by
  rw [st_eq c]
  cases e : w.s.st <;> simp <;> split <;> simp

theorem check_iff (c : Calm w i) : stNext w.s i = .check ↔ w.s.st = .send := by
  rw [st_eq c]
  cases e : w.s.st <;> simp <;> split <;> simp

theorem wait_iff (c : Calm w i) : stNext w.s i = .wait ↔ w.s.st = .read ∧ w.s.prg = true ∧ w.s.avail = true := by
  rw [st_eq c]
  cases e : w.s.st <;> simp
  · split <;> simp
  · split <;> simp

theorem read_from (c : Calm w i) (h : stNext w.s i = .read) : w.s.st = .idle ∨ w.s.st = .check := by
  rw [st_eq c] at h
  cases e : w.s.st <;> simp_all
  split at h <;> simp at h

theorem low_from (c : Calm w i) (h : stNext w.s i = .read ∨ stNext w.s i = .idle) :
    w.s.st ≠ .send ∧ w.s.st ≠ .wait := by
  rw [st_eq c] at h
  cases e : w.s.st <;> simp_all

theorem length_next : (w.next k i).given.length = w.given.length + (gives w i).length := by
  simp [World.next]

theorem flip_keep (h : Inv w p g1) (g : Good w i) (c : Calm w i) (j : Nat) (hj : j < 15)
    (hf : flipNext w.s i j = true) :
    ownNext w.s j = true ∨ Seg w.given.length (w.given.length + (gives w i).length) j := by
  rcases (flip_step g j hj).2 hf with x | ⟨x, _⟩
  · exact Or.inr x
  · refine Or.inl ?_
    rcases h.flip j hj x with y | y
    · exact own_keep h j hj y (h.clear j hj (h.cleared j hj y x)).2
    · unfold ownNext
      rw [(h.fresh j hj y).2]
      simpa using x

theorem fresh_keep (g : Good w i) (j : Nat) (hj : j < 15)
    (hs : Seg w.given.length (w.given.length + (gives w i).length) j) :
    flipNext w.s i j = true ∧ ownNext w.s j = false := by
  obtain ⟨a, b, c⟩ := (flip_step g j hj).1 hs
  refine ⟨a, ?_⟩
  unfold ownNext
  rw [b, c]; rfl

theorem clear_keep (h : Inv w p g1) (c : Calm w i) (j : Nat) (hj : j < 15)
    (hc : clearNext w.s i j = true) :
    ownNext w.s j = true ∧ ¬(stNext w.s i = .send ∧ j = (passed w p + 14) % 15) := by
  unfold clearNext at hc
  cases e : w.s.clear j with
  | true =>
    obtain ⟨a, b⟩ := h.clear j hj e
    refine ⟨own_keep h j hj a b, ?_⟩
    rintro ⟨x, y⟩
    have hw := (send_iff c).1 x
    have : j = p % 15 := by rw [passed, if_pos hw] at y; omega
    rw [this] at e
    exact (h.phase e).1 hw
  | false =>
    rw [e] at hc
    simp only [Bool.false_eq_true, if_false, Bool.and_eq_true, Bool.not_eq_true'] at hc
    obtain ⟨a, b⟩ := hc
    refine ⟨by unfold ownNext; rw [a]; simpa using b, ?_⟩
    rintro ⟨x, y⟩
    have hw := (send_iff c).1 x
    have hj' : j = p % 15 := by rw [passed, if_pos hw] at y; omega
    have := h.wait hw
    have := (h.own j hj).2 (Or.inl (by unfold Seg; omega))
    rw [this] at a; cases a

theorem cleared_keep (h : Inv w p g1) (g : Good w i) (j : Nat) (hj : j < 15)
    (ho : ownNext w.s j = true) (hf : flipNext w.s i j = true) : clearNext w.s i j = true := by
  rcases (flip_step g j hj).2 hf with x | ⟨x, y⟩
  · have := (fresh_keep g j hj x).2
    rw [this] at ho; cases ho
  · unfold clearNext
    cases e : w.s.clear j with
    | true => rw [e] at y; simpa using y
    | false =>
      simp only [Bool.false_eq_true, if_false, Bool.and_eq_true, Bool.not_eq_true']
      refine ⟨?_, x⟩
      cases o : w.s.own j with
      | false => rfl
      | true => rw [h.cleared j hj o x] at e; cases e

theorem phase_keep (h : Inv w p g1) (g : Good w i) (c : Calm w i)
    (hc : clearNext w.s i (passed w p % 15) = true) :
    stNext w.s i ≠ .wait ∧ (i.wr = false → ¬(stNext w.s i = .read ∧ any w.s.own = true)) := by
  have hlt : p % 15 < 15 := Nat.mod_lt _ (by omega)
  by_cases hw : w.s.st = .wait
  · have := (send_iff c).2 hw
    rw [this]; simp
  · rw [passed, if_neg hw] at hc
    have new : w.s.clear (p % 15) = false → ¬ p < g1 := by
      intro e hp
      unfold clearNext at hc
      rw [e] at hc
      have := (h.own _ hlt).2 (Or.inl (by unfold Seg; omega))
      rw [this] at hc; simp at hc
    constructor
    · intro x
      obtain ⟨a, b, _⟩ := (wait_iff c).1 x
      cases e : w.s.clear (p % 15) with
      | false => exact new e (h.prg (Or.inl a) b)
      | true =>
        have hwr : i.wr = true := by unfold clearNext at hc; rw [e] at hc; simpa using hc
        exact (h.phase e).2 (g.gap hwr) ⟨a, b⟩
    · rintro hwr ⟨x, y⟩
      have e : w.s.clear (p % 15) = false := by
        cases e : w.s.clear (p % 15) with
        | false => rfl
        | true => unfold clearNext at hc; rw [e] at hc; simp [hwr] at hc
      refine new e (any_own h ?_ y)
      rcases read_from c x with z | z <;> rw [z] <;> simp

theorem upd_keep (h : Inv w p g1) (c : Calm w i) (j : Nat) (hj : j < 15) :
    updNext w.s j = true ↔ (stNext w.s i = .send ∨ stNext w.s i = .check) ∧ j = (passed w p + 14) % 15 := by
  have hu := h.upd j hj
  have ha := h.addr
  rw [send_iff c, check_iff c]
  unfold updNext passed
  cases e : w.s.st with
  | wait =>
    rw [e] at hu
    simp only [reduceCtorEq, or_self, false_and, iff_false, Bool.not_eq_true] at hu
    simp only [hu, ha]
    by_cases x : j = p % 15
    · simp only [x, if_true, reduceCtorEq, or_false, true_and, true_iff]; omega
    · simp only [x, if_false, Bool.false_eq_true, reduceCtorEq, or_false, true_and, if_true, false_iff]; omega
  | _ => rw [e] at hu; simp at hu ⊢; try exact hu

theorem addr_keep (h : Inv w p g1) : addrNext w.s = passed w p % 15 := by
  have ha := h.addr
  unfold addrNext passed
  cases e : w.s.st <;> simp [ha]
  repeat' split
  all_goals omega

theorem mem_keep (h : Inv w p g1) (g : Good w i) (j : Nat) (h1 : p ≤ j)
    (h2 : j < w.given.length + (gives w i).length) :
    (w.given ++ gives w i)[j]? = some (memNext w.s i (j % 15)) := by
  have hlt : j % 15 < 15 := Nat.mod_lt _ (by omega)
  obtain ⟨o1, o2, o3⟩ := h.ordered
  have safe : memNext w.s i (j % 15) = w.s.mem (j % 15) := by
    unfold memNext
    cases e : i.data with
    | none => rfl
    | some q =>
      obtain ⟨a, x⟩ := q
      dsimp only
      by_cases ea : j % 15 = a
      · exfalso
        subst ea
        obtain ⟨f1, f2, f3⟩ := g.fresh _ _ e hlt
        by_cases hl : j < w.given.length
        · by_cases hg : j < g1
          · have := (h.own _ hlt).2 (Or.inl (by unfold Seg; omega))
            rw [this] at f1; cases f1
          · have := (h.fresh _ hlt (by unfold Seg; omega)).1
            rw [this] at f2; cases f2
        · have hs : Seg w.given.length (w.given.length + (gives w i).length) (j % 15) := by
            have := gives_le g
            unfold Seg; omega
          unfold gives at hs h2
          cases hw : i.wr with
          | false => simp [hw] at h2; omega
          | true =>
            cases hf : i.flip with
            | none => simp [hw, hf] at h2; omega
            | some f =>
              rw [hw, hf] at hs
              simp only [List.length_map, List.length_range] at hs
              have e1 := (g.inOrder f hw hf).2 _ hlt
              rw [f3 f hw hf, (ring_seg _ _ _ hlt).2 hs] at e1
              cases e1
      · simp [ea]
  rw [safe]
  by_cases hl : j < w.given.length
  · rw [List.getElem?_append_left hl]
    exact h.mem j h1 hl
  · rw [List.getElem?_append_right (by omega), gives_get w i _ (by omega)]
    congr 3
    omega

theorem credit_keep (h : Inv w p g1) (c : Calm w i) (pe : Peer w i) :
    let r := count k w.s.credit w.s.avail i.grant (dec k w.s i)
    r.1 + (if w.s.st = .check then 1 else 0) = w.s.credit + (if i.grant then 1 else 0) ∧
    r.2 = decide (r.1 ≠ 0) ∧ r.1 ≤ 15 := by
  dsimp only
  have hcr := h.credit
  have hmost := h.most
  have hd := dec_eq (k := k) h c
  have hi : i.grant = true → w.s.credit < 15 := by
    intro hg
    have hp : w.granted < w.sent.length + w.returned + 15 := pe hg
    have := h.returned
    omega
  have hh : dec k w.s i = true → w.s.credit ≠ 0 := by
    intro x
    rw [hd] at x
    exact h.held (Or.inr (Or.inr (by simpa using x)))
  obtain ⟨a, b⟩ := count_exact k w.s.credit w.s.avail i.grant (dec k w.s i) hmost h.avail hh hi
  have e : (if dec k w.s i = true then 1 else 0) = (if w.s.st = .check then 1 else 0) := by
    rw [hd]; simp
  rw [e] at a
  refine ⟨a, b, ?_⟩
  by_cases hg : i.grant = true
  · have := hi hg; rw [if_pos hg] at a; omega
  · rw [if_neg hg] at a; omega

theorem inv_step (h : Inv w p g1) (g : Good w i) (c : Calm w i) (pe : Peer w i) :
    Inv (w.next k i) (passed w p) w.given.length := by
  obtain ⟨o1, o2, o3⟩ := h.ordered
  obtain ⟨l1, l2⟩ := given_le h g
  have hwait := h.wait
  obtain ⟨c1, c2, c3⟩ := credit_keep (k := k) h c pe
  have hlen : (w.next k i).given.length = w.given.length + (gives w i).length := length_next
  have hpass : passed w p ≤ w.given.length ∧ p ≤ passed w p := by
    unfold passed; split
    · rename_i e; have := hwait e; omega
    · omega
  have hv : (w.next k i).s.v = decide (w.s.st = .check) := v_eq h c
  have hsent : (w.next k i).sent.length = w.sent.length + (if w.s.st = .check then 1 else 0) := by
    show (if (w.next k i).s.v then _ else _ : List (Option α)).length = _
    rw [hv]
    by_cases e : w.s.st = .check <;> simp [e]
  refine
    { ordered := ?_, busy := ?_, addr := addr_keep h, own := own_step h c, flip := ?_, fresh := ?_
      clear := clear_keep h c, cleared := cleared_keep h g, phase := phase_keep h g c, prg := ?_, wait := ?_
      upd := upd_keep h c, req := ?_, valid := ?_, mem := ?_, memreg := ?_, outreg := ?_, sent := ?_
      returned := ?_, credit := ?_, most := c3, avail := c2, held := ?_ }
  · rw [hlen]; omega
  · rw [hlen]
    intro x
    rcases x with x | x
    · have e := (send_iff c).1 x
      rw [passed, if_pos e]; omega
    · have e := (check_iff c).1 x
      obtain ⟨b1, b2⟩ := h.busy (Or.inl e)
      have := l2 e
      rw [passed, if_neg (by simp [e])]; omega
  · intro j hj hf
    rw [hlen]
    exact flip_keep h g c j hj hf
  · intro j hj
    rw [hlen]
    exact fresh_keep g j hj
  · intro x y
    obtain ⟨hns, hw⟩ := low_from c x
    have := any_own h hns y
    rw [passed, if_neg hw]; omega
  · intro x
    obtain ⟨a, b, _⟩ := (wait_iff c).1 x
    have := h.prg (Or.inl a) b
    rw [passed, if_neg (by simp [a])]; omega
  · show (decide (w.s.st = .read) && w.s.prg && w.s.avail) = decide (stNext w.s i = .wait)
    have := wait_iff c
    by_cases x : stNext w.s i = .wait
    · obtain ⟨a, b, d⟩ := this.1 x
      simp [x, a, b, d]
    · simp only [x, decide_false]
      cases a : decide (w.s.st = .read) <;> cases b : w.s.prg <;> cases d : w.s.avail <;> simp
      exact x (this.2 ⟨by simpa using a, b, d⟩)
  · show (decide (w.s.st = .send) && i.up) = decide (stNext w.s i = .check)
    have := check_iff c
    by_cases e : w.s.st = .send
    · simp [e, c.up (Or.inl e), this.2 e]
    · simp [e, this]
  · intro j h1 h2
    rw [hlen] at h2
    exact mem_keep h g j (by omega) h2
  · intro x
    have e := (send_iff c).1 x
    have hq : w.s.req = true := by rw [h.req]; simpa using e
    show (if w.s.req then some (w.s.mem w.s.addr) else w.s.memreg) = (w.given ++ gives w i)[passed w p - 1]?
    have hw := hwait e
    rw [hq, if_pos rfl, passed, if_pos e, h.addr, Nat.add_sub_cancel,
      List.getElem?_append_left (by omega), h.mem p (Nat.le_refl _) (by omega)]
  · intro x
    have e := (check_iff c).1 x
    show w.s.memreg = (w.given ++ gives w i)[passed w p - 1]?
    obtain ⟨b1, b2⟩ := h.busy (Or.inl e)
    rw [h.memreg e, passed, if_neg (by simp [e]), List.getElem?_append_left (by omega)]
  · show (if (w.next k i).s.v then w.sent ++ [(w.next k i).s.flit] else w.sent) =
      ((w.given ++ gives w i).take (if stNext w.s i = .send ∨ stNext w.s i = .check then passed w p - 1 else passed w p)).map some
    rw [hv, h.sent]
    simp only [send_iff c, check_iff c]
    unfold passed
    cases e : w.s.st with
    | check =>
      obtain ⟨b1, b2⟩ := h.busy (Or.inr e)
      have hvv : w.s.valid = true := by rw [h.valid]; simpa using e
      have hup := c.up (Or.inr hvv)
      have hfl : (w.next k i).s.flit = w.s.outreg := by
        show flitNext w.s i = _
        unfold flitNext
        rw [c.live.1, hup]; simp
      have hp : p - 1 < w.given.length := by omega
      simp only [decide_true, if_true, hfl, h.outreg e, reduceCtorEq, or_true, or_false, if_false]
      rw [List.getElem?_eq_getElem hp, List.take_append_of_le_length (by omega)]
      have hpp : w.given.take p = w.given.take (p - 1) ++ [w.given[p - 1]] := by
        have := List.take_add_one (l := w.given) (i := p - 1)
        rw [Nat.sub_add_cancel b1, List.getElem?_eq_getElem hp] at this
        exact this
      rw [hpp, List.map_append]
      rfl
    | wait =>
      have := hwait e
      simp only [reduceCtorEq, or_false, decide_false, Bool.false_eq_true, if_false, if_true]
      rw [Nat.add_sub_cancel, List.take_append_of_le_length (by omega)]
    | send =>
      obtain ⟨b1, b2⟩ := h.busy (Or.inl e)
      simp only [reduceCtorEq, or_true, or_false, decide_false, Bool.false_eq_true, if_false, if_true]
      rw [List.take_append_of_le_length (by omega)]
    | _ =>
      simp only [reduceCtorEq, or_self, decide_false, Bool.false_eq_true, if_false]
      rw [List.take_append_of_le_length (by omega)]
  · show (if rtnNext k w.s i then w.returned + 1 else w.returned) = 0
    rw [rtn_eq c]
    simpa using h.returned
  · show (if i.grant then w.granted + 1 else w.granted) = (count k w.s.credit w.s.avail i.grant (dec k w.s i)).1 + (w.next k i).sent.length
    have hcr := h.credit
    rw [hsent]
    by_cases hg : i.grant = true
    · simp only [hg, if_true] at c1 ⊢; omega
    · simp only [hg] at c1 ⊢; simp at c1 ⊢; omega
  · intro x
    show (count k w.s.credit w.s.avail i.grant (dec k w.s i)).1 ≠ 0
    have hav := h.avail
    rcases x with x | x | x
    · obtain ⟨a, b, d⟩ := (wait_iff c).1 x
      rw [d] at hav
      have : w.s.credit ≠ 0 := by simpa using hav.symm
      simp only [a, reduceCtorEq, if_false] at c1; omega
    · have e := (send_iff c).1 x
      have := h.held (Or.inl e)
      simp only [e, reduceCtorEq, if_false] at c1; omega
    · have e := (check_iff c).1 x
      have := h.held (Or.inr (Or.inl e))
      simp only [e, reduceCtorEq, if_false] at c1; omega

end

theorem inv_run {α : Type} {k : Kind} {w : World α} {t : List (In α)} {p g1 : Nat} (h : Inv w p g1)
    (g : All Good k w t) (c : All Calm k w t) (pe : All Peer k w t) : ∃ p g1, Inv (w.run k t) p g1 := by
  induction t generalizing w p g1 with
  | nil => exact ⟨p, g1, h⟩
  | cons i t ih => exact ih (inv_step h g.1 c.1 pe.1) g.2 c.2 pe.2

end Verif.RtlTx
