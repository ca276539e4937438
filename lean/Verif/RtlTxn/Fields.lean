import Verif.RtlTxn.Step

/-! The invariant: what the descriptors say. -/

namespace Verif.RtlTxn

structure Told {α : Type} (w : World α) : Prop where
  holdR : w.s.r.inf = .wait ∨ w.s.r.inf = .fill → w.r.hold.isSome = true
  holdW : w.s.w.inf = .wait ∨ w.s.w.inf = .fill → w.w.hold.isSome = true
  descR : w.s.r.inf = .fill → w.s.desc w.s.r.cur = some { read := true, off := w.s.r.off, req := w.r.hold }
  ffW : w.s.wAlcFf = true → w.s.w.inf = .fill ∧ w.s.wIdxFf = w.s.w.cur ∧ w.s.w.validFf = true
  descW : w.s.w.inf = .fill → w.s.desc w.s.w.cur = some { read := false, off := w.s.w.off, req := w.w.hold } ∨
    (w.s.wAlcFf = true ∧ w.s.r.inf = .fill)
  last : ∀ j < 16, stock w.s j = 0 → ∀ a, w.lastOf j = some a → w.s.desc j = some a.fields

theorem told_start {α : Type} : Told (World.start : World α) where
  holdR := by intro h; rcases h with h | h <;> cases h
  holdW := by intro h; rcases h with h | h <;> cases h
  descR := by intro h; cases h
  ffW := by intro h; cases h
  descW := by intro h; cases h
  last := by intro j _ _ a h; cases h

/-- How a channel comes to have its descriptor written. -/
theorem to_fill {α : Type} {s : Side} {b : Book α} {i : Chan α} {sel : Bool} {d : Option Nat} (h : ok s b.owed = true)
    (hh : s.inf = .wait ∨ s.inf = .fill → b.hold.isSome = true) (p : Polite b i) (hf : (s.step i sel d).inf = .fill) :
    s.alcValid = true := by
  change infNext s i = .fill at hf
  unfold infNext at hf
  have hr := ready_iff h
  cases hi : s.inf <;> rw [hi] at hf <;> simp only at hf
  · split at hf <;> cases hf
  · split at hf
    · rename_i hc
      exact (Bool.and_eq_true_iff.mp hc).2
    · cases hf
  · obtain ⟨x, hx⟩ := Option.isSome_iff_exists.mp (hh (.inr hi))
    rw [p.hold x hx, hr.mpr hi] at hf
    cases hf
  · cases hf

theorem of_both {α : Type} {s : Side} {b : Book α} {i : Chan α} {sel : Bool} {d : Option Nat} (h : ok s b.owed = true)
    (p : Polite b i) (ha : s.alcValid = true) :
    (s.step i sel d).inf = .fill ∧ (s.step i sel d).cur = s.idx ∧ (s.step i sel d).off = s.off ∧
      (s.step i sel d).validFf = true ∧ (b.next s i).hold = i.req := by
  obtain ⟨h1, h2, _, _, _⟩ := has_both (d := d) h ha
  have hr : s.ready = false := by
    rcases Bool.eq_false_or_eq_true s.ready with e | e
    · rw [(ready_iff h).mp e] at h1; cases h1
    · exact e
  have hn : i.addr = none := by
    cases he : i.addr with
    | none => rfl
    | some x =>
      have := p.answer (by rw [he]; rfl)
      rw [this] at h
      obtain ⟨inf, v, rd, cur, ff, rq, ffo, al, got, av, idx, off⟩ := s
      simp only at h1 h2 ha
      subst h1 h2 ha
      cases got <;> cases ff <;> simp [ok, rest] at h
  refine ⟨?_, ?_, ?_, h2, ?_⟩
  · change infNext s i = _
    rw [infNext, h1, h2, ha]; rfl
  · change (if s.inf = .wait ∧ s.valid = true ∧ s.alcValid = true then s.idx else s.cur) = _
    rw [if_pos ⟨h1, h2, ha⟩]
  · change i.addr.getD s.off = _
    rw [hn]; rfl
  · change (if s.ready = true then none else i.req) = _
    rw [hr]; rfl

theorem hold_next {α : Type} {s : Side} {b : Book α} {i : Chan α} {sel : Bool} {d : Option Nat} (h : ok s b.owed = true)
    (hh : s.inf = .wait ∨ s.inf = .fill → b.hold.isSome = true) (p : Polite b i)
    (hf : (s.step i sel d).inf = .wait ∨ (s.step i sel d).inf = .fill) : (b.next s i).hold.isSome = true := by
  rcases hf with hf | hf
  · change infNext s i = .wait at hf
    change (if s.ready = true then none else i.req).isSome = true
    unfold infNext at hf
    have hr := ready_iff h
    have hn : s.inf ≠ .fill → s.ready = false := fun e => by
      rcases Bool.eq_false_or_eq_true s.ready with e' | e'
      · exact absurd (hr.mp e') e
      · exact e'
    cases hi : s.inf <;> rw [hi] at hf <;> simp only at hf
    · split at hf
      · rename_i hc
        rw [hn (by rw [hi]; intro e; cases e)]
        simp only [Bool.and_eq_true] at hc
        exact hc.1.1
      · cases hf
    · obtain ⟨x, hx⟩ := Option.isSome_iff_exists.mp (hh (.inl hi))
      rw [hn (by rw [hi]; intro e; cases e), p.hold x hx]; rfl
    · split at hf <;> cases hf
    · cases hf
  · have ha := to_fill h hh p hf
    have h1 := (has_both (d := d) h ha).1
    rw [(of_both (sel := sel) (d := d) h p ha).2.2.2.2]
    obtain ⟨x, hx⟩ := Option.isSome_iff_exists.mp (hh (.inl h1))
    rw [p.hold x hx]; rfl

/-- A descriptor is written only while a channel has it. -/
theorem desc_next {α : Type} {w : World α} (v : Inv w) (t : Told w) (i : In α) (j : Nat)
    (hr : w.s.r.alcValid = true → w.s.r.idx ≠ j) (hw : w.s.w.alcValid = true → w.s.w.idx ≠ j)
    (hf : w.s.wAlcFf = true → w.s.w.cur ≠ j) : descNext w.s i j = w.s.desc j := by
  unfold descNext
  split
  · rename_i h
    rw [if_neg (fun e => hr (Bool.and_eq_true_iff.mp h).2 e.symm)]
  · split
    · rename_i h
      rw [if_neg (fun e => hw (Bool.and_eq_true_iff.mp h).2 e.symm)]
    · split
      · rename_i h
        have h := (Bool.and_eq_true_iff.mp h).2
        rw [if_neg (fun e => hf h (by rw [← (t.ffW h).2.1]; exact e.symm))]
      · rfl

theorem held_r {α : Type} {w : World α} {j : Nat} (h : held w.s.r w.s.q.last = some j) : 1 ≤ stock w.s j := by
  unfold stock
  rw [if_pos h]
  omega

theorem held_w {α : Type} {w : World α} {j : Nat} (h : held w.s.w w.s.q.last = some j) : 1 ≤ stock w.s j := by
  unfold stock
  rw [if_pos h]
  omega

theorem held_rw {α : Type} {w : World α} {j : Nat} (h : held w.s.r w.s.q.last = some j) (h' : held w.s.w w.s.q.last = some j) :
    2 ≤ stock w.s j := by
  unfold stock
  rw [if_pos h, if_pos h']
  omega

/-- No channel has it. -/
theorem desc_free {α : Type} {w : World α} (v : Inv w) (t : Told w) (i : In α) (j : Nat) (h : stock w.s j = 0) :
    descNext w.s i j = w.s.desc j := by
  refine desc_next v t i j (fun ha e => ?_) (fun ha e => ?_) (fun ha e => ?_)
  · have := (has_both (d := w.s.q.last) v.okR ha).2.2.1
    rw [e] at this
    have := held_r this
    omega
  · have := (has_both (d := w.s.q.last) v.okW ha).2.2.1
    rw [e] at this
    have := held_w this
    omega
  · have := held_fill (d := w.s.q.last) v.okW (t.ffW ha).1
    rw [e] at this
    have := held_w this
    omega

theorem accepts_none {α : Type} {s : Side} {o : Bool} (read : Bool) (b : Book α) {i : Chan α} (h : ok s o = true) (j : Nat)
    (hn : ¬(s.inf = .fill ∧ i.req.isSome = true ∧ s.cur = j)) : (accepts read s b i).find? (fun a => a.idx = j) = none := by
  rw [List.find?_eq_none]
  intro a ha e
  have := List.countP_pos_iff (p := fun a : Taken α => decide (a.idx = j)) |>.mpr ⟨a, ha, e⟩
  rw [accept_count read b h j, if_neg hn] at this
  omega

theorem accepts_some {α : Type} {s : Side} {o : Bool} (read : Bool) (b : Book α) {i : Chan α} (h : ok s o = true) (j : Nat)
    (hf : s.inf = .fill) (x : α) (hx : i.req = some x) (hc : s.cur = j) :
    (accepts read s b i).find? (fun a => a.idx = j) = some { read, idx := j, off := b.off, req := x } := by
  unfold accepts
  rw [hx]
  simp only [(ready_iff h).mpr hf, if_true, hc]
  simp

theorem told_step {α : Type} {w : World α} (v : Inv w) (t : Told w) {i : In α} (p : Proper w i) : Told (w.next i) where
  holdR := hold_next v.okR t.holdR p.r
  holdW := hold_next v.okW t.holdW p.w
  descR := by
    intro h
    have ha := to_fill v.okR t.holdR p.r h
    obtain ⟨_, h2, h3, _, h5⟩ := of_both (sel := decide (pick w.s = some true)) (d := w.s.q.last) v.okR p.r ha
    have hv := (has_both (d := w.s.q.last) v.okR ha).2.1
    change descNext w.s i (w.s.r.step i.r _ w.s.q.last).cur = some { read := true, off := (w.s.r.step i.r _ w.s.q.last).off, req := (w.r.next w.s.r i.r).hold }
    rw [h2, h3, h5]
    simp [descNext, hv, ha]
  ffW := by
    intro h
    have ha : w.s.w.alcValid = true := h
    obtain ⟨h1, h2, _, h4, _⟩ := of_both (sel := decide (pick w.s = some false)) (d := w.s.q.last) v.okW p.w ha
    exact ⟨h1, h2.symm, h4⟩
  descW := by
    intro h
    have ha := to_fill v.okW t.holdW p.w h
    obtain ⟨_, h2, h3, _, h5⟩ := of_both (sel := decide (pick w.s = some false)) (d := w.s.q.last) v.okW p.w ha
    have hv := (has_both (d := w.s.q.last) v.okW ha).2.1
    by_cases hr : w.s.r.alcValid = true
    · right
      exact ⟨ha, (of_both (sel := decide (pick w.s = some true)) (d := w.s.q.last) v.okR p.r hr).1⟩
    · left
      change descNext w.s i (w.s.w.step i.w _ w.s.q.last).cur = some { read := false, off := (w.s.w.step i.w _ w.s.q.last).off, req := (w.w.next w.s.w i.w).hold }
      rw [h2, h3, h5]
      simp [descNext, hv, ha, hr]
  last := by
    intro j hj h0 a hl
    have hs := stock_next v i j hj
    have h1 := v.one j hj
    have h0 : stock (step w.s i) j = 0 := h0
    rw [h0] at hs
    change (accepts true w.s.r w.r i.r ++ accepts false w.s.w w.w i.w ++ w.taken).find? _ = some a at hl
    rw [List.find?_append, List.find?_append] at hl
    change descNext w.s i j = some a.fields
    by_cases hr : w.s.r.inf = .fill ∧ i.r.req.isSome = true ∧ w.s.r.cur = j
    · obtain ⟨r1, r2, r3⟩ := hr
      obtain ⟨x, hx⟩ := Option.isSome_iff_exists.mp r2
      rw [accepts_some true w.r v.okR j r1 x hx r3] at hl
      have hl : some _ = some a := hl
      injection hl with hl
      subst hl
      have hh := held_fill (d := w.s.q.last) v.okR r1
      rw [r3] at hh
      rw [desc_next v t i j (fun ha _ => by
          rw [(has_both (d := w.s.q.last) v.okR ha).1] at r1; cases r1)
        (fun ha e => by
          have := (has_both (d := w.s.q.last) v.okW ha).2.2.1
          rw [e] at this
          have := held_rw hh this
          omega)
        (fun ha e => by
          have := held_fill (d := w.s.q.last) v.okW (t.ffW ha).1
          rw [e] at this
          have := held_rw hh this
          omega)]
      have := t.descR r1
      rw [r3] at this
      rw [this]
      obtain ⟨y, hy⟩ := Option.isSome_iff_exists.mp (t.holdR (.inr r1))
      have e := p.r.hold y hy
      rw [hx] at e
      rw [hy, ← e, v.offR]; rfl
    · rw [accepts_none true w.r v.okR j hr, Option.none_or] at hl
      rw [if_neg hr] at hs
      by_cases hw : w.s.w.inf = .fill ∧ i.w.req.isSome = true ∧ w.s.w.cur = j
      · obtain ⟨r1, r2, r3⟩ := hw
        obtain ⟨x, hx⟩ := Option.isSome_iff_exists.mp r2
        rw [accepts_some false w.w v.okW j r1 x hx r3] at hl
        have hl : some _ = some a := hl
        injection hl with hl
        subst hl
        have hh := held_fill (d := w.s.q.last) v.okW r1
        rw [r3] at hh
        obtain ⟨y, hy⟩ := Option.isSome_iff_exists.mp (t.holdW (.inr r1))
        have e := p.w.hold y hy
        rw [hx] at e
        have hb : w.s.w.alcValid ≠ true := fun ha => by
          rw [(has_both (d := w.s.q.last) v.okW ha).1] at r1; cases r1
        by_cases hf : w.s.wAlcFf = true ∧ w.s.r.alcValid ≠ true
        · obtain ⟨f1, f2, f3⟩ := t.ffW hf.1
          unfold descNext
          rw [if_neg (by intro h; exact hf.2 (Bool.and_eq_true_iff.mp h).2),
            if_neg (by intro h; exact hb (Bool.and_eq_true_iff.mp h).2),
            if_pos (by rw [f3, hf.1]; rfl), if_pos (by rw [f2, r3]), hx, v.offW]; rfl
        · have hk : w.s.desc j = some { read := false, off := w.s.w.off, req := w.w.hold } := by
            rcases t.descW r1 with h | ⟨h, h'⟩
            · rw [r3] at h; exact h
            · exfalso
              refine hf ⟨h, fun ha => ?_⟩
              rw [(has_both (d := w.s.q.last) v.okR ha).1] at h'; cases h'
          have hn : descNext w.s i j = w.s.desc j := by
            unfold descNext
            by_cases ha : w.s.r.alcValid = true
            · have hd := has_both (d := w.s.q.last) v.okR ha
              rw [if_pos (by rw [hd.2.1, ha]; rfl), if_neg]
              intro e
              have := hd.2.2.1
              rw [← e] at this
              have := held_rw this hh
              omega
            · rw [if_neg (by intro h; exact ha (Bool.and_eq_true_iff.mp h).2),
                if_neg (by intro h; exact hb (Bool.and_eq_true_iff.mp h).2),
                if_neg (by intro h; exact hf ⟨(Bool.and_eq_true_iff.mp h).2, ha⟩)]
          rw [hn, hk, hy, ← e, v.offW]; rfl
      · rw [accepts_none false w.w v.okW j hw, Option.none_or] at hl
        rw [if_neg hw] at hs
        have hz : stock w.s j = 0 := by omega
        rw [desc_free v t i j hz]
        exact t.last j hj hz a hl

end Verif.RtlTxn
