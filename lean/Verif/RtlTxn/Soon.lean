import Verif.RtlTxn.Fields

/-! The invariant: how far a request has come. -/

namespace Verif.RtlTxn

/-- How far the nearest descriptor is from the FIFO. -/
def far {α : Type} (s : Regs α) : Nat :=
  if s.q.items ≠ [] then 0 else if s.gvld = true then 1 else if (lowest s.req).isSome = true then 2 else 3

/-- There is a descriptor which no channel has. -/
def Avail {α : Type} (s : Regs α) : Prop :=
  s.q.items ≠ [] ∨ s.gvld = true ∨ (lowest s.req).isSome = true ∨ (lowest s.freeup).isSome = true

/-- The cycles a channel needs until it has a descriptor, at most. -/
def rank {α : Type} (s : Side) (g : Regs α) : Nat :=
  match s.inf with
  | .done => 6 + far g
  | .idle => 5 + far g
  | .fill => 0
  | .wait =>
    if s.validFf then
      if s.got = .desc ∨ s.got = .both then 0 else if s.alc then 1 else if s.fifo then 2 else 3 + far g
    else 4 + far g

theorem far_le {α : Type} (g : Regs α) : far g ≤ 3 := by
  unfold far
  split
  · omega
  · split
    · omega
    · split <;> omega

theorem rank_le {α : Type} (s : Side) (g : Regs α) : rank s g ≤ 9 := by
  have := far_le g
  unfold rank
  split
  · omega
  · omega
  · omega
  · split
    · split
      · omega
      · split
        · omega
        · split <;> omega
    · omega

/-- While the FIFO is not read a descriptor comes nearer. -/
theorem far_next {α : Type} {w : World α} (v : Inv w) (i : In α) (ha : Avail w.s) (hr : w.s.rden = false) :
    Avail (step w.s i) ∧ (far (step w.s i) < far w.s ∨ far (step w.s i) = 0) ∧ far (step w.s i) ≤ far w.s := by
  have hq : (step w.s i).q.items = w.s.q.items ++ (if (w.s.gvld && decide (w.s.q.items.length < 16)) = true then [w.s.gidx] else []) := by
    change (if w.s.rden = true then w.s.q.items.drop 1 else w.s.q.items) ++ _ = _
    rw [hr]; rfl
  by_cases h0 : w.s.q.items ≠ []
  · have : (step w.s i).q.items ≠ [] := by
      rw [hq]; intro e; exact h0 (List.append_eq_nil_iff.mp e).1
    have e : far (step w.s i) = 0 := by unfold far; rw [if_pos this]
    exact ⟨.inl this, .inr e, by omega⟩
  · have h0' : w.s.q.items = [] := by simpa using h0
    by_cases h1 : w.s.gvld = true
    · have : (step w.s i).q.items ≠ [] := by
        rw [hq, h0', h1]; simp
      have e : far (step w.s i) = 0 := by unfold far; rw [if_pos this]
      exact ⟨.inl this, .inr e, by omega⟩
    · have hq' : (step w.s i).q.items = [] := by rw [hq, h0']; simp [h1]
      by_cases h2 : (lowest w.s.req).isSome = true
      · have hg : (step w.s i).gvld = true := h2
        have e : far (step w.s i) = 1 := by unfold far; rw [if_neg (by simp [hq']), if_pos hg]
        have e' : far w.s = 2 := by unfold far; rw [if_neg h0, if_neg h1, if_pos h2]
        exact ⟨.inr (.inl hg), .inl (by omega), by omega⟩
      · have h3 : (lowest w.s.freeup).isSome = true := by
          rcases ha with h | h | h | h
          · exact absurd h h0
          · exact absurd h h1
          · exact absurd h h2
          · exact h
        obtain ⟨j, hj⟩ := Option.isSome_iff_exists.mp h3
        obtain ⟨f1, f2⟩ := lowest_req hj
        have hn : w.s.req j = false := by
          rcases Bool.eq_false_or_eq_true (w.s.req j) with h | h
          · exact absurd (lowest_some h f2) h2
          · exact h
        have hd : w.s.dinFf j = false := by
          rcases Bool.eq_false_or_eq_true (w.s.dinFf j) with h | h
          · rw [v.din j h] at f1; cases f1
          · exact h
        have hg : (lowest (step w.s i).req).isSome = true := by
          refine lowest_some (j := j) ?_ f2
          change grantReq w.s j = true
          rw [grantReq, hn, f1, hd]; rfl
        have hv : (step w.s i).gvld = false := by
          change (lowest w.s.req).isSome = false
          simpa using h2
        have e : far (step w.s i) = 2 := by unfold far; rw [if_neg (by simp [hq']), if_neg (by simp [hv]), if_pos hg]
        have e' : far w.s = 3 := by unfold far; rw [if_neg h0, if_neg h1, if_neg h2]
        exact ⟨.inr (.inr (.inl hg)), .inl (by omega), by omega⟩

/-- A channel which is alone comes nearer to a descriptor in every cycle, and
keeps the one it has until its request is accepted. -/
theorem rank_next {α : Type} {w : World α} (v : Inv w) (i : In α) {s : Side} {b : Book α} {c : Chan α} {sel : Bool}
    (h : ok s b.owed = true) (hr : w.s.rden = s.fifo) (hs : sel = (!s.fifo && !w.s.q.items.isEmpty && s.req))
    (hc : c.req.isSome = true) (ha : Avail w.s ∨ rank s w.s ≤ 2) (hf : s.inf ≠ .fill) :
    (Avail (step w.s i) ∨ rank (s.step c sel w.s.q.last) (step w.s i) ≤ 2) ∧
      (rank (s.step c sel w.s.q.last) (step w.s i) < rank s w.s ∨ rank (s.step c sel w.s.q.last) (step w.s i) = 0) := by
  have hfar := far_le w.s
  generalize w.s.q.last = d
  obtain ⟨inf, vv, rd, cur, ff, rq, ffo, al, got, av, idx, off⟩ := s
  simp only at hr hs hf
  cases inf with
  | fill => exact absurd rfl hf
  | done =>
    have hfo : ffo = false := by
      cases ffo
      · rfl
      · simp [ok, rest] at h
    subst hfo
    have ha : Avail w.s := by
      rcases ha with h | h
      · exact h
      · simp [rank] at h; omega
    obtain ⟨a1, a2, a3⟩ := far_next v i ha hr
    refine ⟨.inl a1, .inl ?_⟩
    simp only [rank, Side.step, infNext]
    omega
  | idle =>
    simp only [ok, rest, Bool.and_eq_true, Bool.not_eq_true', beq_iff_eq] at h
    obtain ⟨⟨⟨⟨⟨⟨h1, h2⟩, h3⟩, ⟨h4, h5⟩, h6⟩, h7⟩, h8⟩, h9⟩ := h
    subst h1 h2 h3 h4 h5 h6 h7 h8
    have ha : Avail w.s := by
      rcases ha with h | h
      · exact h
      · simp [rank] at h; omega
    obtain ⟨a1, a2, a3⟩ := far_next v i ha hr
    refine ⟨.inl a1, .inl ?_⟩
    simp only [rank, Side.step, infNext, hc, Bool.not_false, Bool.and_self, if_true, Bool.false_eq_true, if_false]
    omega
  | wait =>
    simp only [ok, Bool.and_eq_true, Bool.not_eq_true', beq_iff_eq] at h
    obtain ⟨⟨⟨h1, h2⟩, h3⟩, h4⟩ := h
    subst h1 h2
    cases ff with
    | false =>
      simp only [rest, Bool.false_eq_true, if_false, Bool.and_eq_true, Bool.not_eq_true', beq_iff_eq] at h4
      obtain ⟨⟨⟨⟨h4, h5⟩, h6⟩, h7⟩, h8⟩ := h4
      subst h4 h5 h6 h7
      have h3 : av = false := by rw [h3]; rfl
      subst h3
      have ha : Avail w.s := by
        rcases ha with h | h
        · exact h
        · simp [rank] at h; omega
      obtain ⟨a1, a2, a3⟩ := far_next v i ha hr
      refine ⟨.inl a1, .inl ?_⟩
      subst hs
      cases he : c.addr.isSome <;> simp [rank, Side.step, infNext, gotNext, he] <;> omega
    | true =>
      cases got with
      | desc =>
        have e : rank (Side.step ⟨.wait, true, false, cur, true, rq, ffo, al, .desc, av, idx, off⟩ c sel d) (step w.s i) = 0 := by
          have h3 : av = false := by rw [h3]; rfl
          subst h3
          cases he : c.addr.isSome <;> simp [rank, Side.step, infNext, gotNext, he]
        exact ⟨.inr (by omega), .inr e⟩
      | both =>
        have e : rank (Side.step ⟨.wait, true, false, cur, true, rq, ffo, al, .both, av, idx, off⟩ c sel d) (step w.s i) = 0 := by
          have h3 : av = true := by rw [h3]; rfl
          subst h3
          simp [rank, Side.step, infNext]
        exact ⟨.inr (by omega), .inr e⟩
      | idle =>
        have h3 : av = false := by rw [h3]; rfl
        subst h3
        simp [one] at h4
        cases al with
        | true =>
          have e : rank (Side.step ⟨.wait, true, false, cur, true, rq, ffo, true, .idle, false, idx, off⟩ c sel d) (step w.s i) = 0 := by
            cases he : c.addr.isSome <;> simp [rank, Side.step, infNext, gotNext, he]
          exact ⟨.inr (by omega), .inr e⟩
        | false =>
          simp at h4
          obtain ⟨h4, h5⟩ := h4
          subst h5
          cases ffo with
          | true =>
            have e : rank (Side.step ⟨.wait, true, false, cur, true, true, true, false, .idle, false, idx, off⟩ c sel d) (step w.s i) = 1 := by
              cases he : c.addr.isSome <;> simp [rank, Side.step, infNext, gotNext, he]
            refine ⟨.inr (by omega), .inl ?_⟩
            rw [e]; simp [rank]
          | false =>
            have ha : Avail w.s := by
              rcases ha with h | h
              · exact h
              · simp [rank] at h; omega
            obtain ⟨a1, a2, a3⟩ := far_next v i ha hr
            refine ⟨.inl a1, .inl ?_⟩
            by_cases hq : w.s.q.items = []
            · subst hs
              have h1 : far w.s ≠ 0 := by
                unfold far
                rw [if_neg (by simp [hq])]
                split
                · omega
                · split <;> omega
              cases he : c.addr.isSome <;> simp [rank, Side.step, infNext, gotNext, he, hq] <;> omega
            · subst hs
              cases he : c.addr.isSome <;> simp [rank, Side.step, infNext, gotNext, he, hq] <;> omega
      | addr =>
        have h3 : av = false := by rw [h3]; rfl
        subst h3
        simp [one] at h4
        cases al with
        | true =>
          have e : rank (Side.step ⟨.wait, true, false, cur, true, rq, ffo, true, .addr, false, idx, off⟩ c sel d) (step w.s i) = 0 := by
            simp [rank, Side.step, infNext, gotNext]
          exact ⟨.inr (by omega), .inr e⟩
        | false =>
          simp at h4
          obtain ⟨h4, h5⟩ := h4
          subst h5
          cases ffo with
          | true =>
            have e : rank (Side.step ⟨.wait, true, false, cur, true, true, true, false, .addr, false, idx, off⟩ c sel d) (step w.s i) = 1 := by
              simp [rank, Side.step, infNext, gotNext]
            refine ⟨.inr (by omega), .inl ?_⟩
            rw [e]; simp [rank]
          | false =>
            have ha : Avail w.s := by
              rcases ha with h | h
              · exact h
              · simp [rank] at h; omega
            obtain ⟨a1, a2, a3⟩ := far_next v i ha hr
            refine ⟨.inl a1, .inl ?_⟩
            by_cases hq : w.s.q.items = []
            · subst hs
              have h1 : far w.s ≠ 0 := by
                unfold far
                rw [if_neg (by simp [hq])]
                split
                · omega
                · split <;> omega
              simp [rank, Side.step, infNext, gotNext, hq] <;> omega
            · subst hs
              simp [rank, Side.step, infNext, gotNext, hq] <;> omega

end Verif.RtlTxn
