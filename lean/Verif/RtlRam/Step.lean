import Verif.RtlRam.Insert

/-!
# The data RAM allocator: the invariant is kept

Helper lemmas.
-/

namespace Verif.RtlRam

/-- What a cycle does to the nodes, as far as the ledger is concerned. -/
structure Moves (s : Regs) (i : In) (s' : Regs) (len len' : Nat → Nat) : Prop where
  keep : ∀ n, s.vld n = true → s'.vld n = true ∨ (s.ser = .dealc ∧ s.dst = .idle ∧ goes s n = true)
  same : ∀ n, s.vld n = true → s'.strt n = s.strt n ∧ len' n = len n
  ans : s'.ansValid = true → s.vld s'.ansNode = false ∧ s'.vld s'.ansNode = true ∧
    s'.strt s'.ansNode = s'.ansOffset ∧ len' s'.ansNode = i.size + 1

theorem book_step {c : Cfg} {w : World} {i : In} {a a' len len' : Nat → Nat} {m : Nat} (v : Inv c w)
    (b : Book w a len m) (p : Polite w i) (mv : Moves w.s i (step c w.s i) len len') :
    Book (w.next c i) a' len' m := by
  have sf := step_front c w.s i
  have hIdx : (step c w.s i).descIdx =
      if i.alcValid && !w.s.alcFf then put w.s.descIdx i.alcNode i.alcDesc else w.s.descIdx := by
    rw [sf.descIdx]; rfl
  have hVld : (step c w.s i).descVld = fun n =>
      if w.s.vec (w.s.descIdx n) && (w.s.serValid && w.s.serDealc) && !w.s.svcFf then false
      else if n == i.alcNode && i.alcValid && !w.s.alcFf then true else w.s.descVld n := by
    rw [sf.descVld]; rfl
  have hSave : (step c w.s i).save = fun d =>
      if w.s.preDealc d then false else if i.cmpl d && !w.s.cmplFf d then true else w.s.save d := by
    rw [sf.save]; rfl
  have hVec : (step c w.s i).vec = fun d =>
      if w.s.preDealc d then false else if w.s.serValid && w.s.serDealc then w.s.vec d else w.s.save d := by
    rw [sf.vec]; rfl
  have hasg : (i.alcValid && !w.s.alcFf) = assignNow w.prev i := by rw [v.alcFf]; rfl
  have quietd : ∀ d, w.s.vec d = false → w.s.save d = false → doneNow w.prev i d = false →
      (step c w.s i).vec d = false ∧ (step c w.s i).save d = false := by
    intro d h1 h2 h3
    have : (i.cmpl d && !w.s.cmplFf d) = false := by rw [v.cmplFf]; exact h3
    rw [hSave, hVec]
    dsimp only
    rw [this, h1, h2]
    cases w.s.preDealc d <;> cases (w.s.serValid && w.s.serDealc) <;> exact ⟨rfl, rfl⟩
  have hnoasg : ∀ n, w.s.vld n = false → (n == i.alcNode && i.alcValid && !w.s.alcFf) = false := by
    intro n hn
    rw [Bool.and_assoc, hasg]
    cases h : assignNow w.prev i with
    | false => simp
    | true =>
      obtain ⟨⟨x, hx, _⟩, _⟩ := p.assign h
      have := (b.live _ x hx).1
      by_cases e : n = i.alcNode
      · subst e; rw [hn] at this; cases this
      · simp [e]
  have hfree : ∀ n, w.s.vld n = false → (step c w.s i).descVld n = false := by
    intro n hn
    rw [hVld]
    dsimp only
    rw [hnoasg n hn, b.free n hn]
    split <;> rfl
  -- the entries of the new ledger
  have hent : ∀ n x', (w.next c i).g n = some x' →
      ((step c w.s i).ansValid = true ∧ n = (step c w.s i).ansNode ∧
        x' = { off := (step c w.s i).ansOffset, len := i.size + 1, desc := none }) ∨
      ∃ x, w.g n = some x ∧ x' = x.withDesc w.prev i n ∧
        ∀ d, x'.desc = some d → doneNow w.prev i d = false := by
    intro n x' h
    change book w.g w.prev i (step c w.s i) n = some x' at h
    unfold book at h
    cases h1 : ((step c w.s i).ansValid && n == (step c w.s i).ansNode) with
    | true =>
      rw [if_pos h1] at h
      rw [Bool.and_eq_true] at h1
      cases h
      exact Or.inl ⟨h1.1, by simpa using h1.2, rfl⟩
    | false =>
      rw [if_neg (by rw [h1]; decide)] at h
      cases hg : w.g n with
      | none => rw [hg] at h; cases h
      | some x =>
        rw [hg] at h
        dsimp only at h
        refine Or.inr ⟨x, rfl, ?_⟩
        cases hd : (x.withDesc w.prev i n).desc with
        | none =>
          rw [hd] at h
          cases h
          exact ⟨rfl, fun d h => by rw [hd] at h; cases h⟩
        | some d =>
          rw [hd] at h
          dsimp only at h
          cases hdn : doneNow w.prev i d with
          | true => rw [hdn, if_pos rfl] at h; cases h
          | false =>
            rw [hdn, if_neg (by decide)] at h
            cases h
            refine ⟨rfl, fun d' h => ?_⟩
            rw [hd] at h
            cases h
            exact hdn
  have hwd : ∀ (x : Grant) n, (x.withDesc w.prev i n).off = x.off ∧ (x.withDesc w.prev i n).len = x.len := by
    intro x n
    unfold Grant.withDesc
    split <;> exact ⟨rfl, rfl⟩
  refine ⟨?_, ?_, ?_⟩
  · intro n x' h
    change (step c w.s i).vld n = true ∧ x'.off = (step c w.s i).strt n ∧ x'.len = len' n
    rcases hent n x' h with ⟨h1, h2, h3⟩ | ⟨x, hx, h2, _⟩
    · have := mv.ans h1
      subst h3
      rw [h2]
      exact ⟨this.2.1, this.2.2.1.symm, this.2.2.2.symm⟩
    · have l := b.live n x hx
      have k := mv.same n l.1
      rw [h2, (hwd x n).1, (hwd x n).2, k.1, k.2]
      refine ⟨?_, l.2⟩
      rcases mv.keep n l.1 with h | ⟨_, _, hg⟩
      · exact h
      · unfold goes at hg
        rw [Bool.and_eq_true, Bool.and_eq_true] at hg
        have := (b.attached n x hx hg.1.2).2.1
        rw [this] at hg
        exact absurd hg.2 (by decide)
  · intro n x' h hv
    change (step c w.s i).descVld n = true at hv
    change x'.desc = some ((step c w.s i).descIdx n) ∧ (step c w.s i).vec ((step c w.s i).descIdx n) = false ∧
      (step c w.s i).save ((step c w.s i).descIdx n) = false
    rcases hent n x' h with ⟨h1, h2, h3⟩ | ⟨x, hx, h2, h3⟩
    · have := (mv.ans h1).1
      rw [← h2] at this
      rw [hfree n this] at hv
      cases hv
    · by_cases e : assignNow w.prev i = true ∧ n = i.alcNode
      · obtain ⟨e1, e2⟩ := e
        have pa := p.assign e1
        have hidx : (step c w.s i).descIdx n = i.alcDesc := by
          rw [hIdx, hasg, e1, e2, if_pos rfl, put_self]
        rw [hidx, h2]
        refine ⟨?_, quietd _ pa.2.2.1 pa.2.1 pa.2.2.2⟩
        unfold Grant.withDesc
        rw [e1, e2]
        simp
      · have hna : (n == i.alcNode && i.alcValid && !w.s.alcFf) = false := by
          rw [Bool.and_assoc, hasg]
          cases h : assignNow w.prev i with
          | false => simp
          | true =>
            have : n ≠ i.alcNode := fun h' => e ⟨h, h'⟩
            simp [this]
        have hvold : w.s.descVld n = true := by
          rw [hVld] at hv
          dsimp only at hv
          rw [hna] at hv
          split at hv
          · cases hv
          · simpa using hv
        have hidx : (step c w.s i).descIdx n = w.s.descIdx n := by
          rw [hIdx, hasg]
          cases h : assignNow w.prev i with
          | false => rfl
          | true =>
            have : n ≠ i.alcNode := fun h' => e ⟨h, h'⟩
            rw [if_pos rfl, put_ne _ _ this]
        have hxe : x.withDesc w.prev i n = x := by
          unfold Grant.withDesc
          rw [if_neg]
          rw [Bool.and_eq_true]
          rintro ⟨q1, q2⟩
          exact e ⟨q1, by simpa using q2⟩
        have at0 := b.attached n x hx hvold
        rw [hidx]
        rw [h2, hxe]
        refine ⟨at0.1, quietd _ at0.2.1 at0.2.2 (h3 _ ?_)⟩
        rw [h2, hxe]
        exact at0.1
  · intro n hn
    change (step c w.s i).vld n = false at hn
    change (step c w.s i).descVld n = false
    cases hv : w.s.vld n with
    | false => exact hfree n hv
    | true =>
      rcases mv.keep n hv with h | ⟨h1, h2, hg⟩
      · rw [h] at hn; cases hn
      · unfold goes at hg
        rw [Bool.and_eq_true, Bool.and_eq_true] at hg
        have f := v.fsm
        have a1 : w.s.serValid = true := by rw [f.flags.1, h1]; rfl
        have a2 : w.s.serDealc = true := by rw [f.flags.2, h1]; rfl
        rw [hVld]
        dsimp only
        rw [hg.2, a1, a2, f.svc h1 h2]
        rfl

/-- The rest of the invariant. -/
theorem inv_of {c : Cfg} {w : World} {i : In} (v : Inv c w)
    (hl : ListOk (step c w.s i)) (ha : AlcOk c (step c w.s i) i.size)
    (hg : ∃ a len, Geo (2 ^ c.w) (step c w.s i).vld (step c w.s i).ll (step c w.s i).strt (step c w.s i).fin a len ∧
      Book (w.next c i) a len (2 ^ c.w)) : Inv c (w.next c i) := by
  have sf := step_front c w.s i
  refine ⟨sf.alcFf, sf.txnFf, sf.cmplFf, ?_, fsm_step c v.fsm i, hl, ha, hg⟩
  change (if (step c w.s i).ansValid then false else if i.txnValid && !w.prev.txnValid then true else w.busy) =
    (step c w.s i).txn
  rw [sf.txn, sf.ansValid, v.busy, ← v.txnFf]
  rfl

/-- A cycle which leaves the list alone. -/
theorem same_list {c : Cfg} {w : World} {i : In} (v : Inv c w) (p : Polite w i)
    (h1 : (step c w.s i).vld = w.s.vld) (h2 : (step c w.s i).ll = w.s.ll) (h3 : (step c w.s i).strt = w.s.strt)
    (h4 : (step c w.s i).fin = w.s.fin) (ha : (step c w.s i).ansValid = false) :
    ∃ a len, Geo (2 ^ c.w) (step c w.s i).vld (step c w.s i).ll (step c w.s i).strt (step c w.s i).fin a len ∧
      Book (w.next c i) a len (2 ^ c.w) := by
  obtain ⟨a, len, g, b⟩ := v.geo
  refine ⟨a, len, by rw [h1, h2, h3, h4]; exact g, book_step v b p ⟨?_, ?_, ?_⟩⟩
  · intro n hn; left; rw [h1]; exact hn
  · intro n hn; rw [h3]; exact ⟨rfl, rfl⟩
  · intro h; rw [ha] at h; cases h

/-- Nothing is served. -/
theorem inv_idle {c : Cfg} {w : World} {i : In} (v : Inv c w) (p : Polite w i) (n1 : w.s.ser ≠ .alc)
    (n2 : w.s.ser ≠ .dealc) : Inv c (w.next c i) := by
  have e := step_idle c v.fsm i n1 n2
  have sf := step_front c w.s i
  have hd := v.fsm.dst n2
  have hl := v.list
  unfold ListOk at hl
  rw [hd] at hl
  have han : (step c w.s i).ansValid = false := by
    rw [sf.ansValid]
    change w.s.preAlc = false
    rw [v.fsm.preAlc, v.fsm.alc n1]; rfl
  refine inv_of v ?_ ?_ (same_list v p (by rw [e]; rfl) (by rw [e]; rfl) (by rw [e]; rfl) (by rw [e]; rfl) han)
  · rw [e]; exact hl
  · rw [e]; trivial

end Verif.RtlRam
