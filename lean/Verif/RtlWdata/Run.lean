import Verif.RtlWdata.Step

/-!
Helper lemmas: every state of the machine, every step, every run.
-/

namespace Verif.RtlWdata

open RtlFifo (Queue)

section
variable {c : Cfg} {w : World} {v : View} {i : In}

theorem flagged_next : (w.next c i).flagged = ((w.telling.isEmpty && w.flagged) || ((w.next c i).s.anyErr && !w.s.anyErr)) := rfl


theorem step_idle (h : Inv c w v) (ha : i.aw = none) (hs : w.s.st = .idle) : Inv c (w.next c i) (v.more (taken w.s i).toList) := by
  have n := h.now
  unfold Now at n
  rw [hs] at n
  dsimp only at n
  obtain ⟨h1, h2, h3, h4, h5, h6, h7⟩ := n
  have he : (w.next c i).s.err = w.s.err := by
    show errNext c w.s = _
    simp only [errNext, hs, ite_self]
  have hf : (w.next c i).flagged = false := by
    have hany : (w.next c i).s.anyErr = w.s.anyErr := by unfold Regs.anyErr; rw [he]
    rw [flagged_next, hany]
    cases ht : w.telling with
    | nil => rw [h7 ht]; cases w.s.anyErr <;> rfl
    | cons a b => cases w.s.anyErr <;> rfl
  have hi : (w.next c i).s.w.items = w.s.w.items ++ w.s.din.toList := by rw [items_next h, h4]; rfl
  have haw : (w.next c i).s.aw.items = w.s.aw.items := by rw [aw_next ha, h5]; rfl
  refine inv_more h ha h6 ?_ ?_ ?_
  · intro j
    show availNext c w.s j = _
    simp only [availNext, hs]
  · rw [he]
    exact h.lite
  · have hst : (w.next c i).s.st = if w.s.begin? then .newTxn else .idle := by
      show stNext c w.s = _
      simp only [stNext, hs]
    have hr1 : (w.next c i).s.wRden = w.s.begin? := by
      show wRdenNext c w.s = _
      simp only [wRdenNext, hs]
    have hr2 : (w.next c i).s.awRden = w.s.begin? := by
      show awRdenNext w.s = _
      simp only [awRdenNext, hs]
    have hrest : (v.more (taken w.s i).toList).rest = (w.next c i).s.w.items ++ (w.next c i).s.din.toList := by
      rw [hi]
      show v.rest ++ _ = _
      rw [h2]
      rfl
    unfold Now
    rw [hst]
    by_cases hb : w.s.begin? = true
    · rw [if_pos hb]
      dsimp only
      rw [hb] at hr1 hr2
      have hb' := hb
      simp only [Regs.begin?, Regs.none, Bool.and_eq_true, Bool.not_eq_true', List.isEmpty_eq_false_iff] at hb'
      refine ⟨h1, hrest, by rw [haw]; exact h3, ?_, by rw [haw]; exact hb'.1, hr1, hr2, h4, hf⟩
      rw [hi]
      simp [hb'.2]
    · rw [if_neg hb]
      dsimp only
      have hb' : w.s.begin? = false := by simpa using hb
      rw [hb'] at hr1 hr2
      exact ⟨h1, hrest, by rw [haw]; exact h3, hr1, hr2, h4, fun _ => hf⟩

theorem last_pop {q : Queue α} {n : Nat} {d : Bool} {x y : α} {t : List α} (h : q.items = y :: t) :
    (q.next n ⟨d, true, x⟩).last = some y := by
  simp [Queue.next, h]

theorem step_newTxn (h : Inv c w v) (ha : i.aw = none) (hs : w.s.st = .newTxn) : Inv c (w.next c i) (v.more (taken w.s i).toList) := by
  have n := h.now
  unfold Now at n
  rw [hs] at n
  dsimp only at n
  obtain ⟨h1, h2, h3, h4, h5, h6, h7, h8, h9⟩ := n
  have hne : w.s.st ≠ .idle := by rw [hs]; decide
  have he : ∀ j, (w.next c i).s.err j = false := by
    intro j
    show errNext c w.s j = _
    simp only [errNext, hs]
    split
    · rename_i hl
      exact h.lite hl j
    · rfl
  have hav : ∀ j, (w.next c i).s.avail j = false := by
    intro j
    show availNext c w.s j = _
    simp only [availNext, hs]
    exact telling_avail h hne j
  have hf : (w.next c i).flagged = false := by
    rw [flagged_next, anyErr_none he, h9]
    simp
  obtain ⟨b, t, eb⟩ := List.exists_cons_of_ne_nil h4
  obtain ⟨a, at', ea⟩ := List.exists_cons_of_ne_nil h5
  have hi : (w.next c i).s.w.items = t ++ w.s.din.toList := by rw [items_next h, h6, eb]; rfl
  have haw : (w.next c i).s.aw.items = at' := by rw [aw_next ha, h7, ea]; rfl
  obtain ⟨r, rs, er, ei, em⟩ : ∃ r rs, v.reqs = r :: rs ∧ r.idx = a ∧ rs.map (·.idx) = at' := by
    rw [ea] at h3
    obtain ⟨r, rs, e1, e2, e3⟩ := List.map_eq_cons_iff.mp h3
    exact ⟨r, rs, e1, e2, e3⟩
  refine inv_more h ha h8 hav (fun _ => he) ?_
  have hst : (w.next c i).s.st = .newWait := by
    show stNext c w.s = _
    simp only [stNext, hs]
  unfold Now
  rw [hst]
  dsimp only
  refine ⟨h1, b, r, rs, er, ?_, ?_, ?_, ?_, ?_, ?_, h6, hf, he, ?_⟩
  · show v.rest ++ _ = _
    rw [hi, h2, eb]
    rfl
  · show (w.s.w.next 8 ⟨w.s.din.isSome, w.s.wRden, w.s.din.getD default⟩).last = _
    rw [h6]
    exact last_pop eb
  · show (w.s.aw.next 16 ⟨i.aw.isSome, w.s.awRden, _⟩).last = _
    rw [h7, ei]
    exact last_pop ea
  · rw [haw]
    exact em
  · show wRdenNext c w.s = _
    simp only [wRdenNext, hs]
  · show awRdenNext w.s = _
    simp only [awRdenNext, hs]
  · show cntrNext w.s = _
    simp only [cntrNext, hs]

/-- Nothing of a burst begun changes in a step which uses no beat. -/
theorem con_next (h : Inv c w v) (ha : i.aw = none) (k : Con c w v) (hs : w.s.st = .conTxn ∨ w.s.st = .waitData)
    (he : ∀ j, (w.next c i).s.err j = false) : Con c (w.next c i) (v.more (taken w.s i).toList) where
  some := k.some
  awRden := by
    show awRdenNext w.s = _
    rcases hs with hs | hs <;> simp only [awRdenNext, hs] <;> exact k.awRden
  own := by
    obtain ⟨r, rs, e1, e2, e3, e4, e5, e6, e7, e8⟩ := k.own
    have hne : w.s.st ≠ .idle := by rcases hs with hs | hs <;> rw [hs] <;> decide
    refine ⟨r, rs, e1, ?_, ?_, ?_, ?_, ?_, ?_, ?_⟩
    · show popIdxNext w.s = _
      rcases hs with hs | hs <;> simp only [popIdxNext, hs] <;> exact e2
    · rw [aw_next ha, k.awRden]
      exact e3
    · show popOffNext c w.s _ = _
      rcases hs with hs | hs <;> simp only [popOffNext, hs] <;> exact e4
    · show awlenNext w.s = _
      rcases hs with hs | hs <;> simp only [awlenNext, hs] <;> exact e5
    · show cntrNext w.s = _
      rcases hs with hs | hs <;> simp only [cntrNext, hs] <;> exact e6
    · show strbNext w.s _ = _
      rcases hs with hs | hs <;> simp only [strbNext, hs] <;> exact e7
    · rw [flagged_next, telling_away h hne, anyErr_none he, e8]
      simp only [List.isEmpty_nil, Bool.true_and, Bool.false_and, Bool.or_false]
      rfl

theorem step_conTxn (h : Inv c w v) (ha : i.aw = none) (hs : w.s.st = .conTxn) : Inv c (w.next c i) (v.more (taken w.s i).toList) := by
  have n := h.now
  unfold Now at n
  rw [hs] at n
  dsimp only at n
  obtain ⟨k, h1, h2, h3, h4⟩ := n
  have hne : w.s.st ≠ .idle := by rw [hs]; decide
  have he : ∀ j, (w.next c i).s.err j = false := by
    intro j
    show errNext c w.s j = _
    simp only [errNext, hs]
    split
    · rename_i hl
      exact h.lite hl j
    · rfl
  have hav : ∀ j, (w.next c i).s.avail j = false := by
    intro j
    show availNext c w.s j = _
    simp only [availNext, hs]
    exact telling_avail h hne j
  obtain ⟨b, t, eb⟩ := List.exists_cons_of_ne_nil h1
  have hi : (w.next c i).s.w.items = t ++ w.s.din.toList := by rw [items_next h, h3, eb]; rfl
  refine inv_more h ha h4 hav (fun _ => he) ?_
  have hst : (w.next c i).s.st = .conWait := by
    show stNext c w.s = _
    simp only [stNext, hs]
  unfold Now
  rw [hst]
  dsimp only
  refine ⟨con_next h ha k (.inl hs) he, b, ?_, ?_, ?_, h3, he⟩
  · show v.rest ++ _ = _
    rw [hi, h2, eb]
    rfl
  · show (w.s.w.next 8 ⟨w.s.din.isSome, w.s.wRden, w.s.din.getD default⟩).last = _
    rw [h3]
    exact last_pop eb
  · show wRdenNext c w.s = _
    simp only [wRdenNext, hs]

theorem step_waitData (h : Inv c w v) (ha : i.aw = none) (hs : w.s.st = .waitData) : Inv c (w.next c i) (v.more (taken w.s i).toList) := by
  have n := h.now
  unfold Now at n
  rw [hs] at n
  dsimp only at n
  obtain ⟨k, h2, h3, h4⟩ := n
  have hne : w.s.st ≠ .idle := by rw [hs]; decide
  have he : ∀ j, (w.next c i).s.err j = false := by
    intro j
    show errNext c w.s j = _
    simp only [errNext, hs]
    split
    · rename_i hl
      exact h.lite hl j
    · rfl
  have hav : ∀ j, (w.next c i).s.avail j = false := by
    intro j
    show availNext c w.s j = _
    simp only [availNext, hs]
    exact telling_avail h hne j
  have hi : (w.next c i).s.w.items = w.s.w.items ++ w.s.din.toList := by rw [items_next h, h3]; rfl
  have hrest : (v.more (taken w.s i).toList).rest = (w.next c i).s.w.items ++ (w.next c i).s.din.toList := by
    rw [hi]
    show v.rest ++ _ = _
    rw [h2]
    rfl
  refine inv_more h ha h4 hav (fun _ => he) ?_
  have hst : (w.next c i).s.st = if !w.s.none then .conTxn else .waitData := by
    show stNext c w.s = _
    simp only [stNext, hs]
  have hr : (w.next c i).s.wRden = if !w.s.none then true else w.s.wRden := by
    show wRdenNext c w.s = _
    simp only [wRdenNext, hs]
  unfold Now
  rw [hst]
  by_cases hb : (!w.s.none) = true
  · rw [if_pos hb] at hr ⊢
    dsimp only
    refine ⟨con_next h ha k (.inr hs) he, ?_, hrest, hr, h3⟩
    rw [hi]
    have : w.s.w.items ≠ [] := by simpa [Regs.none] using hb
    simp [this]
  · rw [if_neg hb] at hr ⊢
    dsimp only
    exact ⟨con_next h ha k (.inr hs) he, hrest, by rw [hr, h3], h3⟩

/-- The two states in which a beat is used, together. -/
theorem step_use (h : Inv c w v) (ha : i.aw = none) {r : Req} {rs : List Req} {b : Beat} (hne : w.s.st ≠ .idle)
    (er : v.reqs = r :: rs) (eb : v.rest = b :: (w.s.w.items ++ w.s.din.toList)) (hb : w.s.beat = b)
    (hff : w.s.wRdenFf = true) (hrd : w.s.wRden = false) (hard : w.s.awRden = false)
    (haw : rs.map (·.idx) = w.s.aw.items) (he : ∀ j, w.s.err j = false)
    (hadr : addrNext w.s = (r.off + v.part.length) % c.words)
    (hst : stNext c w.s = if ends c w.s then .idle else if !w.s.none then .conTxn else .waitData)
    (hwr : wRdenNext c w.s = (!ends c w.s && !w.s.none)) (hawr : awRdenNext w.s = false)
    (hidx : popIdxNext w.s = r.idx) (hoff : popOffNext c w.s r.idx = (r.off + (v.part.length + 1)) % c.words)
    (hlen : awlenNext w.s = r.len) (hcnt : cntrNext w.s = (v.part.length + 1) % 256)
    (hstrb : strbNext w.s r.idx = (v.part ++ [b]).any fun x => !x.full)
    (hav : availNext c w.s = if ends c w.s then set w.s.avail r.idx true else w.s.avail)
    (herr : c.lite = false → errNext c w.s =
      set w.s.err r.idx (if b.last then v.part.length % 256 != r.len else v.part.length % 256 == r.len))
    (hf : w.flagged = decide (r.len < v.part.length)) :
    ∃ v', Inv c (w.next c i) v' ∧ ∀ q ∈ v'.reqs, q ∈ v.reqs := by
  have hav0 := telling_avail h hne
  have ht0 := telling_away h hne
  have hok := h.ok r (by rw [er]; exact List.mem_cons_self ..)
  have hi : (w.next c i).s.w.items = w.s.w.items ++ w.s.din.toList := by rw [items_next h, hrd]; rfl
  have haw' : (w.next c i).s.aw.items = w.s.aw.items := by rw [aw_next ha, hard]; rfl
  have hany0 : w.s.anyErr = false := anyErr_none he
  have hl : c.lite = true → ∀ j, (w.next c i).s.err j = false := by
    intro hl j
    show errNext c w.s j = _
    simp only [errNext, hl, if_true]
    exact he j
  have hends : ends c w.s = (c.lite || b.last) := by unfold ends; rw [hb]
  have hflag : (w.next c i).flagged = (decide (r.len < v.part.length) || (w.next c i).s.anyErr) := by
    rw [flagged_next, ht0, hf, hany0]
    simp
  have hfl0 : c.lite = false → (w.next c i).flagged = (decide (r.len < v.part.length) ||
      (if b.last then v.part.length % 256 != r.len else v.part.length % 256 == r.len)) := by
    intro hl
    rw [hflag, anyErr_one (s := (w.next c i).s) hok.1 _ he (herr hl)]
  have hlen256 := hok.2.2.1
  by_cases e : (c.lite || b.last) = true
  · have hends' : ends c w.s = true := by rw [hends, e]
    have hav' : ∀ j, (w.next c i).s.avail j = decide (j = r.idx) := by
      intro j
      show availNext c w.s j = _
      rw [hav, if_pos hends', set_apply, hav0]
      by_cases hj : j = r.idx
      · simp [hj]
      · simp [hj]
    have hst' : (w.next c i).s.st = .idle := by
      show stNext c w.s = _
      rw [hst, if_pos hends']
    have htell : (w.next c i).telling = [⟨r.idx, (v.part ++ [b]).any (fun x => !x.full), decide ((v.part ++ [b]).length ≠ r.len + 1)⟩] := by
      rw [telling_one hok.1 hav']
      have e1 : (w.next c i).s.strb r.idx = (v.part ++ [b]).any fun x => !x.full := hstrb
      have e2 : (w.next c i).flagged = decide ((v.part ++ [b]).length ≠ r.len + 1) := by
        cases hlite : c.lite with
        | true =>
          have hp : v.part = [] := by
            cases hp : v.part with
            | nil => rfl
            | cons y t =>
              have := h.pairs.part y (by rw [hp]; exact List.mem_cons_self ..)
              rw [hlite] at this
              simp at this
          rw [hflag, anyErr_none (hl hlite), hp, hok.2.2.2.1 hlite]
          rfl
        | false =>
          rw [hlite] at e
          have hbl : b.last = true := by simpa using e
          rw [hfl0 hlite, hbl, if_pos rfl, List.length_append, List.length_singleton]
          by_cases hc : r.len < v.part.length
          · have : v.part.length + 1 ≠ r.len + 1 := by omega
            simp [hc, this]
            omega
          · rw [Nat.mod_eq_of_lt (by omega)]
            by_cases hd : v.part.length = r.len
            · simp [hd]
            · simp [hd]
      rw [e1, e2]
    refine ⟨v.fin r rs b (w.s.w.items ++ w.s.din.toList ++ (taken w.s i).toList), ?_, ?_⟩
    · refine inv_use h ha hff _ er hb (pairs_fin h.pairs ha eb e er) (.inl rfl) (writes_fin er b _) hadr ?_ hl (.inr ⟨hst', r.idx, hok.1, hav'⟩) ?_
      · rw [htell, h.told]
        show _ = (v.done ++ [(r, v.part ++ [b])]).map tell
        rw [List.map_append]
        rfl
      · unfold Now
        rw [hst']
        dsimp only
        refine ⟨rfl, ?_, ?_, ?_, hawr, hrd, ?_⟩
        · rw [hi]
          rfl
        · rw [haw']
          exact haw
        · show wRdenNext c w.s = _
          rw [hwr, hends']
          rfl
        · intro hx
          rw [htell] at hx
          exact absurd hx (by simp)
    · intro q hq
      rw [er]
      exact List.mem_cons_of_mem _ hq
  · have e : (c.lite || b.last) = false := by simpa using e
    have hends' : ends c w.s = false := by rw [hends, e]
    have hlite : c.lite = false := by
      cases hx : c.lite
      · rfl
      · rw [hx] at e
        simp at e
    have hbl : b.last = false := by
      rw [hlite] at e
      simpa using e
    have hav' : ∀ j, (w.next c i).s.avail j = false := by
      intro j
      show availNext c w.s j = _
      rw [hav, if_neg (by rw [hends']; decide)]
      exact hav0 j
    have hst' : (w.next c i).s.st = if !w.s.none then .conTxn else .waitData := by
      show stNext c w.s = _
      rw [hst, if_neg (by rw [hends']; decide)]
    have hcon : Con c (w.next c i) (v.on b (w.s.w.items ++ w.s.din.toList ++ (taken w.s i).toList)) := by
      refine ⟨by simp [View.on], hawr, r, rs, er, hidx, by rw [haw']; exact haw, ?_, hlen, ?_, hstrb, ?_⟩
      · show popOffNext c w.s r.idx = _
        rw [hoff]
        simp [View.on]
      · show cntrNext w.s = _
        rw [hcnt]
        simp [View.on]
      · rw [hfl0 hlite, hbl, if_neg (by decide)]
        show _ = decide (r.len < (v.part ++ [b]).length)
        rw [List.length_append, List.length_singleton]
        by_cases hc : r.len < v.part.length
        · have : r.len < v.part.length + 1 := by omega
          simp [hc, this]
        · rw [Nat.mod_eq_of_lt (by omega)]
          by_cases hd : v.part.length = r.len
          · simp [hd]
          · have : ¬ r.len < v.part.length + 1 := by omega
            simp [hc, hd, this]
    refine ⟨v.on b (w.s.w.items ++ w.s.din.toList ++ (taken w.s i).toList), ?_, ?_⟩
    · refine inv_use h ha hff _ er hb (pairs_on h.pairs ha eb e (by rw [er]; simp)) (.inr er) (writes_on er b _) hadr ?_ hl (.inl hav') ?_
      · rw [telling_none hav', List.append_nil]
        exact h.told
      · have hrest : (v.on b (w.s.w.items ++ w.s.din.toList ++ (taken w.s i).toList)).rest =
            (w.next c i).s.w.items ++ (w.next c i).s.din.toList := by
          rw [hi]
          rfl
        unfold Now
        rw [hst']
        have hr : (w.next c i).s.wRden = !w.s.none := by
          show wRdenNext c w.s = _
          rw [hwr, hends']
          rfl
        by_cases hb : (!w.s.none) = true
        · rw [if_pos hb]
          dsimp only
          rw [hb] at hr
          refine ⟨hcon, ?_, hrest, hr, hrd⟩
          rw [hi]
          have : w.s.w.items ≠ [] := by simpa [Regs.none] using hb
          simp [this]
        · rw [if_neg hb]
          dsimp only
          have hb : (!w.s.none) = false := by simpa using hb
          rw [hb] at hr
          exact ⟨hcon, hrest, hr, hrd⟩
    · intro q hq
      exact hq

theorem step_newWait (h : Inv c w v) (ha : i.aw = none) (hs : w.s.st = .newWait) :
    ∃ v', Inv c (w.next c i) v' ∧ ∀ q ∈ v'.reqs, q ∈ v.reqs := by
  have n := h.now
  unfold Now at n
  rw [hs] at n
  dsimp only at n
  obtain ⟨h1, b, r, rs, e1, e2, e3, e4, e5, e6, e7, e8, e9, e10, e11⟩ := n
  have hd : w.s.desc = r.idx := by unfold Regs.desc; rw [e4]; rfl
  have hb : w.s.beat = b := by unfold Regs.beat; rw [e3]; rfl
  have hok := h.ok r (by rw [e1]; exact List.mem_cons_self ..)
  refine step_use h ha (by rw [hs]; decide) e1 e2 hb e8 e6 e7 e5 e10 ?_ ?_ ?_ ?_ ?_ ?_ ?_ ?_ ?_ ?_ ?_ ?_
  · simp only [addrNext, hs, hd, hok.2.2.2.2.1, h1, List.length_nil, Nat.add_zero]
    exact (Nat.mod_eq_of_lt hok.2.1).symm
  · simp only [stNext, hs]
  · simp only [wRdenNext, hs]
  · simp only [awRdenNext, hs, e7]
  · simp only [popIdxNext, hs, hd]
  · simp only [popOffNext, hs, hd, set_apply, if_pos, hok.2.2.2.2.1, h1, List.length_nil]
  · simp only [awlenNext, hs, hd, hok.2.2.2.2.2]
  · simp only [cntrNext, hs, e11, h1, List.length_nil]
  · simp [strbNext, hs, hd, set_apply, hb, h1]
  · simp only [availNext, hs, hd]
  · intro hl
    simp only [errNext, hs, hd, hl, hb, hok.2.2.2.2.2, h1, List.length_nil]
    have e : (r.len != 0) = (0 % 256 != r.len) := by
      rw [Bool.eq_iff_iff]
      simp
      omega
    have e' : (r.len == 0) = (0 % 256 == r.len) := by
      rw [Bool.eq_iff_iff]
      simp
      omega
    rw [e, e']
    rfl
  · rw [e9, h1]
    simp

theorem step_conWait (h : Inv c w v) (ha : i.aw = none) (hs : w.s.st = .conWait) :
    ∃ v', Inv c (w.next c i) v' ∧ ∀ q ∈ v'.reqs, q ∈ v.reqs := by
  have n := h.now
  unfold Now at n
  rw [hs] at n
  dsimp only at n
  obtain ⟨k, b, e2, e3, e6, e8, e10⟩ := n
  obtain ⟨r, rs, e1, f2, f3, f4, f5, f6, f7, f8⟩ := k.own
  have hb : w.s.beat = b := by unfold Regs.beat; rw [e3]; rfl
  refine step_use h ha (by rw [hs]; decide) e1 e2 hb e8 e6 k.awRden f3 e10 ?_ ?_ ?_ ?_ ?_ ?_ ?_ ?_ ?_ ?_ ?_ f8
  · simp only [addrNext, hs, f2, f4]
  · simp only [stNext, hs]
  · simp only [wRdenNext, hs]
  · simp only [awRdenNext, hs, k.awRden]
  · simp only [popIdxNext, hs, f2]
  · simp only [popOffNext, hs, f2, set_apply, if_pos, f4, Nat.mod_add_mod, Nat.add_assoc]
  · simp only [awlenNext, hs, f5]
  · simp only [cntrNext, hs, f6, Nat.mod_add_mod]
  · simp [strbNext, hs, f2, set_apply, hb, f7, List.any_append]
  · simp only [availNext, hs, f2]
  · intro hl
    simp only [errNext, hs, f2, hl, hb, f5, f6]
    rfl

theorem inv_quiet (h : Inv c w v) (ha : i.aw = none) : ∃ v', Inv c (w.next c i) v' ∧ ∀ q ∈ v'.reqs, q ∈ v.reqs := by
  cases hs : w.s.st with
  | idle => exact ⟨_, step_idle h ha hs, fun _ hq => hq⟩
  | newTxn => exact ⟨_, step_newTxn h ha hs, fun _ hq => hq⟩
  | newWait => exact step_newWait h ha hs
  | conTxn => exact ⟨_, step_conTxn h ha hs, fun _ hq => hq⟩
  | conWait => exact step_conWait h ha hs
  | waitData => exact ⟨_, step_waitData h ha hs, fun _ hq => hq⟩

/-- The descriptors in the queue are of the requests left. -/
theorem aw_sub (h : Inv c w v) : w.s.aw.items.Nodup ∧ ∀ x ∈ w.s.aw.items, ∃ q ∈ v.reqs, q.idx = x := by
  have key : ∀ rs : List Req, (∃ p, v.reqs = p ++ rs) → rs.map (·.idx) = w.s.aw.items →
      w.s.aw.items.Nodup ∧ ∀ x ∈ w.s.aw.items, ∃ q ∈ v.reqs, q.idx = x := by
    rintro rs ⟨p, hp⟩ e
    rw [← e]
    constructor
    · have := h.nodup
      rw [hp, List.map_append] at this
      exact (List.nodup_append.mp this).2.1
    · intro x hx
      obtain ⟨q, hq, e⟩ := List.mem_map.mp hx
      exact ⟨q, by rw [hp]; exact List.mem_append_right _ hq, e⟩
  have n := h.now
  unfold Now at n
  have con : Con c w v → w.s.aw.items.Nodup ∧ ∀ x ∈ w.s.aw.items, ∃ q ∈ v.reqs, q.idx = x := by
    intro k
    obtain ⟨r, rs, e1, _, e3, _⟩ := k.own
    exact key rs ⟨[r], e1⟩ e3
  cases hs : w.s.st <;> rw [hs] at n <;> dsimp only at n
  · exact key v.reqs ⟨[], rfl⟩ n.2.2.1
  · exact key v.reqs ⟨[], rfl⟩ n.2.2.1
  · obtain ⟨_, b, r, rs, e1, _, _, _, e5, _⟩ := n
    exact key rs ⟨[r], e1⟩ e5
  · exact con n.1
  · exact con n.1
  · exact con n.1

theorem next_add {r : Req} (ha : i.aw = some r) (hq : w.s.aw.items.length < 16) :
    w.next c i = (w.next c { i with aw := none }).add r := by
  unfold World.next World.add
  dsimp only
  congr 1
  · unfold step
    dsimp only
    rw [ha]
    congr 1
    simp [Queue.next, hq]
  · rw [ha]
    simp

theorem inv_next (h : Inv c w v) (p : Polite c w i) : ∃ v', Inv c (w.next c i) v' := by
  cases ha : i.aw with
  | none =>
    obtain ⟨v', h', _⟩ := inv_quiet h ha
    exact ⟨v', h'⟩
  | some r =>
    obtain ⟨p1, p2, p3, p4, p5⟩ := p r ha
    have hopen : ∀ q ∈ v.reqs, q.idx ≠ r.idx := by
      intro q hq
      apply p5
      unfold World.open
      rw [h.pairs.reqs]
      have hlen : w.told.length ≤ (v.done.map (·.1)).length := by
        have := congrArg List.length h.told
        simp at this ⊢
        omega
      rw [List.drop_append_of_le_length hlen]
      exact List.mem_append_right _ hq
    have hq : w.s.aw.items.length < 16 := by
      obtain ⟨hd, hm⟩ := aw_sub h
      have hnot : r.idx ∉ w.s.aw.items := by
        intro hx
        obtain ⟨q, hq, e⟩ := hm _ hx
        exact hopen q hq e
      have hsub : (r.idx :: w.s.aw.items) ⊆ List.range 16 := by
        intro x hx
        rcases List.mem_cons.mp hx with e | e
        · rw [e]
          exact List.mem_range.mpr p1
        · obtain ⟨q, hq, e⟩ := hm _ e
          rw [← e]
          exact List.mem_range.mpr (h.ok q hq).1
      have := List.Nodup.length_le_of_subset (List.nodup_cons.mpr ⟨hnot, hd⟩) hsub
      simp at this
      omega
    rw [next_add ha hq]
    obtain ⟨v', h', hs⟩ := inv_quiet (i := { i with aw := none }) h rfl
    exact ⟨v'.add r, inv_add h' ⟨p1, p2, p3, p4⟩ fun q hq => hopen q (hs q hq)⟩

end

theorem inv_run {c : Cfg} (t : List In) : ∀ {w : World} {v : View}, Inv c w v → AllPolite c w t → ∃ v', Inv c (w.run c t) v' := by
  induction t with
  | nil => exact fun h _ => ⟨_, h⟩
  | cons i t ih =>
    intro w v h p
    obtain ⟨v', h'⟩ := inv_next h p.1
    exact ih h' p.2

end Verif.RtlWdata
