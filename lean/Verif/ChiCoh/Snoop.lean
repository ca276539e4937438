import Verif.ChiCoh.Msg

/-!
# Snoops and write grants
-/

namespace Verif.ChiCoh

/-- What a cache does with a snoop of a full line it holds. -/
structure SnpFacts (op : SnpOp) (l : Line) (p : Line × Resp) : Prop where
  tag : p.1.tag = l.tag
  data : p.1.data = l.data
  be : p.1.be = l.be
  shared : l.shared = true → p.1.shared = true
  inv : invalidating op = true → p.1.valid = false
  keep : invalidating op = false → p.1.valid = true
  share : op = .share → p.1.shared = true
  dirty : l.dirty = true → op ≠ .makeInvalid → (p.1.valid = true ∧ p.1.dirty = true) ∨ p.2.pd = true
  fwd : p.2.fwd = none
  ptl : p.2.ptl = false
  valid : p.2.valid = false → p.1.valid = false
  nodata : p.2.data = false → p.1.valid = false
  pd : p.2.pd = true → p.2.data = true
  once : op = .once → p.2.pd = false

theorem snpTable_facts {op : SnpOp} {l : Line} (ho : op ≠ .onceFwd ∧ op ≠ .shareFwd ∧ op ≠ .uniqueFwd)
    (hv : l.valid = true) (hb : l.be = allBytes) : SnpFacts op l (snpTable op l) := by
  have hf : l.full = true := by simp [Line.full, hb, allBytes]
  have st : l.status = if l.shared then (if l.dirty then .sd else .sc) else if l.dirty then .ud else .uc := by
    simp [Line.status, hv, hf]
  cases hs : l.shared <;> cases hd : l.dirty <;> cases op <;>
    simp only [hs, hd, if_true, Bool.false_eq_true, if_false] at st <;>
    first
      | (exfalso; simp at ho; done)
      | (constructor <;>
          simp [snpTable, snpOnce, snpShare, snpUnique, snpCleanInvalid, snpMakeInvalid, st, rsp, invalidating, hv, hs, hd])

theorem snpOp_nofwd {k : Kind} {op : SnpOp} (h : snpOp false k = some op) :
    op ≠ .onceFwd ∧ op ≠ .shareFwd ∧ op ≠ .uniqueFwd := by
  revert h; cases k <;> simp [snpOp] <;> rintro rfl <;> simp

theorem snpOp_make {k : Kind} (h : snpOp false k = some .makeInvalid) : k = .makeUnique ∨ k = .wrUFull := by
  revert h; cases k <;> simp [snpOp]

theorem snoop_ok {cfg : Cfg} {s s' : St} {t : Spec} {es : List Ev} {j : Nat} (h : Inv cfg s t)
    (hcalm : Calm s (.snoop j)) (hs : stepSnoop cfg s j = .next s' es) : es = [] ∧ Inv cfg s' t := by
  unfold stepSnoop at hs
  cases hk : s.cur with
  | none => simp [hk] at hs
  | some k =>
    have ck := h.cur k hk
    simp only [hk] at hs
    unfold Calm at hcalm
    simp only [hk] at hcalm
    rw [ck.fwd] at hcalm
    cases hop : snpOp false k.kind with
    | none => rw [ck.fwd, hop] at hs; simp at hs
    | some op =>
    have hop' : snpOp k.fwd k.kind = some op := by rw [ck.fwd]; exact hop
    cases hsn : k.snp j <;> simp only [hop', hsn] at hs <;> try cases hs
    simp only [hop, Option.any_some] at hcalm
    have hnf := snpOp_nofwd hop
    have hph : k.phase = .snoop := by
      cases e : k.phase.early
      · rcases ck.quiet' e j with b | b <;> rw [hsn] at b <;> cases b
      · apply Classical.byContradiction
        intro hne
        rcases ck.quiet e hne j with b | b <;> rw [hsn] at b <;> cases b
    have hjs : j ≠ k.src := by intro e; rw [e, ck.srcOff] at hsn; cases hsn
    have hnh : ¬ Hot s j k.tag := by
      rintro ⟨v, a, b, c, d⟩
      have := hcalm.1
      unfold justGranted at this
      simp only [a] at this
      rcases c with c | c <;> simp [b, c, d] at this
    refine ⟨rfl, ?_⟩
    -- name things
    let l := ln cfg s j k.tag
    let p := snpLine op k.tag l
    let ca : Cache := { s.cache j with slot := upd (s.cache j).slot (k.tag % cfg.num) p.1 }
    let k' : Cur := { k with snp := upd k.snp j (.handled p.2) }
    let s' : St := { setCache s j ca with cur := some k' }
    show Inv cfg s' t
    have hfacts : Holds cfg s j k.tag → SnpFacts op l p ∧ l.be = allBytes ∧ l.data = t.mem k.tag := by
      intro a
      have c := h.copy j k.tag a (fun m => hnh m.hot)
      have e : p = snpTable op l := if_pos a
      rw [e]
      exact ⟨snpTable_facts hnf a.1 c.1, c.1, c.2⟩
    have hmiss : ¬ Holds cfg s j k.tag → p = (l, rsp false false false false none) := fun a => if_neg a
    have ptag : p.1.tag = l.tag ∧ p.1.data = l.data ∧ p.1.be = l.be ∧ (p.1.valid = true → l.valid = true) ∧
        (l.shared = true → p.1.shared = true) := by
      by_cases a : Holds cfg s j k.tag
      · have f := (hfacts a).1
        exact ⟨f.tag, f.data, f.be, fun _ => a.1, f.shared⟩
      · rw [hmiss a]; exact ⟨rfl, rfl, rfl, id, id⟩
    have hci : s'.cache j = ca := upd_same _ _ _
    have hcj : ∀ i, i ≠ j → s'.cache i = s.cache i := fun i e => upd_ne _ _ _ e
    have hpc : ∀ i, (s'.cache i).pc = (s.cache i).pc := by
      intro i
      by_cases e : i = j
      · subst e; rw [hci]
      · rw [hcj i e]
    have hHot : ∀ i x, Hot s' i x ↔ Hot s i x := by intro i x; unfold Hot; rw [hpc]
    have hMade : ∀ i x, Made s' i x ↔ Made s i x := by intro i x; unfold Made; rw [hpc]
    have same : ∀ i x, ¬ (i = j ∧ x % cfg.num = k.tag % cfg.num) → ln cfg s' i x = ln cfg s i x :=
      fun i x e => lnSame (s := s) (ca := ca) rfl rfl e
    have new : ∀ x, x % cfg.num = k.tag % cfg.num → ln cfg s' j x = p.1 ∧ ln cfg s j x = l := by
      intro x e
      exact ⟨lnNew (s := s) (ca := ca) rfl rfl e, by show (s.cache j).slot (x % cfg.num) = _; rw [e]⟩
    -- every slot keeps its tag, data and byte enables; valid can only go, shared only come
    have slotm : ∀ i x, (ln cfg s' i x).tag = (ln cfg s i x).tag ∧ (ln cfg s' i x).data = (ln cfg s i x).data ∧
        (ln cfg s' i x).be = (ln cfg s i x).be ∧
        ((ln cfg s' i x).valid = true → (ln cfg s i x).valid = true) ∧
        ((ln cfg s i x).shared = true → (ln cfg s' i x).shared = true) := by
      intro i x
      by_cases e : i = j ∧ x % cfg.num = k.tag % cfg.num
      · obtain ⟨rfl, e2⟩ := e
        rw [(new x e2).1, (new x e2).2]; exact ptag
      · rw [same i x e]; exact ⟨rfl, rfl, rfl, id, id⟩
    have hH : ∀ i x, Holds cfg s' i x → Holds cfg s i x := by
      intro i x a
      rw [holdsLn] at a ⊢
      have m := slotm i x
      exact ⟨m.2.2.2.1 a.1, by rw [← m.1]; exact a.2⟩
    have hother : ∀ i x, ¬ (i = j ∧ x = k.tag) → Holds cfg s i x → ln cfg s' i x = ln cfg s i x := by
      intro i x e a
      by_cases e2 : i = j ∧ x % cfg.num = k.tag % cfg.num
      · obtain ⟨rfl, e3⟩ := e2
        rw [(new x e3).1, (new x e3).2]
        have a' := (holdsLn cfg s i x).1 a
        rw [(new x e3).2] at a'
        rw [hmiss]
        intro b
        exact e ⟨rfl, by rw [← a'.2]; exact b.2⟩
      · exact same i x e2
    refine { act := ?_, pcn := ?_, pcs := ?_, ixs := ?_, copy := ?_, uniq := ?_, filt := ?_, avail := ?_, cur := ?_ }
    · intro i; rw [hpc]; exact h.act i
    · intro i w a; rw [hpc] at a; exact h.pcn i w a
    · intro i w a
      rw [hpc] at a
      have q := h.pcs i w a
      refine { ix := q.ix, fill := q.fill, ff := q.ff, onceLd := q.onceLd, opf := q.opf, uniqSt := q.uniqSt, stWr := q.stWr, fvic := q.fvic, dense := q.dense, seen := q.seen, com := q.com, comp := q.comp, ack := q.ack, line := ?_ }
      have e1 : (s'.cache i).slot (w.c.tag % cfg.num) = ln cfg s' i w.c.tag := rfl
      have e2 : (s.cache i).slot (w.c.tag % cfg.num) = ln cfg s i w.c.tag := rfl
      have l0 := q.line
      rw [e2] at l0
      rw [e1]
      by_cases e : i = j ∧ w.c.tag % cfg.num = k.tag % cfg.num
      · obtain ⟨rfl, e3⟩ := e
        rw [(new _ e3).1]
        rw [(new _ e3).2] at l0
        by_cases hh : Holds cfg s i k.tag
        · have f := (hfacts hh).1
          have hv : l.valid = true := hh.1
          have ht : l.tag = k.tag := hh.2
          unfold LineOk at l0 ⊢
          cases ho : w.op <;> simp only [ho] at l0 ⊢
          case readShared | readClean | readNSD | readUnique =>
            intro c; rw [l0 c] at hv; cases hv
          case once | onceCI | onceMI =>
            exact ⟨fun c => absurd hv (by rw [l0.1 c]; simp), l0.2⟩
          case makeUnique =>
            refine ⟨fun c => absurd hv (by rw [l0.1 c]; simp), fun c => ?_⟩
            exact absurd ⟨w, a, c, .inl ho, by rw [← (l0.2 c).2.1]; exact ht⟩ hnh
          case cleanUnique =>
            have wt : w.tag = k.tag := by rw [← l0.2.1]; exact ht
            have nd : w.st ≠ .done := fun c => hnh ⟨w, a, c, .inr ho, wt⟩
            have ni : invalidating op = false := by
              cases hi : invalidating op
              · rfl
              · have c := hcalm.2 hi
                unfold upgrading at c
                simp [a, ho, wt, nd] at c
            exact ⟨f.keep ni, by rw [f.tag]; exact l0.2.1, fun c => absurd c nd⟩
          case evict => rw [l0] at hv; cases hv
          case writeBack | writeBackPtl | writeEvict =>
            refine ⟨fun c d => ?_, fun c => by rw [l0.2 c] at hv; cases hv⟩
            rw [f.tag, f.data]; exact l0.1 c hv
          case writeClean =>
            intro c d
            rw [f.tag, f.data]; exact l0 c hv
          case wrUPtl | wrUFull =>
            refine ⟨fun c d => l0.1 c ⟨hv, by rw [← f.tag]; exact d.2⟩, l0.2⟩
        · rw [hmiss hh]; exact l0
      · rw [same _ _ e]; exact l0
    · intro i y a
      by_cases e : i = j ∧ y = k.tag % cfg.num
      · obtain ⟨rfl, e2⟩ := e
        have e3 : (s'.cache i).slot y = p.1 := by rw [hci, e2]; exact upd_same _ _ _
        rw [e3] at a ⊢
        have b := h.ixs i y (by rw [e2]; exact ptag.2.2.2.1 a)
        rw [ptag.1]
        rw [e2] at b
        rw [e2]; exact b
      · have e3 : (s'.cache i).slot y = (s.cache i).slot y := by
          by_cases e4 : i = j
          · subst e4
            rw [hci]
            exact upd_ne _ _ _ (fun c => e ⟨rfl, c⟩)
          · rw [hcj i e4]
        rw [e3] at a ⊢; exact h.ixs i y a
    · intro i x a nm
      have m := slotm i x
      rw [m.2.1, m.2.2.1]
      exact h.copy i x (hH i x a) (fun b => nm ((hMade i x).2 b))
    · intro i i' x a b c
      refine h.uniq i i' x (hH i x a) ?_ (hH i' x c)
      cases e : (ln cfg s i x).shared
      · rfl
      · rw [(slotm i x).2.2.2.2 e] at b; cases b
    · intro i x a
      have f := h.filt i x (hH i x a)
      refine ⟨f.1, .inl ?_⟩
      rcases f.2 with f | ⟨k', b, _, _, c, _⟩
      · exact f
      · rw [hk] at b; cases b; rw [hph] at c; cases c
    · intro x
      cases h.avail x with
      | dirty i a d =>
        by_cases e : i = j ∧ x = k.tag
        · obtain ⟨rfl, rfl⟩ := e
          have f := (hfacts a).1
          by_cases hm : op = .makeInvalid
          · refine .over k' rfl rfl ⟨?_, by show k.phase.early = true; rw [hph]; rfl⟩
            exact snpOp_make (by rw [hop, hm])
          · rcases f.dirty d hm with b | b
            · refine .dirty i ?_ ?_
              · rw [holdsLn, (new _ rfl).1]
                exact ⟨b.1, by rw [f.tag]; exact a.2⟩
              · rw [(new _ rfl).1]; exact b.2
            · exact .home k' rfl rfl (.inl ⟨i, p.2, upd_same _ _ _, b⟩)
        · have b := hother i x e a
          exact .dirty i (by rw [holdsLn, b]; exact a) (by rw [b]; exact d)
      | mem a =>
        refine .mem ?_
        rw [← a]
        unfold eff
        rw [hk]
        rw [pend_early x _ (k := k) (by rw [hph]; simp) (by rw [hph]; simp) (by rw [hph]; simp)]
        have hp' : k'.phase = .snoop := hph
        exact pend_early x _ (k := k') (by rw [hp']; simp) (by rw [hp']; simp) (by rw [hp']; simp)
      | home k2 a b c =>
        rw [hk] at a; cases a
        refine .home k' rfl b ?_
        rcases c with ⟨j', r', c1, c2⟩ | c | c
        · refine .inl ⟨j', r', ?_, c2⟩
          have e : j' ≠ j := by intro e; subst e; rw [hsn] at c1; cases c1
          show upd k.snp j _ j' = _
          rw [upd_ne _ _ _ e]; exact c1
        · exact .inr (.inl c)
        · exact .inr (.inr c)
      | over k2 a b c =>
        rw [hk] at a; cases a
        exact .over k' rfl b c
      | hot i a => exact .hot i ((hHot i x).2 a)
    · intro k2 a
      cases a
      have ck2 : CurOk cfg s' t k := by
        refine ck.mono' (fun i a => hH i _ a) (fun i _ => (slotm i _).2.2.2.2) (fun i a => (hHot i _).1 a)
          (fun _ => hpc _) (fun _ => rfl) ?_ (fun _ v a => a)
        intro i r a b
        obtain ⟨c0, c1, c2, _⟩ := (ck.sn i r a).data b
        have m := slotm i k.tag
        rw [m.1, m.2.1, m.2.2.1]
        exact ⟨c0, c1, c2⟩
      have dn : DnOk cfg s' k j := by
        refine ⟨fun a => hnh ((hHot _ _).1 a), ?_, ?_⟩
        · intro op' a b c
          rw [hop] at a; cases a
          have f := (hfacts (hH _ _ c)).1
          have d := (holdsLn cfg s' j k.tag).1 c
          rw [(new _ rfl).1, f.inv b] at d
          cases d.1
        · intro a c
          rw [hop] at a; cases a
          have f := (hfacts (hH _ _ c)).1
          rw [(new _ rfl).1]; exact f.share rfl
      have sn : SnOk cfg s' t.mem k j p.2 := by
        by_cases hh : Holds cfg s j k.tag
        · obtain ⟨f, f1, f2⟩ := hfacts hh
          refine ⟨dn, f.fwd, f.ptl, ?_, ?_, f.pd, ?_, ?_⟩
          · intro a b
            have d := (holdsLn cfg s' j k.tag).1 b
            rw [(new _ rfl).1, f.valid a] at d; cases d.1
          · intro a b
            have d := (holdsLn cfg s' j k.tag).1 b
            rw [(new _ rfl).1, f.nodata a] at d; cases d.1
          · intro a
            refine f.once ?_
            rw [a] at hop; cases hop; rfl
          · intro _
            rw [(new _ rfl).1, f.tag, f.be, f.data]
            refine ⟨hh.2, f1, f2, ?_⟩
            intro i a b
            have b' : (ln cfg s i k.tag).shared = false := by
              cases e : (ln cfg s i k.tag).shared
              · rfl
              · rw [(slotm i k.tag).2.2.2.2 e] at b; cases b
            exact (h.uniq i j k.tag (hH i _ a) b' hh).symm
        · have e := hmiss hh
          have nh : ¬ Holds cfg s' j k.tag := fun a => hh (hH _ _ a)
          rw [e]
          exact ⟨dn, rfl, rfl, fun _ => nh, fun _ => nh, by simp [rsp], fun _ => rfl, by simp [rsp]⟩
      have hcase : ∀ i, i ≠ j → upd k.snp j (.handled p.2) i = k.snp i := fun i e => upd_ne _ _ _ e
      have hd : ∀ i, k'.snp i = .done → k.snp i = .done := by
        intro i a
        by_cases e : i = j
        · subst e
          have a' : upd k.snp i (.handled p.2) i = .done := a
          rw [upd_same] at a'; cases a'
        · rw [← hcase i e]; exact a
      refine { srcn := ck2.srcn, fwd := ck2.fwd, srcOff := ?_, out := ?_, early := ck2.early, noEv := ck2.noEv, exp := ck2.exp, cover := ?_, sn := ?_, dn := ?_, quiet := ?_, quiet' := ?_, noSnp := ?_, pdgot := ck2.pdgot, pdOnce := ck2.pdOnce, ptl := ck2.ptl, gotd := ck2.gotd, nogot := ?_, nosh := ?_, ph := ?_ }
      · show upd k.snp j _ k.src = .off
        rw [hcase _ (Ne.symm hjs)]; exact ck.srcOff
      · intro i a
        show upd k.snp j _ i = .off
        rw [hcase i]
        · exact ck.out i a
        · intro e; subst e; rw [ck.out i a] at hsn; cases hsn
      · intro a i b c
        show upd k.snp j _ i ≠ .off
        by_cases e : i = j
        · subst e; rw [upd_same]; simp
        · rw [hcase i e]; exact ck2.cover a i b c
      · intro i r a
        by_cases e : i = j
        · subst e
          have a' : upd k.snp i (.handled p.2) i = .handled r := a
          rw [upd_same] at a'; cases a'
          exact ⟨⟨dn.hot, dn.inv, dn.share⟩, sn.fwd, sn.ptl, sn.valid, sn.nodata, sn.pd, sn.pdOnce, sn.data⟩
        · have a' : upd k.snp j (.handled p.2) i = .handled r := a
          rw [hcase i e] at a'
          have q := ck2.sn i r a'
          exact ⟨⟨q.dn.hot, q.dn.inv, q.dn.share⟩, q.fwd, q.ptl, q.valid, q.nodata, q.pd, q.pdOnce, q.data⟩
      · intro i a
        have d := ck2.dn i (hd i a)
        exact ⟨d.hot, d.inv, d.share⟩
      · intro _ a; exact absurd hph a
      · intro a
        have a' : k.phase.early = false := a
        rw [hph] at a'; cases a'
      · intro a
        have a' : (snpOp false k.kind).isSome = false := a
        rw [hop] at a'; cases a'
      · intro a i b; exact ck2.nogot a i (hd i b)
      · intro a i b; exact ck2.nosh a i (hd i b)
      · show PhaseOk cfg s' t { k with snp := _ }
        simp only [PhaseOk, hph]

theorem rxDbid_ok {cfg : Cfg} {s s' : St} {t : Spec} {es : List Ev} (h : Inv cfg s t)
    (hs : stepRxDbid cfg s = .next s' es) : ∃ t', t.run es = some t' ∧ Inv cfg s' t' := by
  unfold stepRxDbid at hs
  cases hk : s.cur with
  | none => simp [hk] at hs
  | some k =>
    have ck := h.cur k hk
    cases hph : k.phase <;> simp only [hk, hph] at hs <;> try cases hs
    obtain ⟨w, hp, ha, hop, htg⟩ := ck.early (by rw [hph]; rfl)
    simp only [hp] at hs
    simp only [Out.next.injEq] at hs
    obtain ⟨rfl, rfl⟩ := hs
    have ph := ck.ph
    simp only [PhaseOk, hph] at ph
    have q := h.pcs _ w hp
    have l0 := q.line
    have nd : w.st ≠ .done := by rw [ha]; simp
    have hnd : ¬ homeDirty k := ck.noDirty (by rw [hph]; simp) (by rw [hph]; simp)
    have nMade : ∀ x, ¬ Made s k.src x := by
      rintro x ⟨v, a, b, _⟩
      rw [hp] at a; cases a; exact nd b
    have nHot : ∀ x, ¬ Hot s k.src x := by
      rintro x ⟨v, a, b, _⟩
      rw [hp] at a; cases a; exact nd b
    by_cases hw : k.kind.isWrU = true
    · -- WriteUnique: the store takes effect
      have hw' : w.op.isWrU = true := by rw [hop]; exact hw
      have hfill := q.fill (by revert hw'; cases w.op <;> simp [Kind.isWrU, Kind.isFill, Kind.isCb])
      have htc : w.c.tag = k.tag := by rw [← hfill, htg]
      have hof := q.opf (by revert hw'; cases w.op <;> simp [Kind.isWrU, Kind.isFill, Kind.isCb])
      have hcw : w.c.wr = true := q.stWr (by rw [← hof]; revert hw'; cases w.op <;> simp [Kind.isWrU])
      have hcom : t.com k.src = false := by rw [q.com, ha]; simp
      have hact : t.act k.src = some w.c := by rw [h.act, hp]; rfl
      have hl : ¬ Holds cfg s k.src k.tag ∧ w.snap = w.c.data ∧ w.sbe = w.c.be := by
        unfold LineOk at l0
        rw [htc] at l0
        rw [holdsLn]
        revert hw' l0
        cases ho : w.op <;> simp [Kind.isWrU, ha, htg] <;> intro a b c <;> exact ⟨a, b, c⟩
      have nobody : ∀ j, ¬ Holds cfg s j k.tag := by
        intro j a
        by_cases e : j = k.src
        · subst e; exact hl.1 a
        · have so : ∃ op, snpOp false k.kind = some op ∧ invalidating op = true := by
            revert hw; cases k.kind <;> simp [Kind.isWrU, snpOp, invalidating]
          obtain ⟨op, o1, o2⟩ := so
          have c := ck.cover (by rw [o1]; rfl) j e a
          rcases ck.quiet (by rw [hph]; rfl) (by rw [hph]; simp) j with d | d
          · exact c d
          · exact (ck.dn j d).inv op o1 o2 a
      refine ⟨t.store k.src w.c, ?_, ?_⟩
      · rw [if_pos hw']
        have e3 : t.ev (.commit k.src) = some (t.store k.src w.c) := by simp [Spec.ev, hact, hcw, hcom]
        simp only [Spec.run, e3]
      · have e0 : rxDbidCache cfg.num w (s.cache k.src) =
            ({ s.cache k.src with pc := some { w with st := .done } }, .wr true w.snap w.sbe) := by
          unfold rxDbidCache; rw [if_pos hw']
        rw [e0]
        let ca : Cache := { s.cache k.src with pc := some { w with st := .done } }
        let s' : St := { setCache s k.src ca with cur := some { k with phase := .wr true w.snap w.sbe } }
        show Inv cfg s' (t.store k.src w.c)
        have hci : s'.cache k.src = ca := upd_same _ _ _
        have hcj : ∀ j, j ≠ k.src → s'.cache j = s.cache j := fun j e => upd_ne _ _ _ e
        have hsl : ∀ j, (s'.cache j).slot = (s.cache j).slot := by
          intro j
          by_cases e : j = k.src
          · subst e; rw [hci]
          · rw [hcj j e]
        have hL : ∀ j x, ln cfg s' j x = ln cfg s j x := by intro j x; simp only [ln, hsl]
        have hH : ∀ j x, Holds cfg s' j x ↔ Holds cfg s j x := by intro j x; unfold Holds; rw [hsl]
        have hHot : ∀ j x, Hot s' j x ↔ Hot s j x := by
          intro j x
          by_cases e : j = k.src
          · subst e
            refine ⟨?_, fun a => absurd a (nHot x)⟩
            rintro ⟨v, a, b, c, d⟩
            rw [hci] at a; cases a
            rcases c with c | c <;> rw [show w.op = _ from c] at hw' <;> cases hw'
          · unfold Hot; rw [hcj j e]
        have hMade : ∀ j x, Made s j x → Made s' j x := by
          intro j x a
          by_cases e : j = k.src
          · subst e; exact absurd a (nMade x)
          · unfold Made; rw [hcj j e]; exact a
        have hmem : ∀ x, x ≠ k.tag → (t.store k.src w.c).mem x = t.mem x := by
          intro x e
          show upd t.mem w.c.tag _ x = _
          rw [htc]; exact upd_ne _ _ _ e
        have hmemt : (t.store k.src w.c).mem k.tag = merge (t.mem k.tag) w.c.be w.c.data := by
          show upd t.mem w.c.tag _ k.tag = _
          rw [htc]; exact upd_same _ _ _
        have hseen : ∀ j v, v ∈ t.seen j → v ∈ (t.store k.src w.c).seen j := by
          intro j v a
          simp only [Spec.store]
          split
          · split
            · exact List.mem_cons_of_mem _ a
            · exact a
          · exact a
        have hseen' : ∀ j v, (s.cache j).pc = some v →
            (t.store k.src w.c).mem v.c.tag ∈ (t.store k.src w.c).seen j := by
          intro j v a
          have e1 : t.act j = some v.c := by rw [h.act, a]; rfl
          by_cases e : v.c.tag = w.c.tag
          · rw [e, htc, hmemt]
            simp only [Spec.store, e1, htc, if_pos (e.trans htc)]
            exact List.mem_cons_self
          · rw [hmem _ (by rw [← htc]; exact e)]
            exact hseen _ _ (h.pcs j v a).seen
        refine { act := ?_, pcn := ?_, pcs := ?_, ixs := ?_, copy := ?_, uniq := ?_, filt := ?_, avail := ?_, cur := ?_ }
        · intro j
          show t.act j = _
          by_cases e : j = k.src
          · subst e; rw [hci, hact]; rfl
          · rw [hcj j e]; exact h.act j
        · intro j v a
          by_cases e : j = k.src
          · subst e; exact ck.srcn
          · rw [hcj j e] at a; exact h.pcn j v a
        · intro j v a
          by_cases e : j = k.src
          · subst e
            rw [hci] at a ⊢
            cases a
            refine { ix := q.ix, fill := q.fill, ff := q.ff, onceLd := q.onceLd, opf := q.opf, uniqSt := q.uniqSt, stWr := q.stWr, fvic := q.fvic, dense := q.dense, seen := hseen' _ w hp, com := ?_, comp := by simp, ack := q.ack, line := ?_ }
            · show upd t.com k.src true k.src = _
              rw [upd_same, hw']; rfl
            · unfold LineOk
              revert hw'
              cases ho : w.op <;> simp [Kind.isWrU] <;> exact hl.2
          · rw [hcj j e] at a ⊢
            have c : (t.store k.src w.c).com j = t.com j := upd_ne _ _ _ e
            rw [c]
            exact (h.pcs j v a).store (hseen' j v a) (hseen j)
        · intro j y; rw [hsl]; exact h.ixs j y
        · intro j x a nm
          rw [hL]
          have a' := (hH _ _).1 a
          have e : x ≠ k.tag := by intro e; subst e; exact nobody j a'
          rw [hmem x e]
          exact h.copy j x a' (fun m => nm (hMade j x m))
        · intro j j' x a b c
          rw [hL] at b
          exact h.uniq j j' x ((hH _ _).1 a) b ((hH _ _).1 c)
        · intro j x a
          have f := h.filt j x ((hH _ _).1 a)
          refine ⟨f.1, .inl ?_⟩
          rcases f.2 with f | ⟨k', b, _, _, c, _⟩
          · exact f
          · rw [hk] at b; cases b; rw [hph] at c; cases c
        · intro x
          have hpe : ∀ y d, pend s.cur y d = d := by
            intro y d
            rw [hk]
            exact pend_early y _ (k := k) (by rw [hph]; simp) (by rw [hph]; simp) (by rw [hph]; simp)
          by_cases e : x = k.tag
          · subst e
            refine .mem ?_
            rw [hmemt]
            have e1 : eff s' k.tag = merge (s.posted.foldl (over k.tag) (s.mem k.tag)) w.sbe w.snap := by
              show pend (some { k with phase := .wr true w.snap w.sbe }) k.tag _ = _
              unfold pend
              simp
              rfl
            rw [e1, hl.2.1, hl.2.2]
            cases h.avail k.tag with
            | dirty j a => exact absurd a (nobody j)
            | mem a => rw [← a]; unfold eff; rw [hpe]
            | home k' a _ b => rw [hk] at a; cases a; exact absurd b hnd
            | over k' a _ b =>
              rw [hk] at a; cases a
              have : ∀ o, w.c.be o = true := by
                refine q.uniqSt ?_
                rw [← hof, hop]
                exact b.1
              rw [merge_full _ _ this, merge_full _ _ this]
            | hot j a => exact absurd (h.hotHolds a).1 (nobody j)
          · have hne : ∀ k', s.cur = some k' → k'.tag ≠ x := by
              intro k' a; rw [hk] at a; cases a; exact fun b => e b.symm
            cases h.avail x with
            | dirty j a d => exact .dirty j ((hH _ _).2 a) (by rw [hL]; exact d)
            | mem a =>
              refine .mem ?_
              rw [hmem x e, ← a]
              unfold eff
              rw [pend_ne _ _ _ hne]
              refine pend_ne _ _ _ ?_
              intro k' b; cases b; exact fun c => e c.symm
            | home k' a b => exact absurd b (hne k' a)
            | over k' a b => exact absurd b (hne k' a)
            | hot j a => exact .hot j ((hHot _ _).2 a)
        · intro k' a
          cases a
          refine ck.late (p := .wr true w.snap w.sbe) (by rw [hph]; simp) rfl (fun j _ a => (hH _ _).1 a)
            (fun j _ _ a => by rw [hL]; exact a) (fun j _ a => (hHot _ _).1 a) ?_
          simp only [PhaseOk]
          refine ⟨.inr hw, fun _ => trivial, ?_⟩
          intro a; exfalso; revert a hw; cases k.kind <;> simp [Kind.isCb, Kind.isWrU]
    · -- copy-back
      have hcb : k.kind.isCb = true := by rcases ph with a | a; exact a; exact absurd a hw
      have hw' : ¬ w.op.isWrU = true := by rw [hop]; exact hw
      refine ⟨t, by rw [if_neg hw']; rfl, ?_⟩
      let l := ln cfg s k.src k.tag
      let l' : Line := if w.op = .writeClean then { l with dirty := false } else { l with valid := false }
      let p' : Phase := if l.valid then .wr l.dirty w.snap w.sbe else .wr false w.snap noBytes
      let ca : Cache := { slot := upd (s.cache k.src).slot (k.tag % cfg.num) l', pc := some { w with st := .done } }
      have e0 : rxDbidCache cfg.num w (s.cache k.src) = (ca, p') := by
        unfold rxDbidCache; rw [if_neg hw']; simp only [ca, p', l', l, ln, htg]
      rw [e0]
      let s' : St := { setCache s k.src ca with cur := some { k with phase := p' } }
      show Inv cfg s' t
      have hline : l.valid = true → l.tag = k.tag ∧ l.data = w.snap ∧ w.sbe = allBytes := by
        intro hv
        unfold LineOk at l0
        rw [← q.ix, htg] at l0
        have hcb' : w.op.isCb = true := by rw [hop]; exact hcb
        revert hcb' l0
        cases ho : w.op <;> simp [Kind.isCb, ha]
        · intro a; exact a hv
        · intro a; exact a hv
        · intro a; exact a hv
        · intro a; exact a hv
      have hhold : l.valid = true → Holds cfg s k.src k.tag := fun hv => ⟨hv, (hline hv).1⟩
      have hl' : l'.tag = l.tag ∧ l'.data = l.data ∧ l'.be = l.be ∧ l'.shared = l.shared ∧
          (l'.valid = true → l.valid = true ∧ w.op = .writeClean) := by
        show (if w.op = .writeClean then _ else _ : Line).tag = _ ∧ (if w.op = .writeClean then _ else _ : Line).data = _ ∧
          (if w.op = .writeClean then _ else _ : Line).be = _ ∧ (if w.op = .writeClean then _ else _ : Line).shared = _ ∧
          ((if w.op = .writeClean then _ else _ : Line).valid = true → _)
        by_cases e : w.op = .writeClean
        · rw [if_pos e]; exact ⟨rfl, rfl, rfl, rfl, fun a => ⟨a, e⟩⟩
        · rw [if_neg e]; exact ⟨rfl, rfl, rfl, rfl, fun a => by cases a⟩
      have hci : s'.cache k.src = ca := upd_same _ _ _
      have hcj : ∀ j, j ≠ k.src → s'.cache j = s.cache j := fun j e => upd_ne _ _ _ e
      have same : ∀ i x, ¬ (i = k.src ∧ x % cfg.num = k.tag % cfg.num) → ln cfg s' i x = ln cfg s i x :=
        fun i x e => lnSame (s := s) (ca := ca) rfl rfl e
      have new : ∀ x, x % cfg.num = k.tag % cfg.num → ln cfg s' k.src x = l' ∧ ln cfg s k.src x = l := by
        intro x e
        exact ⟨lnNew (s := s) (ca := ca) rfl rfl e, by show (s.cache k.src).slot (x % cfg.num) = _; rw [e]⟩
      have slotm : ∀ i x, (ln cfg s' i x).tag = (ln cfg s i x).tag ∧ (ln cfg s' i x).data = (ln cfg s i x).data ∧
          (ln cfg s' i x).be = (ln cfg s i x).be ∧ (ln cfg s' i x).shared = (ln cfg s i x).shared ∧
          ((ln cfg s' i x).valid = true → (ln cfg s i x).valid = true) := by
        intro i x
        by_cases e : i = k.src ∧ x % cfg.num = k.tag % cfg.num
        · obtain ⟨rfl, e2⟩ := e
          rw [(new x e2).1, (new x e2).2]
          exact ⟨hl'.1, hl'.2.1, hl'.2.2.1, hl'.2.2.2.1, fun a => (hl'.2.2.2.2 a).1⟩
        · rw [same i x e]; exact ⟨rfl, rfl, rfl, rfl, id⟩
      have hH : ∀ i x, Holds cfg s' i x → Holds cfg s i x := by
        intro i x a
        rw [holdsLn] at a ⊢
        have m := slotm i x
        exact ⟨m.2.2.2.2 a.1, by rw [← m.1]; exact a.2⟩
      have hother : ∀ i x, ¬ (i = k.src ∧ x = k.tag) → Holds cfg s i x → ln cfg s' i x = ln cfg s i x := by
        intro i x e a
        refine same i x ?_
        rintro ⟨rfl, e2⟩
        apply e
        refine ⟨rfl, ?_⟩
        have a' := (holdsLn cfg s k.src x).1 a
        rw [(new x e2).2] at a'
        rw [← a'.2]; exact (hline a'.1).1
      have hHot : ∀ j x, Hot s' j x ↔ Hot s j x := by
        intro j x
        by_cases e : j = k.src
        · subst e
          refine ⟨?_, fun a => absurd a (nHot x)⟩
          rintro ⟨v, a, b, c, d⟩
          rw [hci] at a; cases a
          rw [← hop] at hcb
          rcases c with c | c <;> rw [show w.op = _ from c] at hcb <;> cases hcb
        · unfold Hot; rw [hcj j e]
      have hMade : ∀ j x, Made s j x → Made s' j x := by
        intro j x a
        by_cases e : j = k.src
        · subst e; exact absurd a (nMade x)
        · unfold Made; rw [hcj j e]; exact a
      have hpe : ∀ y d, pend s.cur y d = d := by
        intro y d
        rw [hk]
        exact pend_early y _ (k := k) (by rw [hph]; simp) (by rw [hph]; simp) (by rw [hph]; simp)
      refine { act := ?_, pcn := ?_, pcs := ?_, ixs := ?_, copy := ?_, uniq := ?_, filt := ?_, avail := ?_, cur := ?_ }
      · intro j
        by_cases e : j = k.src
        · subst e; rw [hci, h.act, hp]; rfl
        · rw [hcj j e]; exact h.act j
      · intro j v a
        by_cases e : j = k.src
        · subst e; exact ck.srcn
        · rw [hcj j e] at a; exact h.pcn j v a
      · intro j v a
        by_cases e : j = k.src
        · subst e
          rw [hci] at a ⊢
          cases a
          refine { ix := q.ix, fill := q.fill, ff := q.ff, onceLd := q.onceLd, opf := q.opf, uniqSt := q.uniqSt, stWr := q.stWr, fvic := q.fvic, dense := q.dense, seen := q.seen, com := ?_, comp := by simp, ack := q.ack, line := ?_ }
          · rw [q.com]; simp [hw']
          · have e2 : ca.slot (w.c.tag % cfg.num) = l' := by
              rw [← q.ix, htg]; exact upd_same _ _ _
            show LineOk (ca.slot (w.c.tag % cfg.num)) _ _
            rw [e2]
            have hcb' : w.op.isCb = true := by rw [hop]; exact hcb
            have hv : w.op ≠ .writeClean → l'.valid = false := by
              intro e
              cases hv : l'.valid
              · rfl
              · exact absurd (hl'.2.2.2.2 hv).2 e
            unfold LineOk
            revert hcb' hv
            cases ho : w.op <;> simp [Kind.isCb]
        · rw [hcj j e] at a ⊢; exact h.pcs j v a
      · intro j y a
        by_cases e : j = k.src
        · subst e
          rw [hci] at a ⊢
          by_cases e2 : y = k.tag % cfg.num
          · have e3 : ca.slot y = l' := by rw [e2]; exact upd_same _ _ _
            rw [e3] at a ⊢
            rw [hl'.1, (hline (hl'.2.2.2.2 a).1).1, e2]
          · have e3 : ca.slot y = (s.cache k.src).slot y := upd_ne _ _ _ e2
            rw [e3] at a ⊢; exact h.ixs _ y a
        · rw [hcj j e] at a ⊢; exact h.ixs j y a
      · intro j x a nm
        have m := slotm j x
        rw [m.2.1, m.2.2.1]
        exact h.copy j x (hH j x a) (fun b => nm (hMade j x b))
      · intro j j' x a b c
        rw [(slotm j x).2.2.2.1] at b
        exact h.uniq j j' x (hH j x a) b (hH j' x c)
      · intro j x a
        have f := h.filt j x (hH j x a)
        refine ⟨f.1, .inl ?_⟩
        rcases f.2 with f | ⟨k', b, _, _, c, _⟩
        · exact f
        · rw [hk] at b; cases b; rw [hph] at c; cases c
      · intro x
        by_cases hd : x = k.tag ∧ l.valid = true ∧ l.dirty = true
        · obtain ⟨rfl, hv, hdd⟩ := hd
          refine .mem ?_
          have e1 : p' = .wr true w.snap w.sbe := by
            show (if l.valid then _ else _) = _
            rw [if_pos hv, hdd]
          have e2 : eff s' k.tag = merge (s.posted.foldl (over k.tag) (s.mem k.tag)) w.sbe w.snap := by
            show pend (some { k with phase := p' }) k.tag _ = _
            unfold pend
            simp [e1]
            rfl
          obtain ⟨_, c1, c2⟩ := hline hv
          rw [e2, c2, merge_full _ _ (e := allBytes) (fun _ => rfl), ← c1]
          exact (h.copy k.src k.tag (hhold hv) (nMade _)).2
        · have e2 : x = k.tag → ∃ a b, p' = .wr false a b := by
            intro e
            show ∃ a b, (if l.valid then _ else _) = _
            by_cases hv : l.valid = true
            · rw [if_pos hv]
              have : l.dirty = false := by
                cases hdd : l.dirty
                · rfl
                · exact absurd ⟨e, hv, hdd⟩ hd
              rw [this]; exact ⟨_, _, rfl⟩
            · rw [if_neg hv]; exact ⟨_, _, rfl⟩
          cases h.avail x with
          | dirty j a d =>
            by_cases e : j = k.src ∧ x = k.tag
            · obtain ⟨rfl, rfl⟩ := e
              exact absurd ⟨rfl, a.1, d⟩ hd
            · have b := hother j x e a
              exact .dirty j (by rw [holdsLn, b]; exact a) (by rw [b]; exact d)
          | mem a =>
            refine .mem ?_
            rw [← a]
            unfold eff
            rw [hpe]
            show pend (some { k with phase := p' }) x _ = _
            by_cases e : x = k.tag
            · obtain ⟨u, v, e3⟩ := e2 e
              unfold pend
              simp [e3]
              rfl
            · refine pend_ne _ _ _ ?_
              intro k' b; cases b; exact fun c => e c.symm
          | home k' a _ b => rw [hk] at a; cases a; exact absurd b hnd
          | over k' a _ b =>
            rw [hk] at a; cases a
            exfalso
            rcases b.1 with b | b <;> rw [b] at hcb <;> cases hcb
          | hot j a => exact .hot j ((hHot _ _).2 a)
      · intro k' a
        cases a
        have pe : p'.early = false := by
          show (if l.valid then _ else _ : Phase).early = false
          split <;> rfl
        refine ck.late (p := p') (by rw [hph]; simp) pe (fun j _ a => hH _ _ a)
          (fun j _ _ a => by rw [(slotm j k.tag).2.2.2.1]; exact a) (fun j _ a => (hHot _ _).1 a) ?_
        have nh : k.kind ≠ .writeClean → ¬ Holds cfg s' k.src k.tag := by
          intro a b
          rw [holdsLn, (new _ rfl).1] at b
          exact a (by rw [← hop]; exact (hl'.2.2.2.2 b.1).2)
        have : ∃ u d e, p' = .wr u d e := by
          show ∃ u d e, (if l.valid then _ else _) = _
          split <;> exact ⟨_, _, _, rfl⟩
        obtain ⟨u, d, e, e3⟩ := this
        show PhaseOk cfg s' t { k with phase := p' }
        simp only [PhaseOk, e3]
        exact ⟨.inl hcb, fun a => absurd a hw, fun _ => nh⟩

end Verif.ChiCoh
