import Verif.ChiCoh.Home

/-!
# Taking a request, snoop responses, memory reads
-/

namespace Verif.ChiCoh

/-- The outstanding transaction of a cache changes its state, the lines stay. -/
theorem pc_ok {cfg : Cfg} {s : St} {t : Spec} (h : Inv cfg s t) {i : Nat} {w w' : Wait}
    (hp : (s.cache i).pc = some w) (nh : w.st ≠ .done) (hc : w'.c = w.c)
    (nh' : w'.st = .done → w'.op ≠ .makeUnique ∧ w'.op ≠ .cleanUnique)
    (hpc : PcOk cfg (s.cache i).slot t.mem (t.seen i) (t.com i) w')
    (hsrc : ∀ k, s.cur = some k → k.phase.early = true → k.src ≠ i) :
    Inv cfg (setCache s i { s.cache i with pc := some w' }) t := by
  let ca : Cache := { s.cache i with pc := some w' }
  have hci : (setCache s i ca).cache i = ca := upd_same _ _ _
  have hcj : ∀ j, j ≠ i → (setCache s i ca).cache j = s.cache j := fun j hj => upd_ne _ _ _ hj
  have hsl : ∀ j, ((setCache s i ca).cache j).slot = (s.cache j).slot := by
    intro j
    by_cases e : j = i
    · subst e; rw [hci]
    · rw [hcj j e]
  have hL : ∀ j x, ln cfg (setCache s i ca) j x = ln cfg s j x := by
    intro j x; simp only [ln, hsl]
  have hH : ∀ j x, Holds cfg (setCache s i ca) j x ↔ Holds cfg s j x := by
    intro j x; unfold Holds; rw [hsl]
  have hHot : ∀ j x, Hot (setCache s i ca) j x ↔ Hot s j x := by
    intro j x
    by_cases e : j = i
    · subst e
      unfold Hot
      rw [hci, hp]
      constructor
      · rintro ⟨v, a, b, c, d⟩
        cases a
        exact absurd c (by have := nh' b; simp [this.1, this.2])
      · rintro ⟨v, a, b, c⟩; cases a; exact absurd b nh
    · unfold Hot; rw [hcj j e]
  have hMade : ∀ j x, Made s j x → Made (setCache s i ca) j x := by
    intro j x ⟨v, a, b⟩
    by_cases e : j = i
    · subst e; rw [hp] at a; cases a; exact absurd b.1 nh
    · exact ⟨v, by rw [hcj j e]; exact a, b⟩
  refine { act := ?_, pcn := ?_, pcs := ?_, ixs := ?_, copy := ?_, uniq := ?_, filt := ?_, avail := ?_, cur := ?_ }
  · intro j
    by_cases e : j = i
    · subst e; rw [hci, h.act, hp]; simp [ca, hc]
    · rw [hcj j e]; exact h.act j
  · intro j v a
    by_cases e : j = i
    · subst e; exact h.pcn j w hp
    · rw [hcj j e] at a; exact h.pcn j v a
  · intro j v a
    by_cases e : j = i
    · subst e
      rw [hci] at a ⊢
      cases a
      exact hpc
    · rw [hcj j e] at a ⊢; exact h.pcs j v a
  · intro j y; rw [hsl]; exact h.ixs j y
  · intro j x a nm
    rw [hL]
    exact h.copy j x ((hH _ _).1 a) (fun m => nm (hMade j x m))
  · intro j j' x a b c
    rw [hL] at b
    exact h.uniq j j' x ((hH _ _).1 a) b ((hH _ _).1 c)
  · intro j x a; exact h.filt j x ((hH _ _).1 a)
  · intro x
    exact (h.avail x).mono rfl rfl (fun j a b => ⟨(hH _ _).2 a, by rw [hL]; exact b⟩) rfl
      (fun j a => (hHot j x).2 a)
  · intro k hk
    have hk' : s.cur = some k := hk
    have ck := h.cur k hk'
    refine ck.mono (fun j a => (hH _ _).1 a) (fun j a => by rw [hL]) (fun j a => (hHot j _).1 a) ?_
      (fun _ => rfl) ?_ (fun _ v a => a)
    · intro e; rw [hcj _ (hsrc k hk' e)]
    · intro j r a b
      obtain ⟨c0, c1, c2, _⟩ := (ck.sn j r a).data b
      rw [hL]; exact ⟨c0, c1, c2⟩

theorem PcOk.setSt {cfg : Cfg} {slot : Nat → Line} {V : Nat → Data} {vs : List Data} {cm : Bool} {w : Wait}
    {st : TxnSt} (q : PcOk cfg slot V vs cm w) (h1 : w.st ≠ .done) (h2 : st ≠ .done)
    (h3 : st = .comp → w.op = .evict) : PcOk cfg slot V vs cm { w with st := st } := by
  refine { ix := q.ix, fill := q.fill, ff := q.ff, onceLd := q.onceLd, opf := q.opf, uniqSt := q.uniqSt, stWr := q.stWr, fvic := q.fvic, dense := q.dense, seen := q.seen, com := ?_, comp := h3, ack := q.ack, line := ?_ }
  · rw [q.com]; simp [h1, h2]
  · have l := q.line
    unfold LineOk at l ⊢
    cases e : w.op <;> simp only [e] at l ⊢ <;> simp_all

theorem newCur_ok {cfg : Cfg} {s s1 : St} {t : Spec} {i : Nat} {w : Wait} (hd : cfg.dct = false)
    (h : Inv cfg s t) (hcur : s.cur = none) (hp : (s.cache i).pc = some w) (he : w.op ≠ .evict)
    (h1 : ∀ j x, Holds cfg s1 j x ↔ Holds cfg s j x)
    (hpc : (s1.cache i).pc = some { w with st := .active }) : CurOk cfg s1 t (newCur cfg s i w) := by
  have q := h.pcs i w hp
  let k0 : Cur :=
    { src := i, kind := w.op, tag := w.tag, exp := w.ack, fwd := false
      snp := fun j => if (snpOp false w.op).isSome && (targets cfg s i w.tag).contains j then .sent else .off
      shared := false, pd := false, got := false, ptl := false
      data := fun _ => 0, be := noBytes, phase := .snoop }
  have e0 : newCur cfg s i w =
      if ((snpOp false w.op).isSome && !(targets cfg s i w.tag).isEmpty) = true then k0 else procReq k0 := by
    unfold newCur; simp only [hd, Bool.false_and]; rfl
  have mem : ∀ j, (targets cfg s i w.tag).contains j = true ↔ (j < cfg.n ∧ j ≠ i ∧ s.filt j w.tag = true) := by
    intro j; simp [targets]
  have nd : ∀ j, k0.snp j = .sent ∨ k0.snp j = .off := by
    intro j
    by_cases a : ((snpOp false w.op).isSome && (targets cfg s i w.tag).contains j) = true
    · exact .inl (if_pos a)
    · exact .inr (if_neg a)
  have off : ∀ j, ¬ (j < cfg.n ∧ j ≠ i) → k0.snp j = .off := by
    intro j a
    refine if_neg ?_
    intro b
    rw [Bool.and_eq_true, mem] at b
    exact a ⟨b.2.1, b.2.2.1⟩
  have ck : CurOk cfg s1 t k0 := by
    refine { srcn := h.pcn i w hp, fwd := rfl, srcOff := off i (by simp), out := fun j a => off j (by omega), early := fun _ => ⟨_, hpc, rfl, rfl, rfl⟩, noEv := he, exp := q.ack, cover := ?_, sn := ?_, dn := ?_, quiet := ?_, quiet' := ?_, noSnp := ?_, pdgot := by simp [k0], pdOnce := fun _ => rfl, ptl := rfl, gotd := by simp [k0], nogot := ?_, nosh := ?_, ph := trivial }
    · intro a j b c
      have f := h.filt j _ ((h1 _ _).1 c)
      have f2 : s.filt j w.tag = true := by
        rcases f.2 with f | ⟨k, e, _⟩
        · exact f
        · rw [hcur] at e; cases e
      have : k0.snp j = .sent := if_pos (by rw [Bool.and_eq_true, mem]; exact ⟨a, f.1, b, f2⟩)
      rw [this]; simp
    · intro j r a; rcases nd j with b | b <;> rw [b] at a <;> cases a
    · intro j a; rcases nd j with b | b <;> rw [b] at a <;> cases a
    · intro _ a; exact absurd rfl a
    · intro a; cases a
    · intro a j
      have a' : (snpOp false w.op).isSome = false := a
      exact if_neg (by rw [a']; simp)
    · intro _ j a; rcases nd j with b | b <;> rw [b] at a <;> cases a
    · intro _ j a; rcases nd j with b | b <;> rw [b] at a <;> cases a
  rw [e0]
  by_cases a : ((snpOp false w.op).isSome && !(targets cfg s i w.tag).isEmpty) = true
  · rw [if_pos a]; exact ck
  · rw [if_neg a]
    refine procReq_ok ck rfl rfl (fun j => .inl ?_)
    refine if_neg ?_
    intro b
    apply a
    rw [Bool.and_eq_true] at b ⊢
    refine ⟨b.1, ?_⟩
    cases e : targets cfg s i w.tag with
    | nil => rw [e] at b; simp at b
    | cons => rfl

theorem newCur_phase (cfg : Cfg) (s : St) (i : Nat) (w : Wait) :
    (∀ p d e, (newCur cfg s i w).phase ≠ .wr p d e) ∧ (∀ d e, (newCur cfg s i w).phase ≠ .wrMem d e) ∧
    (newCur cfg s i w).phase ≠ .wrDirty := by
  unfold newCur
  simp only
  split
  · simp
  · have := procReq_fix { src := i, kind := w.op, tag := w.tag, exp := w.ack, fwd := cfg.dct && (targets cfg s i w.tag).length == 1, snp := fun j => if (snpOp (cfg.dct && (targets cfg s i w.tag).length == 1) w.op).isSome && (targets cfg s i w.tag).contains j then .sent else .off, shared := false, pd := false, got := false, ptl := false, data := fun _ => 0, be := noBytes, phase := .snoop }
    exact ⟨this.2.2.2.2.1, this.2.2.2.2.2, this.2.2.1⟩

theorem pick_ok {cfg : Cfg} {s s' : St} {t : Spec} {es : List Ev} {i : Nat} (hd : cfg.dct = false)
    (h : Inv cfg s t) (hs : stepPick cfg s i = .next s' es) : es = [] ∧ Inv cfg s' t := by
  unfold stepPick at hs
  cases hcur : s.cur with
  | some k => simp [hcur] at hs
  | none =>
    cases hp : (s.cache i).pc with
    | none => simp [hcur, hp] at hs
    | some w =>
      simp only [hcur, hp] at hs
      have q := h.pcs i w hp
      by_cases hi : w.st = .issued
      · rw [if_pos hi] at hs
        have nd : w.st ≠ .done := by rw [hi]; simp
        have hset : ∀ st, setSt (s.cache i) st = { s.cache i with pc := some { w with st := st } } := by
          intro st; unfold setSt; rw [hp]; rfl
        by_cases he : w.op = .evict
        · rw [if_pos he] at hs
          simp only [Out.next.injEq] at hs
          obtain ⟨rfl, rfl⟩ := hs
          have h1 : Inv cfg (setCache s i (setSt (s.cache i) .comp)) t := by
            rw [hset]
            refine pc_ok h hp nd rfl (by simp) (q.setSt nd (by simp) (fun _ => he)) ?_
            intro k a; rw [hcur] at a; cases a
          refine ⟨rfl, home_ok h1 rfl ?_ ?_ ?_⟩
          · intro j x a _
            left
            have f : s.filt j x = true := by
              rcases (h1.filt j x a).2 with f | ⟨k, e, _⟩
              · exact f
              · have e' : s.cur = some k := e
                rw [hcur] at e'; cases e'
            show (updFilt s.filt i w.tag false) j x = true
            unfold updFilt upd
            by_cases e1 : j = i
            · rw [if_pos e1]
              by_cases e2 : x = w.tag
              · exfalso
                subst e1; subst e2
                have l := q.line
                unfold LineOk at l
                simp only [he] at l
                have a1 := a.1
                have : (setCache s j (setSt (s.cache j) .comp)).cache j = setSt (s.cache j) .comp := upd_same _ _ _
                rw [this, hset] at a1
                rw [← q.ix] at l
                rw [l] at a1; cases a1
              · rw [if_neg e2, ← e1]; exact f
            · rw [if_neg e1]; exact f
          · intro x
            exact avail_same (h1.avail x) rfl rfl
              (fun k a _ _ => by have a' : s.cur = some k := a; rw [hcur] at a'; cases a')
              (fun k a _ _ => by have a' : s.cur = some k := a; rw [hcur] at a'; cases a')
          · intro k a
            have a' : s.cur = some k := a
            rw [hcur] at a'; cases a'
        · rw [if_neg he] at hs
          simp only [Out.next.injEq] at hs
          obtain ⟨rfl, rfl⟩ := hs
          have h1 : Inv cfg (setCache s i (setSt (s.cache i) .active)) t := by
            rw [hset]
            refine pc_ok h hp nd rfl (by simp) (q.setSt nd (by simp) (by simp)) ?_
            intro k a; rw [hcur] at a; cases a
          have ph := newCur_phase cfg s i w
          have nc : ∀ k, (setCache s i (setSt (s.cache i) .active)).cur ≠ some k := by
            intro k a
            have a' : s.cur = some k := a
            rw [hcur] at a'; cases a'
          refine ⟨rfl, home_ok h1 rfl ?_ ?_ ?_⟩
          · intro j x a _
            left
            rcases (h1.filt j x a).2 with f | ⟨k, e, _⟩
            · exact f
            · exact absurd e (nc k)
          · intro x
            refine avail_same (h1.avail x) rfl ?_ (fun k a => absurd a (nc k)) (fun k a => absurd a (nc k))
            unfold eff
            simp only
            rw [pend_early x _ ph.1 ph.2.1 ph.2.2]
            rw [pend_ne]
            · intro k a; exact absurd a (nc k)
          · intro k a
            cases a
            refine (newCur_ok (s1 := setCache s i (setSt (s.cache i) .active)) hd h hcur hp he ?_ ?_).same rfl
            · intro j x
              unfold Holds
              by_cases e : j = i
              · subst e
                have : (setCache s j (setSt (s.cache j) .active)).cache j = setSt (s.cache j) .active := upd_same _ _ _
                rw [this, hset]
              · have : (setCache s i (setSt (s.cache i) .active)).cache j = s.cache j := upd_ne _ _ _ e
                rw [this]
            · have : (setCache s i (setSt (s.cache i) .active)).cache i = setSt (s.cache i) .active := upd_same _ _ _
              rw [this, hset]
      · rw [if_neg hi] at hs; cases hs

theorem rxEvict_ok {cfg : Cfg} {s s' : St} {t : Spec} {es : List Ev} {i : Nat}
    (h : Inv cfg s t) (hs : stepRxEvict cfg s i = .next s' es) : es = [] ∧ Inv cfg s' t := by
  unfold stepRxEvict at hs
  cases hp : (s.cache i).pc with
  | none => simp [hp] at hs
  | some w =>
    simp only [hp] at hs
    have q := h.pcs i w hp
    by_cases hc : w.st = .comp
    · rw [if_pos hc] at hs
      simp only [Out.next.injEq] at hs
      obtain ⟨rfl, rfl⟩ := hs
      have he := q.comp hc
      have l := q.line
      unfold LineOk at l
      simp only [he] at l
      have e1 : upd (s.cache i).slot (w.tag % cfg.num) { (s.cache i).slot (w.tag % cfg.num) with valid := false } =
          (s.cache i).slot := by
        funext y
        by_cases e : y = w.tag % cfg.num
        · subst e
          rw [upd_same]
          rw [← q.ix] at l
          generalize (s.cache i).slot (w.tag % cfg.num) = z at l ⊢
          cases z
          simp only at l
          simp [l]
        · rw [upd_ne _ _ _ e]
      rw [e1]
      refine ⟨rfl, pc_ok h hp (by rw [hc]; simp) rfl (by simp [he]) ?_ ?_⟩
      · refine { ix := q.ix, fill := q.fill, ff := q.ff, onceLd := q.onceLd, opf := q.opf, uniqSt := q.uniqSt, stWr := q.stWr, fvic := q.fvic, dense := q.dense, seen := q.seen, com := ?_, comp := by simp, ack := q.ack, line := ?_ }
        · rw [q.com]; simp [he, Kind.isWrU]
        · unfold LineOk; simp only [he]; exact l
      · intro k hk e
        exact h.notSrc hp (by rw [hc]; simp) hk e
    · rw [if_neg hc] at hs; cases hs

/-! ## Snoop responses -/

/-- The bookkeeping part of `takeResp`. -/
def recvd (k : Cur) (j : Nat) (r : Resp) (l : Line) : Cur :=
  { k with
    snp := upd k.snp j .done
    shared := k.shared || r.valid
    pd := k.pd || r.pd
    got := k.got || r.data
    ptl := k.ptl || r.ptl
    data := if r.data then (fun o => if l.be o then l.data o else 0) else k.data
    be := if r.data then l.be else k.be }

theorem takeResp_eq (cfg : Cfg) (k : Cur) (j : Nat) (r : Resp) (l : Line) (junk : Be) (h : r.fwd = none) :
    takeResp cfg k j r l junk =
      if (recvd k j r l).allDone cfg.n = true then procSnpd (recvd k j r l) else recvd k j r l := by
  unfold takeResp
  simp only [h]
  rfl

theorem opCases {k : Kind} {op : SnpOp} (h : snpOp false k = some op) :
    (k = .once ∧ op = .once) ∨ op = .share ∨ invalidating op = true := by
  revert h
  cases k <;> simp [snpOp] <;> rintro rfl <;> simp [invalidating]

theorem recvd_ok {cfg : Cfg} {s : St} {t : Spec} {k : Cur} (h : Inv cfg s t) (hk : s.cur = some k)
    {j : Nat} {r : Resp} (hr : k.snp j = .handled r) (hp : k.phase = .snoop) :
    CurOk cfg s t (recvd k j r (ln cfg s j k.tag)) := by
  have ck := h.cur k hk
  have q := ck.sn j r hr
  have hj : j ≠ k.src := by intro e; rw [e, ck.srcOff] at hr; cases hr
  have dcase : ∀ j', upd k.snp j .done j' = .done → j' = j ∨ (j' ≠ j ∧ k.snp j' = .done) := by
    intro j' a
    by_cases e : j' = j
    · exact .inl e
    · rw [upd_ne _ _ _ e] at a; exact .inr ⟨e, a⟩
  have isS : ∃ op, snpOp false k.kind = some op := by
    cases e : snpOp false k.kind with
    | none => have := ck.noSnp (by rw [e]; rfl) j; rw [this] at hr; cases hr
    | some op => exact ⟨op, rfl⟩
  obtain ⟨op, hop⟩ := isS
  refine { srcn := ck.srcn, fwd := ck.fwd, srcOff := ?_, out := ?_, early := ck.early, noEv := ck.noEv, exp := ck.exp, cover := ?_, sn := ?_, dn := ?_, quiet := ?_, quiet' := ?_, noSnp := ?_, pdgot := ?_, pdOnce := ?_, ptl := ?_, gotd := ?_, nogot := ?_, nosh := ?_, ph := ?_ }
  · show upd k.snp j .done k.src = .off
    rw [upd_ne _ _ _ (Ne.symm hj)]; exact ck.srcOff
  · intro j' a
    show upd k.snp j .done j' = .off
    have : j' ≠ j := by
      intro e; subst e
      have := ck.out j' a; rw [this] at hr; cases hr
    rw [upd_ne _ _ _ this]; exact ck.out j' a
  · intro a j' b c
    show upd k.snp j .done j' ≠ .off
    by_cases e : j' = j
    · subst e; rw [upd_same]; simp
    · rw [upd_ne _ _ _ e]; exact ck.cover a j' b c
  · intro j' r' a
    have a' : upd k.snp j .done j' = .handled r' := a
    by_cases e : j' = j
    · subst e; rw [upd_same] at a'; cases a'
    · rw [upd_ne _ _ _ e] at a'
      have q' := ck.sn j' r' a'
      exact ⟨⟨q'.dn.hot, q'.dn.inv, q'.dn.share⟩, q'.fwd, q'.ptl, q'.valid, q'.nodata, q'.pd, q'.pdOnce, q'.data⟩
  · intro j' a
    rcases dcase j' a with e | ⟨_, e⟩
    · subst e; exact ⟨q.dn.hot, q.dn.inv, q.dn.share⟩
    · have d := ck.dn j' e; exact ⟨d.hot, d.inv, d.share⟩
  · intro _ a; exact absurd hp a
  · intro a
    have a' : k.phase.early = false := a
    rw [hp] at a'; cases a'
  · intro a
    have a' : (snpOp false k.kind).isSome = false := a
    rw [hop] at a'; cases a'
  · intro a
    have a' : (k.pd || r.pd) = true := a
    show (k.got || r.data) = true
    rw [Bool.or_eq_true] at a' ⊢
    rcases a' with a | a
    · exact .inl (ck.pdgot a)
    · exact .inr (q.pd a)
  · intro a
    show (k.pd || r.pd) = false
    rw [ck.pdOnce a, q.pdOnce a]; rfl
  · show (k.ptl || r.ptl) = false
    rw [ck.ptl, q.ptl]; rfl
  · intro _ a
    have a' : (k.got || r.data) = true := a
    show (if r.data then (ln cfg s j k.tag).be else k.be) = allBytes ∧ _
    by_cases hdat : r.data = true
    · obtain ⟨d1, d2, d3, d4⟩ := q.data hdat
      have e1 : (recvd k j r (ln cfg s j k.tag)).data = t.mem k.tag := by
        show (if r.data then (fun o => if (ln cfg s j k.tag).be o then (ln cfg s j k.tag).data o else 0) else k.data) = _
        rw [if_pos hdat, d2]
        simp only [allBytes, if_true]
        exact d3
      rw [if_pos hdat, e1]
      refine ⟨d2, fun c => ⟨rfl, ?_⟩, ?_⟩
      · intro j' hh
        show (ln cfg s j' k.tag).shared = true
        cases hsh : (ln cfg s j' k.tag).shared
        · exfalso
          have e := d4 j' hh hsh
          subst e
          rcases opCases hop with ⟨e, _⟩ | e | e
          · exact c e
          · have := q.dn.share (by rw [hop, e]) hh
            rw [hsh] at this; cases this
          · exact q.dn.inv op hop e hh
        · rfl
      · intro c
        obtain ⟨w, w1, w2, w3, w4⟩ := ck.early (by rw [hp]; rfl)
        have p := h.pcs k.src w w1
        have c' : k.kind.isOnce = true := c
        have := p.fill (by rw [w3]; revert c'; cases k.kind <;> simp [Kind.isOnce, Kind.isFill, Kind.isCb])
        have s1 := p.seen
        rw [← this, w4] at s1
        exact s1
    · rw [if_neg hdat]
      have e1 : (recvd k j r (ln cfg s j k.tag)).data = k.data := if_neg hdat
      rw [e1]
      have hg : k.got = true := by
        rw [Bool.or_eq_true] at a'
        rcases a' with a | a
        · exact a
        · exact absurd a hdat
      exact ck.gotd (.inl hp) hg
  · intro a j' b
    have a' : (k.got || r.data) = false := a
    rw [Bool.or_eq_false_iff] at a'
    rcases dcase j' b with e | ⟨_, e⟩
    · subst e; exact q.nodata a'.2
    · exact ck.nogot a'.1 j' e
  · intro a j' b
    have a' : (k.shared || r.valid) = false := a
    rw [Bool.or_eq_false_iff] at a'
    rcases dcase j' b with e | ⟨_, e⟩
    · subst e; exact q.valid a'.2
    · exact ck.nosh a'.1 j' e
  · show PhaseOk cfg s t { k with snp := _, shared := _, pd := _, got := _, ptl := _, data := _, be := _ }
    simp only [PhaseOk, hp]

theorem allDone_quiet {cfg : Cfg} {s : St} {t : Spec} {k : Cur} (h : CurOk cfg s t k)
    (ha : k.allDone cfg.n = true) : ∀ j, k.snp j = .off ∨ k.snp j = .done := by
  intro j
  by_cases hj : j < cfg.n
  · unfold Cur.allDone at ha
    rw [List.all_eq_true] at ha
    have := ha j (List.mem_range.2 hj)
    simpa using this
  · exact .inl (h.out j (by omega))

/-- Dirty snoop data is written to memory or handed to the requester. -/
theorem procSnpd_dirty {k : Cur} (hg : k.got = true) (hpd : k.pd = true) (ht : k.ptl = false) :
    (procSnpd k).phase = .wrDirty ∨ homeDirty (procSnpd k) := by
  unfold procSnpd
  rw [hg, hpd, ht]
  by_cases hk : k.kind = .readShared ∨ k.kind = .readUnique
  · right
    have : (decide (k.kind = .readShared) || decide (k.kind = .readUnique)) = true := by simpa using hk
    rw [this]
    have hr : k.kind.isRd = true := by rcases hk with e | e <;> rw [e] <;> rfl
    have ho : k.kind.isOnce = false := by rcases hk with e | e <;> rw [e] <;> rfl
    simp only [hr, Bool.and_self, Bool.not_false, Bool.not_true, Bool.and_false, Bool.true_or]
    refine .inr (.inr ⟨_, _, _, rfl, ?_, hr⟩)
    simp [Cur.grant, ho, hpd]
  · left
    have : (decide (k.kind = .readShared) || decide (k.kind = .readUnique)) = false := by simpa using hk
    rw [this]
    rfl

theorem resp_ok {cfg : Cfg} {s s' : St} {t : Spec} {es : List Ev} {j : Nat} {junk : Be}
    (h : Inv cfg s t) (hs : stepResp cfg s j junk = .next s' es) : es = [] ∧ Inv cfg s' t := by
  unfold stepResp at hs
  cases hk : s.cur with
  | none => simp [hk] at hs
  | some k =>
    simp only [hk] at hs
    have ck := h.cur k hk
    cases hr : k.snp j <;> simp only [hr] at hs <;> try cases hs
    rename_i r
    have q := ck.sn j r hr
    have hp : k.phase = .snoop := by
      cases e : k.phase.early
      · rcases ck.quiet' e j with b | b <;> rw [hr] at b <;> cases b
      · apply Classical.byContradiction
        intro hne
        rcases ck.quiet e hne j with b | b <;> rw [hr] at b <;> cases b
    have ck1 := recvd_ok h hk hr hp
    have hp1 : (recvd k j r (ln cfg s j k.tag)).phase = .snoop := hp
    have te := takeResp_eq cfg k j r (ln cfg s j k.tag) junk q.fwd
    refine ⟨rfl, home_ok h rfl ?_ ?_ ?_⟩
    · intro i x a _
      left
      have f : s.filt i x = true := by
        rcases (h.filt i x a).2 with f | ⟨k', b, _, _, c, _⟩
        · exact f
        · rw [hk] at b; cases b; rw [hp] at c; cases c
      show (if r.valid then s.filt else updFilt s.filt j k.tag false) i x = true
      by_cases hv : r.valid = true
      · rw [if_pos hv]; exact f
      · rw [if_neg hv]
        unfold updFilt upd
        by_cases e1 : i = j
        · rw [if_pos e1]
          by_cases e2 : x = k.tag
          · subst e1; subst e2
            exact absurd a (q.valid (by simpa using hv))
          · rw [if_neg e2, ← e1]; exact f
        · rw [if_neg e1]; exact f
    · intro x
      have effs : eff s x = s.posted.foldl (over x) (s.mem x) := by
        unfold eff; rw [hk]
        exact pend_early x _ (by rw [hp]; simp) (by rw [hp]; simp) (by rw [hp]; simp)
      by_cases ha : (recvd k j r (ln cfg s j k.tag)).allDone cfg.n = true
      · rw [if_pos ha] at te
        have fx := procSnpd_fix (recvd k j r (ln cfg s j k.tag))
        have wd : (procSnpd (recvd k j r (ln cfg s j k.tag))).phase = .wrDirty → k.tag = x →
            Avail cfg { s with
              filt := if r.valid then s.filt else updFilt s.filt j k.tag false
              cur := some (takeResp cfg k j r (ln cfg s j k.tag) junk) } t x := by
          intro a b
          have f2 := fx.2.2.2.2 a
          obtain ⟨g1, g2, _⟩ := ck1.gotd (.inl hp1) f2.2.2.1
          have ne : (recvd k j r (ln cfg s j k.tag)).kind ≠ .once := by
            intro e; have := ck1.pdOnce e; rw [f2.2.2.2] at this; cases this
          refine .mem ?_
          unfold eff
          simp only
          rw [te]
          unfold pend
          simp only
          rw [if_pos (by rw [fx.1]; exact b)]
          simp only [a]
          rw [f2.1, f2.2.1, g1, (g2 ne).1, merge_full _ _ (e := allBytes) (fun _ => rfl)]
          show t.mem k.tag = t.mem x
          rw [b]
        by_cases hw : (procSnpd (recvd k j r (ln cfg s j k.tag))).phase = .wrDirty ∧ k.tag = x
        · exact wd hw.1 hw.2
        · refine avail_same (h.avail x) rfl ?_ ?_ ?_
          · rw [effs]
            unfold eff
            simp only
            rw [te]
            by_cases b : k.tag = x
            · exact pend_early x _ fx.2.2.1 fx.2.2.2.1 (fun a => hw ⟨a, b⟩)
            · rw [pend_ne]
              intro k' c
              cases c
              rw [fx.1]; exact b
          · intro k' a b c; rw [hk] at a; cases a
            have pd1 : (k.pd || r.pd) = true := by
              rw [Bool.or_eq_true]
              rcases c with ⟨j', r', c1, c2⟩ | ⟨_, c2⟩ | ⟨g, d, e, c1, _⟩
              · by_cases e : j' = j
                · subst e; rw [hr] at c1; cases c1; exact .inr c2
                · rcases allDone_quiet ck1 ha j' with c3 | c3
                  · have c4 : upd k.snp j .done j' = .off := c3
                    rw [upd_ne _ _ _ e, c1] at c4; cases c4
                  · have c4 : upd k.snp j .done j' = .done := c3
                    rw [upd_ne _ _ _ e, c1] at c4; cases c4
              · exact .inl c2
              · rw [hp] at c1; cases c1
            rcases procSnpd_dirty (k := recvd k j r (ln cfg s j k.tag)) (ck1.pdgot pd1) pd1 ck1.ptl with d | d
            · exact absurd ⟨d, b⟩ hw
            · exact .home _ rfl (by rw [te, fx.1]; exact b) (by rw [te]; exact d)
          · intro k' a b c; rw [hk] at a; cases a
            refine .over _ rfl (by rw [te, fx.1]; exact b) ?_
            rw [te]
            refine ⟨?_, procSnpd_early _⟩
            rw [fx.2.1]; exact c.1
      · rw [if_neg ha] at te
        refine avail_same (h.avail x) rfl ?_ ?_ ?_
        · rw [effs]
          unfold eff
          simp only
          rw [te]
          exact pend_early x _ (by rw [hp1]; simp) (by rw [hp1]; simp) (by rw [hp1]; simp)
        · intro k' a b c; rw [hk] at a; cases a
          refine .home _ rfl (by rw [te]; exact b) ?_
          rw [te]
          rcases c with ⟨j', r', c1, c2⟩ | ⟨c1, c2⟩ | ⟨g, d, e, c1, _⟩
          · by_cases e : j' = j
            · subst e; rw [hr] at c1; cases c1
              exact .inr (.inl ⟨hp, by show (k.pd || r.pd) = true; rw [c2, Bool.or_true]⟩)
            · exact .inl ⟨j', r', by show upd k.snp j .done j' = _; rw [upd_ne _ _ _ e]; exact c1, c2⟩
          · exact .inr (.inl ⟨hp, by show (k.pd || r.pd) = true; rw [c2, Bool.true_or]⟩)
          · rw [hp] at c1; cases c1
        · intro k' a b c; rw [hk] at a; cases a
          refine .over _ rfl (by rw [te]; exact b) ?_
          rw [te]; exact c
    · intro k' hk'
      have e : k' = takeResp cfg k j r (ln cfg s j k.tag) junk := (Option.some.inj hk').symm
      rw [e, te]
      by_cases ha : (recvd k j r (ln cfg s j k.tag)).allDone cfg.n = true
      · rw [if_pos ha]
        exact (procSnpd_ok ck1 hp1 (allDone_quiet ck1 ha)).same rfl
      · rw [if_neg ha]
        exact ck1.same rfl

end Verif.ChiCoh
