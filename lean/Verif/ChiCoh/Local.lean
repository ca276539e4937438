import Verif.ChiCoh.Inv

/-!
# Steps of the CPU side of a cache keep the invariant
-/

namespace Verif.ChiCoh

theorem CurOk.mono' {cfg : Cfg} {s s' : St} {t t' : Spec} {k : Cur} (h : CurOk cfg s t k)
    (hH : ∀ j, Holds cfg s' j k.tag → Holds cfg s j k.tag)
    (hS : ∀ j, Holds cfg s' j k.tag → (ln cfg s j k.tag).shared = true →
      (ln cfg s' j k.tag).shared = true)
    (hot : ∀ j, Hot s' j k.tag → Hot s j k.tag)
    (early : k.phase.early = true → (s'.cache k.src).pc = (s.cache k.src).pc)
    (hV : (k.kind ≠ .once ∧ k.got = true ∧ (k.phase = .snoop ∨ k.phase = .wrDirty)) ∨
      (∃ g d e, k.phase = .dat g d e ∧ k.kind.isRd = true) → t'.mem k.tag = t.mem k.tag)
    (hD : ∀ j r, k.snp j = .handled r → r.data = true →
      (ln cfg s' j k.tag).tag = k.tag ∧ (ln cfg s' j k.tag).be = allBytes ∧
      (ln cfg s' j k.tag).data = t'.mem k.tag)
    (seen : k.phase.early = true → ∀ v, v ∈ t.seen k.src → v ∈ t'.seen k.src) : CurOk cfg s' t' k := by
  have hdn : ∀ j, DnOk cfg s k j → DnOk cfg s' k j := fun j d =>
    ⟨fun x => d.hot (hot j x), fun op a b c => d.inv op a b (hH j c),
     fun a b => hS j b (d.share a (hH j b))⟩
  refine { srcn := h.srcn, fwd := h.fwd, srcOff := h.srcOff, out := h.out, early := ?_, noEv := h.noEv, exp := h.exp, cover := ?_, sn := ?_, dn := fun j a => hdn j (h.dn j a), quiet := h.quiet, quiet' := h.quiet', noSnp := h.noSnp, pdgot := h.pdgot, pdOnce := h.pdOnce, ptl := h.ptl, gotd := ?_, nogot := ?_, nosh := ?_, ph := ?_ }
  · intro e; rw [early e]; exact h.early e
  · intro a j b c; exact h.cover a j b (hH j c)
  · intro j r a
    have q := h.sn j r a
    refine ⟨hdn j q.dn, q.fwd, q.ptl, fun b c => q.valid b (hH j c), fun b c => q.nodata b (hH j c), q.pd,
      q.pdOnce, ?_⟩
    intro b
    obtain ⟨x, y, z⟩ := hD j r a b
    refine ⟨x, y, z, ?_⟩
    intro i hi hs
    refine (q.data b).2.2.2 i (hH i hi) ?_
    cases e : (ln cfg s i k.tag).shared
    · rfl
    · rw [hS i hi e] at hs; exact absurd hs (by decide)
  · intro a b
    obtain ⟨x, y, z⟩ := h.gotd a b
    refine ⟨x, ?_, ?_⟩
    · intro c
      obtain ⟨y1, y2⟩ := y c
      refine ⟨?_, fun j d => hS j d (y2 j (hH j d))⟩
      rw [hV (.inl ⟨c, b, a⟩)]; exact y1
    · intro c
      refine seen ?_ _ (z c)
      rcases a with a | a <;> rw [a] <;> rfl
  · intro a j b c; exact h.nogot a j b (hH j c)
  · intro a j b c; exact h.nosh a j b (hH j c)
  · have q := h.ph
    unfold PhaseOk at q ⊢
    cases e : k.phase <;> simp only [e] at q ⊢
    case wrDirty => exact q
    case rdMem => exact ⟨q.1, q.2.1, q.2.2.1, fun j a b => q.2.2.2 j a (hH j b)⟩
    case dat g d e' =>
      refine ⟨q.1, ?_⟩
      rcases q.2 with q2 | q2
      · exact .inl ⟨q2.1, seen (by rw [e]; rfl) _ q2.2⟩
      · refine .inr ⟨q2.1, ?_, q2.2.2.1, fun a j b c => q2.2.2.2.1 a j b (hH j c),
          fun a j b c => hS j c (q2.2.2.2.2 a j b (hH j c))⟩
        rw [hV (.inr ⟨g, d, e', e, q2.1⟩)]; exact q2.2.1
    case comp => exact q
    case dbid => exact q
    case wr => exact ⟨q.1, q.2.1, fun a b c => q.2.2 a b (hH _ c)⟩
    case wrMem => exact q
    case ack =>
      rcases q with q | q | q
      · exact .inl q
      · exact .inr (.inl q)
      · exact .inr (.inr ⟨q.1, fun a => q.2 (hH _ a)⟩)

theorem CurOk.mono {cfg : Cfg} {s s' : St} {t t' : Spec} {k : Cur} (h : CurOk cfg s t k)
    (hH : ∀ j, Holds cfg s' j k.tag → Holds cfg s j k.tag)
    (hS : ∀ j, Holds cfg s' j k.tag → (ln cfg s' j k.tag).shared = (ln cfg s j k.tag).shared)
    (hot : ∀ j, Hot s' j k.tag → Hot s j k.tag)
    (early : k.phase.early = true → (s'.cache k.src).pc = (s.cache k.src).pc)
    (hV : (k.kind ≠ .once ∧ k.got = true ∧ (k.phase = .snoop ∨ k.phase = .wrDirty)) ∨
      (∃ g d e, k.phase = .dat g d e ∧ k.kind.isRd = true) → t'.mem k.tag = t.mem k.tag)
    (hD : ∀ j r, k.snp j = .handled r → r.data = true →
      (ln cfg s' j k.tag).tag = k.tag ∧ (ln cfg s' j k.tag).be = allBytes ∧
      (ln cfg s' j k.tag).data = t'.mem k.tag)
    (seen : k.phase.early = true → ∀ v, v ∈ t.seen k.src → v ∈ t'.seen k.src) : CurOk cfg s' t' k :=
  h.mono' hH (fun j a b => by rw [hS j a]; exact b) hot early hV hD seen

theorem Avail.mono {cfg : Cfg} {s s' : St} {t t' : Spec} {x : Nat} (h : Avail cfg s t x)
    (hc : s'.cur = s.cur) (he : eff s' x = eff s x)
    (hd : ∀ i, Holds cfg s i x → (ln cfg s i x).dirty = true →
      Holds cfg s' i x ∧ (ln cfg s' i x).dirty = true)
    (hV : t'.mem x = t.mem x) (hot : ∀ i, Hot s i x → Hot s' i x) : Avail cfg s' t' x := by
  cases h with
  | dirty i h d => exact .dirty i (hd i h d).1 (hd i h d).2
  | mem h => exact .mem (by rw [he, hV]; exact h)
  | home k hk ht h => exact .home k (by rw [hc]; exact hk) ht h
  | over k hk ht h => exact .over k (by rw [hc]; exact hk) ht h
  | hot i h => exact .hot i (hot i h)

theorem Made.hot {s : St} {i x : Nat} (h : Made s i x) : Hot s i x := by
  obtain ⟨w, a, b, c, d⟩ := h
  exact ⟨w, a, b, .inl c, d⟩

/-- A just granted line is held, and by nobody else. -/
theorem Inv.hotHolds {cfg : Cfg} {s : St} {t : Spec} (h : Inv cfg s t) {i x : Nat} (hh : Hot s i x) :
    Holds cfg s i x ∧ (ln cfg s i x).shared = false := by
  obtain ⟨w, a, b, c, d⟩ := hh
  have q := h.pcs i w a
  have l := q.line
  unfold LineOk at l
  rw [← q.ix, d] at l
  rcases c with c | c <;> simp only [c] at l
  · obtain ⟨x1, x2, x3⟩ := l.2 b
    exact ⟨⟨x1, x2⟩, x3⟩
  · exact ⟨⟨l.1, l.2.1⟩, l.2.2 b⟩

/-- A CPU whose transaction has completed is not the one the home node answers. -/
theorem Inv.notSrc {cfg : Cfg} {s : St} {t : Spec} (h : Inv cfg s t) {i : Nat} {w : Wait}
    (hp : (s.cache i).pc = some w) (hw : w.st ≠ .active) {k : Cur} (hk : s.cur = some k)
    (e : k.phase.early = true) : k.src ≠ i := by
  intro a
  obtain ⟨w', x, y, _⟩ := (h.cur k hk).early e
  rw [a, hp] at x
  cases x
  exact hw y

/-- A CPU step that leaves all held lines alone, except that a clean one may be given up. -/
theorem local_ok {cfg : Cfg} {s : St} {t t' : Spec} (h : Inv cfg s t) {i : Nat} {w : Wait} {ca : Cache}
    (hp : (s.cache i).pc = some w) (hw : w.st = .done) (nh : w.op ≠ .makeUnique ∧ w.op ≠ .cleanUnique)
    (hlost : ∀ y, (ca.slot y).valid = true → ca.slot y = (s.cache i).slot y)
    (hkeep : ∀ x, Holds cfg s i x → (ln cfg s i x).dirty = true → ca.slot (x % cfg.num) = ln cfg s i x)
    (hdat : ∀ y, (ca.slot y).data = ((s.cache i).slot y).data ∧ (ca.slot y).be = ((s.cache i).slot y).be ∧
      (ca.slot y).tag = ((s.cache i).slot y).tag)
    (hm : t'.mem = t.mem) (ha : t'.act = upd t.act i (ca.pc.map (·.c)))
    (hseen : t'.seen = t.seen) (hcom : ∀ j, j ≠ i → t'.com j = t.com j)
    (hpc : ∀ w', ca.pc = some w' → w'.st = .issued ∧ PcOk cfg ca.slot t.mem (t.seen i) (t'.com i) w') :
    Inv cfg (setCache s i ca) t' := by
  have hci : (setCache s i ca).cache i = ca := upd_same _ _ _
  have hcj : ∀ j, j ≠ i → (setCache s i ca).cache j = s.cache j := fun j hj => upd_ne _ _ _ hj
  have hL : ∀ j x, Holds cfg (setCache s i ca) j x →
      Holds cfg s j x ∧ ln cfg (setCache s i ca) j x = ln cfg s j x := by
    intro j x q
    by_cases e : j = i
    · subst e
      unfold Holds at q ⊢
      simp only [ln, hci] at q ⊢
      have := hlost _ q.1
      rw [this] at q ⊢
      exact ⟨q, rfl⟩
    · unfold Holds at q ⊢
      simp only [ln, hcj j e] at q ⊢
      exact ⟨q, trivial⟩
  have hH : ∀ j x, Hot (setCache s i ca) j x → j ≠ i ∧ Hot s j x := by
    intro j x q
    obtain ⟨v, a, b, c, d⟩ := q
    by_cases e : j = i
    · subst e
      rw [hci] at a
      rw [(hpc v a).1] at b
      exact absurd b (by decide)
    · rw [hcj j e] at a
      exact ⟨e, v, a, b, c, d⟩
  have hH' : ∀ j x, Hot s j x → Hot (setCache s i ca) j x := by
    intro j x q
    obtain ⟨v, a, b, c, d⟩ := q
    by_cases e : j = i
    · subst e
      rw [hp] at a
      cases a
      rcases c with c | c
      · exact absurd c nh.1
      · exact absurd c nh.2
    · exact ⟨v, by rw [hcj j e]; exact a, b, c, d⟩
  have hM : ∀ j x, Made s j x → Made (setCache s i ca) j x := by
    intro j x q
    obtain ⟨v, a, b, c, d⟩ := q
    by_cases e : j = i
    · subst e
      rw [hp] at a
      cases a
      exact absurd c nh.1
    · exact ⟨v, by rw [hcj j e]; exact a, b, c, d⟩
  refine { act := ?_, pcn := ?_, pcs := ?_, ixs := ?_, copy := ?_, uniq := ?_, filt := ?_, avail := ?_, cur := ?_ }
  · intro j
    rw [ha]
    by_cases e : j = i
    · subst e; rw [upd_same, hci]
    · rw [upd_ne _ _ _ e, hcj j e]; exact h.act j
  · intro j v q
    by_cases e : j = i
    · subst e; exact h.pcn _ _ hp
    · rw [hcj j e] at q; exact h.pcn _ _ q
  · intro j v q
    rw [hm, hseen]
    by_cases e : j = i
    · subst e; rw [hci] at q ⊢; exact (hpc v q).2
    · rw [hcj j e] at q ⊢; rw [hcom j e]; exact h.pcs _ _ q
  · intro j y q
    by_cases e : j = i
    · subst e; rw [hci] at q ⊢; have e := hlost y q; rw [e] at q ⊢; exact h.ixs j y q
    · rw [hcj j e] at q ⊢; exact h.ixs j y q
  · intro j x q nm
    obtain ⟨a, b⟩ := hL j x q
    rw [b, hm]
    exact h.copy j x a (fun m => nm (hM j x m))
  · intro j j' x q qs q'
    obtain ⟨a, b⟩ := hL j x q
    rw [b] at qs
    exact h.uniq j j' x a qs (hL j' x q').1
  · intro j x q
    exact h.filt j x (hL j x q).1
  · intro x
    refine (h.avail x).mono rfl rfl ?_ (by rw [hm]) (fun j => hH' j x)
    intro j q d
    by_cases e : j = i
    · subst e
      have := hkeep x q d
      unfold Holds at q ⊢
      simp only [ln, hci] at this q ⊢
      rw [this]; exact ⟨q, d⟩
    · unfold Holds at q ⊢
      simp only [ln, hcj j e] at d q ⊢
      exact ⟨q, d⟩
  · intro k hk
    have hk' : s.cur = some k := hk
    refine (h.cur k hk').mono (fun j q => (hL j _ q).1) (fun j q => by rw [(hL j _ q).2])
      (fun j q => (hH j _ q).2) ?_ (fun _ => by rw [hm]) ?_ (fun _ v q => by rw [hseen]; exact q)
    · intro e
      rw [hcj]
      exact h.notSrc hp (by rw [hw]; decide) hk' e
    · intro j r a b
      obtain ⟨c0, c1, c2, _⟩ := ((h.cur k hk').sn j r a).data b
      rw [hm]
      by_cases e : j = i
      · subst e
        simp only [ln, hci]
        rw [(hdat _).1, (hdat _).2.1, (hdat _).2.2]
        exact ⟨c0, c1, c2⟩
      · simp only [ln, hcj j e]
        exact ⟨c0, c1, c2⟩

/-- What a request for the line of a chunk may be. -/
structure FillOk (c : Chunk) (f : Kind) : Prop where
  isFill : f.isFill = true
  onceLd : f.isOnce = true → c.wr = false
  uniqSt : (f = .makeUnique ∨ f = .wrUFull) → ∀ o, c.be o = true
  stWr : (f = .makeUnique ∨ f = .wrUFull ∨ f = .wrUPtl ∨ f = .cleanUnique) → c.wr = true
  fvic : f ≠ .cleanUnique ∧ f.isWrU = false

/-- A valid line of a cache that is not hot is complete and current. -/
theorem Inv.slotFull {cfg : Cfg} {s : St} {t : Spec} (h : Inv cfg s t) {i : Nat} {w : Wait} {y : Nat}
    (hp : (s.cache i).pc = some w) (nh : w.op ≠ .makeUnique) (hv : ((s.cache i).slot y).valid = true) :
    ((s.cache i).slot y).be = allBytes ∧ ((s.cache i).slot y).data = t.mem ((s.cache i).slot y).tag := by
  have hy := h.ixs i y hv
  have hh : Holds cfg s i ((s.cache i).slot y).tag := by
    unfold Holds; rw [hy]; exact ⟨hv, rfl⟩
  have := h.copy i _ hh (by
    intro m
    obtain ⟨v, a, b, c, d⟩ := m
    rw [hp] at a; cases a; exact nh c)
  simpa only [ln, hy] using this

theorem evictNext_ok {cfg : Cfg} {s : St} {t : Spec} (h : Inv cfg s t) {i : Nat} {w : Wait} {f : Kind}
    (r : Rnd) (hp : (s.cache i).pc = some w) (hw : w.st = .done)
    (nh : w.op ≠ .makeUnique ∧ w.op ≠ .cleanUnique) (nw : w.op.isWrU = false) (hf : FillOk w.c f) :
    Inv cfg (setCache s i
      { slot := upd (s.cache i).slot (w.c.tag % cfg.num)
          (evictNext w.c f r ((s.cache i).slot (w.c.tag % cfg.num))).1
        pc := some (evictNext w.c f r ((s.cache i).slot (w.c.tag % cfg.num))).2 }) t := by
  have q := h.pcs i w hp
  have hcom : t.com i = false := by rw [q.com, nw]; rfl
  have hact : t.act = upd t.act i (some w.c) := by
    funext j
    by_cases e : j = i
    · subst e; rw [upd_same, h.act, hp]; rfl
    · rw [upd_ne _ _ _ e]
  generalize hx : w.c.tag % cfg.num = x at *
  generalize hl : (s.cache i).slot x = l at *
  have full : l.valid = true → l.be = allBytes := fun hv => by
    rw [← hl] at hv ⊢; exact (h.slotFull hp nh.1 hv).1
  have hvic : ∀ op, op.isCb = true → op ≠ .writeBackPtl → l.valid = true →
      PcOk cfg (upd (s.cache i).slot x l) t.mem (t.seen i) (t.com i) (victimReq w.c f op l) := by
    intro op ho hq hv
    have hi := h.ixs i x (by rw [hl]; exact hv)
    rw [hl] at hi
    refine { ix := ?_, fill := ?_, ff := hf.isFill, onceLd := hf.onceLd, opf := ?_, uniqSt := hf.uniqSt, stWr := hf.stWr, fvic := fun _ => hf.fvic, dense := q.dense, seen := q.seen, com := ?_, comp := ?_, ack := ?_, line := ?_ }
    · simp only [victimReq]; rw [hi, hx]
    · intro e; simp [victimReq, Kind.isFill, ho] at e
    · intro e; simp [victimReq, Kind.isFill, ho] at e
    · simp [victimReq, hcom]
    · simp [victimReq]
    · simp [victimReq]
    · simp only [victimReq]
      rw [hx, upd_same]
      cases op <;> first | exact absurd ho (by decide) | simp [LineOk, full hv]
  have same : upd (s.cache i).slot x l = (s.cache i).slot := by
    funext y
    by_cases e : y = x
    · subst e; rw [upd_same, hl]
    · rw [upd_ne _ _ _ e]
  have base : ∀ w', w'.c = w.c → w'.st = .issued →
      PcOk cfg (upd (s.cache i).slot x l) t.mem (t.seen i) (t.com i) w' →
      Inv cfg (setCache s i { slot := upd (s.cache i).slot x l, pc := some w' }) t := by
    intro w' e1 e2 ok
    rw [same] at ok ⊢
    refine local_ok h hp hw nh ?_ ?_ ?_ rfl ?_ rfl (fun _ _ => rfl) ?_
    · intro y _; rfl
    · intro y _ _; rfl
    · intro y; exact ⟨rfl, rfl, rfl⟩
    · simp only [Option.map_some, e1]; exact hact
    · intro v e; cases e; exact ⟨e2, ok⟩
  unfold evictNext
  by_cases hv : l.valid = true
  · rw [if_pos hv]
    rw [if_neg (by simp [Line.full, full hv, allBytes])]
    by_cases hd : l.dirty = true
    · rw [if_pos hd]
      exact base _ rfl rfl (hvic .writeBack rfl (by decide) hv)
    · rw [if_neg hd]
      by_cases he : (l.full && r.evict) = true
      · rw [if_pos he]
        exact base _ rfl rfl (hvic .writeEvict rfl (by decide) hv)
      · rw [if_neg he]
        have hi := h.ixs i x (by rw [hl]; exact hv)
        rw [hl] at hi
        refine local_ok h hp hw nh ?_ ?_ ?_ rfl ?_ rfl (fun _ _ => rfl) ?_
        · intro y
          by_cases e : y = x
          · subst e; simp [upd_same]
          · simp only [upd_ne _ _ _ e]; intro _; trivial
        · intro y a b
          by_cases e : y % cfg.num = x
          · simp only [ln, e, hl] at b; exact absurd b hd
          · simp only [upd_ne _ _ _ e]
        · intro y
          by_cases e : y = x
          · subst e; simp only [upd_same, hl]; exact ⟨trivial, trivial, trivial⟩
          · simp only [upd_ne _ _ _ e]; exact ⟨trivial, trivial, trivial⟩
        · exact hact
        · intro v e
          cases e
          refine ⟨rfl, { ix := ?_, fill := ?_, ff := hf.isFill, onceLd := hf.onceLd, opf := ?_, uniqSt := hf.uniqSt, stWr := hf.stWr, fvic := fun _ => hf.fvic, dense := q.dense, seen := q.seen, com := ?_, comp := ?_, ack := ?_, line := ?_ }⟩
          · simp only [victimReq]; rw [hi, hx]
          · intro e; simp [victimReq, Kind.isFill] at e
          · intro e; simp [victimReq, Kind.isFill] at e
          · simp [victimReq, hcom]
          · simp [victimReq]
          · simp [victimReq]
          · simp only [victimReq]
            rw [hx, upd_same]
            simp [LineOk]
  · rw [if_neg hv]
    refine base _ rfl rfl { ix := rfl, fill := fun _ => rfl, ff := hf.isFill, onceLd := hf.onceLd, opf := fun _ => rfl, uniqSt := hf.uniqSt, stWr := hf.stWr, fvic := fun _ => hf.fvic, dense := q.dense, seen := q.seen, com := ?_, comp := ?_, ack := ?_, line := ?_ }
    · simp [fillReq, hcom]
    · simp [fillReq]
    · simp [fillReq]
    · simp only [fillReq]
      rw [hx, upd_same]
      have a := hf.isFill
      have b := hf.fvic
      cases f <;> simp_all [LineOk, Kind.isFill, Kind.isCb, Kind.isWrU]

theorem clearFill_ok {cfg : Cfg} {s : St} {t : Spec} (h : Inv cfg s t) {i : Nat} {w : Wait} {f : Kind}
    (r : Rnd) (hp : (s.cache i).pc = some w) (hw : w.st = .done)
    (nh : w.op ≠ .makeUnique ∧ w.op ≠ .cleanUnique) (nw : w.op.isWrU = false) (hf : FillOk w.c f) :
    Inv cfg (setCache s i
      { slot := upd (s.cache i).slot (w.c.tag % cfg.num)
          (clearFill w.c f r ((s.cache i).slot (w.c.tag % cfg.num))).1
        pc := some (clearFill w.c f r ((s.cache i).slot (w.c.tag % cfg.num))).2 }) t := by
  unfold clearFill
  by_cases hc : (((s.cache i).slot (w.c.tag % cfg.num)).valid && ((s.cache i).slot (w.c.tag % cfg.num)).dirty &&
    ((s.cache i).slot (w.c.tag % cfg.num)).full && r.clean) = true
  · rw [if_pos hc]
    have hv : ((s.cache i).slot (w.c.tag % cfg.num)).valid = true := by simp at hc; exact hc.1.1.1
    have q := h.pcs i w hp
    have hcom : t.com i = false := by rw [q.com, nw]; rfl
    have same : upd (s.cache i).slot (w.c.tag % cfg.num) ((s.cache i).slot (w.c.tag % cfg.num)) = (s.cache i).slot := by
      funext y
      by_cases e : y = w.c.tag % cfg.num
      · subst e; rw [upd_same]
      · rw [upd_ne _ _ _ e]
    simp only
    rw [same]
    refine local_ok h hp hw nh ?_ ?_ ?_ rfl ?_ rfl (fun _ _ => rfl) ?_
    · intro y _; rfl
    · intro y _ _; rfl
    · intro y; exact ⟨rfl, rfl, rfl⟩
    · funext j
      by_cases e : j = i
      · subst e; rw [upd_same, h.act, hp]; rfl
      · rw [upd_ne _ _ _ e]
    · intro v e
      cases e
      refine ⟨rfl, { ix := ?_, fill := ?_, ff := hf.isFill, onceLd := hf.onceLd, opf := ?_, uniqSt := hf.uniqSt, stWr := hf.stWr, fvic := fun _ => hf.fvic, dense := q.dense, seen := q.seen, com := ?_, comp := ?_, ack := ?_, line := ?_ }⟩
      · simp only [victimReq]; exact h.ixs i _ hv
      · intro e; simp [victimReq, Kind.isFill, Kind.isCb] at e
      · intro e; simp [victimReq, Kind.isFill, Kind.isCb] at e
      · simp [victimReq, hcom]
      · simp [victimReq]
      · simp [victimReq]
      · simp [victimReq, LineOk, (h.slotFull hp nh.1 hv).1]
  · rw [if_neg hc]
    exact evictNext_ok h r hp hw nh nw hf

theorem PcOk.store {cfg : Cfg} {slot : Nat → Line} {V V' : Nat → Data} {vs vs' : List Data} {cm : Bool}
    {w : Wait} (q : PcOk cfg slot V vs cm w) (h1 : V' w.c.tag ∈ vs') (h2 : ∀ v, v ∈ vs → v ∈ vs') :
    PcOk cfg slot V' vs' cm w := by
  refine { q with seen := h1, line := ?_ }
  have l := q.line
  unfold LineOk at l ⊢
  cases e : w.op <;> simp only [e] at l ⊢ <;> first | exact l | exact ⟨l.1, fun a => h2 _ (l.2 a)⟩

theorem merge_full (d x : Data) {e : Be} (h : ∀ o, e o = true) : merge d e x = x := by
  funext o; simp [merge, h o]

/-- A store into a line the cache holds alone. -/
theorem store_ok {cfg : Cfg} {s : St} {t : Spec} (h : Inv cfg s t) {i : Nat} {w : Wait}
    (hp : (s.cache i).pc = some w) (hw : w.st = .done) (ho : w.op.isFill = true)
    (hx : Holds cfg s i w.c.tag) (hs : (ln cfg s i w.c.tag).shared = false) :
    Inv cfg (setCache s i
      { slot := upd (s.cache i).slot (w.c.tag % cfg.num) ((ln cfg s i w.c.tag).write w.c), pc := none })
      { t.store i w.c with act := upd t.act i none } := by
  have q := h.pcs i w hp
  have htag : w.tag = w.c.tag := q.fill ho
  generalize hX : w.c.tag = X at *
  let v := merge (t.mem X) w.c.be w.c.data
  -- the new line
  have hnew : ((ln cfg s i X).write w.c).be = allBytes ∧ ((ln cfg s i X).write w.c).data = v ∧
      ((ln cfg s i X).write w.c).dirty = true ∧ ((ln cfg s i X).write w.c).valid = true ∧
      ((ln cfg s i X).write w.c).tag = X ∧ ((ln cfg s i X).write w.c).shared = false := by
    have hb : ∀ o, (w.c.be o || (ln cfg s i X).be o) = true := by
      intro o
      by_cases m : Made s i X
      · obtain ⟨w', a, b, c, d⟩ := m
        rw [hp] at a; cases a
        rw [q.uniqSt (.inl (by rw [← q.opf ho]; exact c)) o]; rfl
      · rw [(h.copy i X hx m).1]; simp [allBytes]
    refine ⟨?_, ?_, ?_, hx.1, hx.2, hs⟩
    · funext o; exact hb o
    · by_cases m : Made s i X
      · obtain ⟨w', a, b, c, d⟩ := m
        rw [hp] at a; cases a
        have hf := q.uniqSt (.inl (by rw [← q.opf ho]; exact c))
        simp only [Line.write, v]
        rw [merge_full _ _ hf, merge_full _ _ hf]
      · simp only [Line.write, v]
        rw [(h.copy i X hx m).2]
    · simp only [Line.write]
      rw [if_neg]
      intro hn
      have := hn 0
      rw [hb 0] at this
      exact absurd this (by decide)
  generalize (ln cfg s i X).write w.c = l' at *
  obtain ⟨n1, n2, n3, n4, n5, n6⟩ := hnew
  let ca : Cache := { slot := upd (s.cache i).slot (X % cfg.num) l', pc := none }
  have hci : (setCache s i ca).cache i = ca := upd_same _ _ _
  have hcj : ∀ j, j ≠ i → (setCache s i ca).cache j = s.cache j := fun j hj => upd_ne _ _ _ hj
  have hmX : ({ t.store i w.c with act := upd t.act i none } : Spec).mem X = v := by
    simp only [Spec.store, hX]; exact upd_same _ _ _
  have hmx : ∀ x, x ≠ X → ({ t.store i w.c with act := upd t.act i none } : Spec).mem x = t.mem x := by
    intro x e; simp only [Spec.store, hX]; exact upd_ne _ _ _ e
  have hlX : ln cfg (setCache s i ca) i X = l' := by
    simp only [ln, hci, ca]; exact upd_same _ _ _
  have hln : ∀ j x, (j ≠ i ∨ x % cfg.num ≠ X % cfg.num) → ln cfg (setCache s i ca) j x = ln cfg s j x := by
    intro j x e
    by_cases ej : j = i
    · subst ej
      simp only [ln, hci, ca]
      exact upd_ne _ _ _ (by rcases e with e | e; exact absurd rfl e; exact e)
    · simp only [ln, hcj j ej]
  have hxX : ∀ j x, j = i → x % cfg.num = X % cfg.num → x ≠ X →
      ¬ Holds cfg s j x ∧ ¬ Holds cfg (setCache s i ca) j x := by
    intro j x e1 e2 e3
    subst e1
    unfold Holds
    have := hlX
    simp only [ln] at this
    rw [e2, this]
    refine ⟨fun a => e3 ?_, fun a => e3 ?_⟩
    · rw [← a.2]; exact hx.2
    · rw [← a.2]; exact n5
  have hH : ∀ j x, Holds cfg (setCache s i ca) j x ↔ Holds cfg s j x := by
    intro j x
    by_cases e : j ≠ i ∨ x % cfg.num ≠ X % cfg.num
    · have := hln j x e
      unfold Holds; simp only [ln] at this; rw [this]
    · have e1 : j = i := by by_cases a : j = i; exact a; exact absurd (.inl a) e
      have e2 : x % cfg.num = X % cfg.num := by
        by_cases a : x % cfg.num = X % cfg.num; exact a; exact absurd (.inr a) e
      by_cases ex : x = X
      · subst ex; subst e1
        refine ⟨fun _ => hx, fun _ => ?_⟩
        have := hlX
        unfold Holds; simp only [ln] at this; rw [this]; exact ⟨n4, n5⟩
      · obtain ⟨a, b⟩ := hxX j x e1 e2 ex
        exact ⟨fun c => absurd c b, fun c => absurd c a⟩
  have hS : ∀ j x, Holds cfg s j x →
      (ln cfg (setCache s i ca) j x).shared = (ln cfg s j x).shared := by
    intro j x hh
    by_cases e : j ≠ i ∨ x % cfg.num ≠ X % cfg.num
    · rw [hln j x e]
    · have e1 : j = i := by by_cases a : j = i; exact a; exact absurd (.inl a) e
      have e2 : x % cfg.num = X % cfg.num := by
        by_cases a : x % cfg.num = X % cfg.num; exact a; exact absurd (.inr a) e
      by_cases ex : x = X
      · subst ex; subst e1
        rw [hlX, n6, hs]
      · exact absurd hh (hxX j x e1 e2 ex).1
  have hHot : ∀ j x, Hot (setCache s i ca) j x → Hot s j x := by
    intro j x ⟨w', a, b⟩
    by_cases e : j = i
    · subst e; rw [hci] at a; cases a
    · rw [hcj j e] at a; exact ⟨w', a, b⟩
  have hHot' : ∀ j x, x ≠ X → Hot s j x → Hot (setCache s i ca) j x := by
    intro j x ex ⟨w', a, b, c, d⟩
    by_cases e : j = i
    · subst e; rw [hp] at a; cases a
      exact absurd (d.symm.trans htag) ex
    · exact ⟨w', by rw [hcj j e]; exact a, b, c, d⟩
  refine { act := ?_, pcn := ?_, pcs := ?_, ixs := ?_, copy := ?_, uniq := ?_, filt := ?_, avail := ?_, cur := ?_ }
  · intro j
    by_cases e : j = i
    · subst e; rw [hci]; exact upd_same _ _ _
    · rw [hcj j e]; simp only [upd_ne _ _ _ e]; exact h.act j
  · intro j w' a
    by_cases e : j = i
    · subst e; rw [hci] at a; cases a
    · rw [hcj j e] at a; exact h.pcn j w' a
  · intro j w' a
    by_cases e : j = i
    · subst e; rw [hci] at a; cases a
    · rw [hcj j e] at a ⊢
      have q' := h.pcs j w' a
      have hact : t.act j = some w'.c := by rw [h.act, a]; rfl
      have hcom : ({ t.store i w.c with act := upd t.act i none } : Spec).com j = t.com j :=
        upd_ne _ _ _ e
      rw [hcom]
      have hseen : ({ t.store i w.c with act := upd t.act i none } : Spec).seen j =
          if w'.c.tag = X then v :: t.seen j else t.seen j := by
        simp only [Spec.store, hact, hX]; rfl
      rw [hseen]
      refine q'.store ?_ ?_
      · by_cases ex : w'.c.tag = X
        · rw [if_pos ex, ex, hmX]; exact List.mem_cons_self
        · rw [if_neg ex, hmx _ ex]; exact q'.seen
      · intro z hz
        split
        · exact List.mem_cons_of_mem _ hz
        · exact hz
  · intro j y a
    by_cases e : j = i
    · subst e
      rw [hci] at a ⊢
      by_cases ey : y = X % cfg.num
      · subst ey; simp only [ca, upd_same]; rw [n5]
      · simp only [ca, upd_ne _ _ _ ey] at a ⊢; exact h.ixs j y a
    · rw [hcj j e] at a ⊢; exact h.ixs j y a
  · intro j x a nm
    rw [hH] at a
    by_cases e : j = i ∧ x = X
    · obtain ⟨e1, e2⟩ := e
      subst e1; subst e2
      rw [hlX, hmX]; exact ⟨n1, n2⟩
    · by_cases e2 : x = X
      · subst e2
        exact absurd ⟨h.uniq i j _ hx hs a, rfl⟩ e
      · have : j ≠ i ∨ x % cfg.num ≠ X % cfg.num := by
          by_cases ej : j = i
          · by_cases ei : x % cfg.num = X % cfg.num
            · exact absurd a (hxX j x ej ei e2).1
            · exact .inr ei
          · exact .inl ej
        rw [hln j x this, hmx x e2]
        refine h.copy j x a (fun m => ?_)
        obtain ⟨w', b, c⟩ := m
        by_cases ej : j = i
        · subst ej; rw [hp] at b; cases b
          exact e2 (c.2.2.symm.trans htag)
        · exact nm ⟨w', by rw [hcj j ej]; exact b, c⟩
  · intro j j' x a b c
    rw [hH] at a c
    rw [hS j x a] at b
    exact h.uniq j j' x a b c
  · intro j x a
    rw [hH] at a
    exact h.filt j x a
  · intro x
    by_cases e : x = X
    · subst e
      exact .dirty i ((hH _ _).2 hx) (by rw [hlX]; exact n3)
    · refine (h.avail x).mono rfl rfl ?_ (hmx x e) (fun j => hHot' j x e)
      intro j a b
      refine ⟨(hH _ _).2 a, ?_⟩
      rw [hln j x]
      · exact b
      · by_cases ej : j = i
        · by_cases ei : x % cfg.num = X % cfg.num
          · exact absurd a (hxX j x ej ei e).1
          · exact .inr ei
        · exact .inl ej
  · intro k hk
    have hk' : s.cur = some k := hk
    have ck := h.cur k hk'
    refine ck.mono (fun j a => (hH _ _).1 a) (fun j a => hS _ _ ((hH _ _).1 a)) (fun j => hHot j _) ?_ ?_ ?_ ?_
    · intro e
      rw [hcj]
      exact h.notSrc hp (by rw [hw]; decide) hk' e
    · intro hc
      by_cases e : k.tag = X
      · exfalso
        rcases hc with ⟨a, b, c⟩ | ⟨g, d, e', a, b⟩
        · have := ((ck.gotd c b).2.1 a).2 i (by rw [e]; exact hx)
          rw [e, hs] at this
          exact absurd this (by decide)
        · have hne := h.notSrc hp (by rw [hw]; decide) hk' (by rw [a]; rfl)
          have ph := ck.ph
          unfold PhaseOk at ph
          simp only [a] at ph
          rcases ph.2 with p | p
          · have p1 := p.1
            cases hkk : k.kind <;> rw [hkk] at p1 b <;> first | exact absurd p1 (by decide) | exact absurd b (by decide)
          · cases hg : g.shared
            · exact p.2.2.2.1 hg i (Ne.symm hne) (by rw [e]; exact hx)
            · have := p.2.2.2.2 hg i (Ne.symm hne) (by rw [e]; exact hx)
              rw [e, hs] at this
              exact absurd this (by decide)
      · exact hmx _ e
    · intro j r a b
      obtain ⟨c0, c1, c2, c3⟩ := (ck.sn j r a).data b
      by_cases e : k.tag = X
      · have hij : i = j := c3 i (by rw [e]; exact hx) (by rw [e]; exact hs)
        subst hij
        rw [e, hlX, hmX]; exact ⟨n5, n1, n2⟩
      · have : j ≠ i ∨ k.tag % cfg.num ≠ X % cfg.num := by
          by_cases ej : j = i
          · by_cases ei : k.tag % cfg.num = X % cfg.num
            · exfalso
              subst ej
              have := hx.2
              simp only [ln, ei] at c0
              rw [c0] at this
              exact e this
            · exact .inr ei
          · exact .inl ej
        rw [hln j _ this, hmx _ e]; exact ⟨c0, c1, c2⟩
    · intro _ z hz
      show z ∈ ({ t.store i w.c with act := upd t.act i none } : Spec).seen k.src
      simp only [Spec.store]
      split
      · split
        · exact List.mem_cons_of_mem _ hz
        · exact hz
      · exact hz

end Verif.ChiCoh
