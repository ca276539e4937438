import Verif.ChiCoh.Pick

/-!
# Messages that reach a cache, and memory reads
-/

namespace Verif.ChiCoh

section
variable {cfg : Cfg} {s s' : St} {i : Nat} {ca : Cache} {y : Nat} {l' : Line}

theorem lnSame (hc : s'.cache = upd s.cache i ca) (hsl : ca.slot = upd (s.cache i).slot y l')
    {j x : Nat} (hn : ¬ (j = i ∧ x % cfg.num = y)) : ln cfg s' j x = ln cfg s j x := by
  unfold ln
  rw [hc]
  by_cases e : j = i
  · subst e
    rw [upd_same, hsl, upd_ne _ _ _ (fun a => hn ⟨rfl, a⟩)]
  · rw [upd_ne _ _ _ e]

theorem lnNew (hc : s'.cache = upd s.cache i ca) (hsl : ca.slot = upd (s.cache i).slot y l')
    {x : Nat} (hx : x % cfg.num = y) : ln cfg s' i x = l' := by
  unfold ln
  rw [hc, upd_same, hsl, hx, upd_same]

theorem holdsLn (cfg : Cfg) (s : St) (j x : Nat) :
    Holds cfg s j x ↔ (ln cfg s j x).valid = true ∧ (ln cfg s j x).tag = x := Iff.rfl

end

/-- A fill or a grant without data reaches the requester. -/
theorem grant_ok {cfg : Cfg} {s s' : St} {t : Spec} {k : Cur} {w : Wait} {l' : Line} {ca : Cache}
    (h : Inv cfg s t) (hk : s.cur = some k) (hp : (s.cache k.src).pc = some w) (ha : w.st = .active)
    (he : k.phase.early = true) (hns : k.phase ≠ .snoop)
    (hc : s'.cache = upd s.cache k.src ca) (hsl : ca.slot = upd (s.cache k.src).slot (k.tag % cfg.num) l')
    (hpc : ca.pc = some { w with st := .done }) (hcur : s'.cur = some { k with phase := .ack })
    (hm : s'.mem = s.mem) (hpo : s'.posted = s.posted) (hf : s'.filt = s.filt)
    (hl : (ln cfg s k.src k.tag).valid = true → (ln cfg s k.src k.tag).tag = k.tag)
    (ht : l'.tag = k.tag)
    (hcopy : (w.op = .makeUnique ∧ w.tag = k.tag) ∨ (l'.be = allBytes ∧ l'.data = t.mem k.tag))
    (hu1 : l'.shared = false → ∀ j, j ≠ k.src → ¬ Holds cfg s j k.tag)
    (hu2 : l'.shared = true → ∀ j, j ≠ k.src → Holds cfg s j k.tag → (ln cfg s j k.tag).shared = true)
    (hal : k.kind.alloc = true) (hq : PcOk cfg ca.slot t.mem (t.seen k.src) (t.com k.src) { w with st := .done })
    (hav : Avail cfg s' t k.tag) : Inv cfg s' t := by
  have ck := h.cur k hk
  have hci : s'.cache k.src = ca := by rw [hc, upd_same]
  have hcj : ∀ j, j ≠ k.src → s'.cache j = s.cache j := fun j e => by rw [hc, upd_ne _ _ _ e]
  have hnew : ln cfg s' k.src k.tag = l' := lnNew hc hsl rfl
  -- held lines of the new state
  have hH : ∀ j x, Holds cfg s' j x →
      (j = k.src ∧ x = k.tag) ∨ (¬ (j = k.src ∧ x % cfg.num = k.tag % cfg.num) ∧ Holds cfg s j x ∧
        ln cfg s' j x = ln cfg s j x) := by
    intro j x a
    by_cases e : j = k.src ∧ x % cfg.num = k.tag % cfg.num
    · left
      refine ⟨e.1, ?_⟩
      obtain ⟨rfl, e2⟩ := e
      have b := (holdsLn cfg s' k.src x).1 a
      rw [lnNew hc hsl e2, ht] at b
      exact b.2.symm
    · have b := lnSame hc hsl e
      refine .inr ⟨e, ?_, b⟩
      rw [holdsLn, b] at a
      exact a
  have hH' : ∀ j x, ¬ (j = k.src ∧ x = k.tag) → Holds cfg s j x →
      Holds cfg s' j x ∧ ln cfg s' j x = ln cfg s j x := by
    intro j x e a
    have e' : ¬ (j = k.src ∧ x % cfg.num = k.tag % cfg.num) := by
      rintro ⟨rfl, b⟩
      apply e
      refine ⟨rfl, ?_⟩
      have c : ln cfg s k.src x = ln cfg s k.src k.tag := by unfold ln; rw [b]
      have d := (holdsLn cfg s k.src x).1 a
      rw [c] at d
      rw [← d.2]; exact hl d.1
    have b := lnSame (s' := s') hc hsl e'
    exact ⟨by rw [holdsLn, b]; exact a, b⟩
  have hHotJ : ∀ j x, j ≠ k.src → (Hot s' j x ↔ Hot s j x) := by
    intro j x e; unfold Hot; rw [hcj j e]
  have hMadeJ : ∀ j x, j ≠ k.src → (Made s' j x ↔ Made s j x) := by
    intro j x e; unfold Made; rw [hcj j e]
  have nMade : ∀ x, ¬ Made s k.src x := by
    rintro x ⟨v, a, b, _⟩
    rw [hp] at a; cases a; rw [ha] at b; cases b
  have nHot : ∀ x, ¬ Hot s k.src x := by
    rintro x ⟨v, a, b, _⟩
    rw [hp] at a; cases a; rw [ha] at b; cases b
  refine { act := ?_, pcn := ?_, pcs := ?_, ixs := ?_, copy := ?_, uniq := ?_, filt := ?_, avail := ?_, cur := ?_ }
  · intro j
    by_cases e : j = k.src
    · subst e; rw [hci, hpc, h.act, hp]; rfl
    · rw [hcj j e]; exact h.act j
  · intro j v a
    by_cases e : j = k.src
    · subst e; exact ck.srcn
    · rw [hcj j e] at a; exact h.pcn j v a
  · intro j v a
    by_cases e : j = k.src
    · subst e
      rw [hci] at a ⊢
      rw [hpc] at a
      cases a
      exact hq
    · rw [hcj j e] at a ⊢; exact h.pcs j v a
  · intro j y a
    by_cases e : j = k.src
    · subst e
      rw [hci, hsl] at a ⊢
      by_cases e2 : y = k.tag % cfg.num
      · rw [e2, upd_same, ht]
      · rw [upd_ne _ _ _ e2] at a ⊢; exact h.ixs _ y a
    · rw [hcj j e] at a ⊢; exact h.ixs j y a
  · intro j x a nm
    rcases hH j x a with ⟨e1, e2⟩ | ⟨_, b, c⟩
    · subst e1; subst e2
      rw [hnew]
      rcases hcopy with d | d
      · exfalso
        apply nm
        refine ⟨{ w with st := .done }, by rw [hci]; exact hpc, rfl, d.1, d.2⟩
      · exact d
    · rw [c]
      refine h.copy j x b (fun m => nm ?_)
      by_cases e : j = k.src
      · subst e; exact absurd m (nMade x)
      · exact (hMadeJ j x e).2 m
  · intro j j' x a b c
    rcases hH j x a with ⟨e1, e2⟩ | ⟨_, a1, a2⟩
    · subst e1; subst e2
      rw [hnew] at b
      rcases hH j' k.tag c with ⟨e1, _⟩ | ⟨_, c1, _⟩
      · exact e1
      · apply Classical.byContradiction
        intro e
        exact hu1 b j' e c1
    · rw [a2] at b
      rcases hH j' x c with ⟨e1, e2⟩ | ⟨_, c1, _⟩
      · subst e1; subst e2
        apply Classical.byContradiction
        intro e
        have e' : j ≠ k.src := fun a => e a.symm
        cases hs : l'.shared
        · exact hu1 hs j e' a1
        · have := hu2 hs j e' a1
          rw [this] at b; cases b
      · exact h.uniq j j' x a1 b c1
  · intro j x a
    rcases hH j x a with ⟨e1, e2⟩ | ⟨_, a1, _⟩
    · subst e1; subst e2
      exact ⟨ck.srcn, .inr ⟨_, hcur, rfl, rfl, rfl, hal⟩⟩
    · have f := h.filt j x a1
      refine ⟨f.1, .inl ?_⟩
      rw [hf]
      rcases f.2 with f | ⟨k', b, _, _, c, _⟩
      · exact f
      · rw [hk] at b; cases b; rw [c] at he; cases he
  · intro x
    by_cases e : x = k.tag
    · rw [e]; exact hav
    · have hne : ∀ k', s.cur = some k' → k'.tag ≠ x := by
        intro k' a; rw [hk] at a; cases a; exact fun b => e b.symm
      cases h.avail x with
      | dirty j a d =>
        have := hH' j x (fun b => e b.2) a
        exact .dirty j this.1 (by rw [this.2]; exact d)
      | mem a =>
        refine .mem ?_
        rw [← a]
        unfold eff
        rw [pend_ne _ _ _ hne, hm, hpo, pend_ne]
        intro k' b; rw [hcur] at b; cases b; exact fun c => e c.symm
      | home k' a b => exact absurd b (hne k' a)
      | over k' a b => exact absurd b (hne k' a)
      | hot j a =>
        by_cases e1 : j = k.src
        · subst e1; exact absurd a (nHot x)
        · exact .hot j ((hHotJ j x e1).2 a)
  · intro k' a
    rw [hcur] at a; cases a
    refine ck.late (p := .ack) hns rfl ?_ ?_ ?_ ?_
    · intro j e a
      rcases hH j _ a with ⟨e1, _⟩ | ⟨_, b, _⟩
      · exact absurd e1 e
      · exact b
    · intro j e a
      rcases hH j _ a with ⟨e1, _⟩ | ⟨_, _, b⟩
      · exact absurd e1 e
      · rw [b]; exact id
    · intro j e; exact (hHotJ j _ e).1
    · simp only [PhaseOk]; exact .inl hal

theorem rxComp_ok {cfg : Cfg} {s s' : St} {t : Spec} {es : List Ev} (h : Inv cfg s t)
    (hs : stepRxComp cfg s = .next s' es) : es = [] ∧ Inv cfg s' t := by
  unfold stepRxComp at hs
  cases hk : s.cur with
  | none => simp [hk] at hs
  | some k =>
    have ck := h.cur k hk
    cases hph : k.phase <;> simp only [hk, hph] at hs <;> try cases hs
    obtain ⟨w, hp, ha, hop, htg⟩ := ck.early (by rw [hph]; rfl)
    simp only [hp, Out.next.injEq] at hs
    obtain ⟨rfl, rfl⟩ := hs
    have ph := ck.ph
    simp only [PhaseOk, hph] at ph
    have q := h.pcs _ w hp
    have l := q.line
    unfold LineOk at l
    rw [← q.ix, htg] at l
    have hal : k.kind.alloc = true := by rcases ph with e | e <;> rw [e] <;> rfl
    have none : ∀ j, j ≠ k.src → ¬ Holds cfg s j k.tag := by
      intro j a b
      have so : ∃ op, snpOp false k.kind = some op ∧ invalidating op = true := by
        rcases ph with e | e <;> rw [e] <;> exact ⟨_, rfl, rfl⟩
      obtain ⟨op, o1, o2⟩ := so
      have c := ck.cover (by rw [o1]; rfl) j a b
      rcases ck.quiet (by rw [hph]; rfl) (by rw [hph]; simp) j with d | d
      · exact c d
      · exact (ck.dn j d).inv op o1 o2 b
    refine ⟨rfl, ?_⟩
    have hcopy : (w.op = .makeUnique ∧ w.tag = k.tag) ∨
        ((if w.op = .makeUnique then noBytes else (ln cfg s k.src k.tag).be) = allBytes ∧
         (if w.op = .makeUnique then (fun _ => 0) else (ln cfg s k.src k.tag).data) = t.mem k.tag) := by
      by_cases e : w.op = .makeUnique
      · exact .inl ⟨e, htg⟩
      · right
        rw [if_neg e, if_neg e]
        have e' : w.op = .cleanUnique := by
          rcases ph with a | a
          · rw [hop, a]
          · exact absurd (by rw [hop, a]) e
        rw [e'] at l
        simp only at l
        exact h.copy k.src k.tag ⟨l.1, l.2.1⟩ (by
          rintro ⟨v, a, b, _⟩; rw [hp] at a; cases a; rw [ha] at b; cases b)
    refine grant_ok h hk hp ha (by rw [hph]; rfl) (by rw [hph]; simp)
      (ca := rxCompCache cfg.num w (s.cache k.src)) rfl (by unfold rxCompCache; rw [htg]) rfl rfl rfl rfl rfl
      ?_ rfl hcopy (fun _ => none) (fun a => by cases a) hal ?_ ?_
    · intro a
      rcases ph with e | e
      · rw [hop, e] at l; simp only at l; exact l.2.1
      · rw [hop, e] at l; simp only at l
        have := l.1 (by rw [ha]; simp)
        rw [this] at a; cases a
    · refine { ix := q.ix, fill := q.fill, ff := q.ff, onceLd := q.onceLd, opf := q.opf, uniqSt := q.uniqSt, stWr := q.stWr, fvic := q.fvic, dense := q.dense, seen := q.seen, com := ?_, comp := by simp, ack := q.ack, line := ?_ }
      · rw [q.com]; rcases ph with e | e <;> simp [hop, e, Kind.isWrU]
      · unfold LineOk
        have : (rxCompCache cfg.num w (s.cache k.src)).slot (w.c.tag % cfg.num) =
            (rxCompCache cfg.num w (s.cache k.src)).slot (w.tag % cfg.num) := by rw [q.ix]
        simp only [this]
        unfold rxCompCache
        simp only [upd_same]
        rcases ph with e | e <;> simp [hop, e]
    · refine .hot k.src ⟨{ w with st := .done }, ?_, rfl, ?_, htg⟩
      · show (upd s.cache k.src (rxCompCache cfg.num w (s.cache k.src)) k.src).pc = _
        rw [upd_same]; rfl
      · rcases ph with e | e
        · exact .inr (by rw [← e, ← hop])
        · exact .inl (by rw [← e, ← hop])

theorem rxDat_ok {cfg : Cfg} {s s' : St} {t : Spec} {es : List Ev} (h : Inv cfg s t)
    (hs : stepRxDat cfg s = .next s' es) : es = [] ∧ Inv cfg s' t := by
  unfold stepRxDat at hs
  cases hk : s.cur with
  | none => simp [hk] at hs
  | some k =>
    have ck := h.cur k hk
    cases hph : k.phase <;> simp only [hk, hph] at hs <;> try cases hs
    rename_i g d e
    obtain ⟨w, hp, ha, hop, htg⟩ := ck.early (by rw [hph]; rfl)
    simp only [hp] at hs
    have ph := ck.ph
    simp only [PhaseOk, hph] at ph
    obtain ⟨he, ph⟩ := ph
    have q := h.pcs _ w hp
    have l := q.line
    unfold LineOk at l
    rw [← q.ix, htg] at l
    by_cases ho : k.kind.isOnce = true
    · have e0 : rxDatCache cfg.num k g d e w (s.cache k.src) =
          some { s.cache k.src with pc := some { w with st := .done, got := d } } := by
        unfold rxDatCache; rw [if_pos ho, he]
      rw [e0] at hs
      simp only [Out.next.injEq] at hs
      obtain ⟨rfl, rfl⟩ := hs
      refine ⟨rfl, ?_⟩
      have hnh : ¬ Holds cfg s k.src k.tag := by
        intro a
        have : (ln cfg s k.src k.tag).valid = false := by
          rw [hop] at l
          revert l ho
          cases k.kind <;> simp [Kind.isOnce, ha] <;> intro a _ <;> exact a
        rw [a.1] at this; cases this
      have hd : d ∈ t.seen k.src := by
        rcases ph with a | a
        · exact a.2
        · exfalso; revert ho; have := a.1; revert this; cases k.kind <;> simp [Kind.isRd, Kind.isOnce]
      -- first the home node, then the cache
      have h1 : Inv cfg { s with cur := some { k with phase := .ack } } t := by
        refine home_ok h rfl ?_ ?_ ?_
        · intro i x a _
          left
          rcases (h.filt i x a).2 with f | ⟨k', b, _, _, c, _⟩
          · exact f
          · rw [hk] at b; cases b; rw [hph] at c; cases c
        · intro x
          refine avail_same (h.avail x) rfl ?_ ?_ ?_
          · unfold eff
            simp only
            rw [hk, pend_early x _ (k := k) (by rw [hph]; simp) (by rw [hph]; simp) (by rw [hph]; simp),
              pend_early x _ (by simp) (by simp) (by simp)]
          · intro k' a _ b; rw [hk] at a; cases a
            exfalso
            rcases b with ⟨j, r, b, _⟩ | ⟨b, _⟩ | ⟨_, _, _, _, _, b⟩
            · rcases ck.quiet (by rw [hph]; rfl) (by rw [hph]; simp) j with c | c <;> rw [b] at c <;> cases c
            · rw [hph] at b; cases b
            · revert b ho; cases k.kind <;> simp [Kind.isRd, Kind.isOnce]
          · intro k' a _ b; rw [hk] at a; cases a
            exfalso
            rcases b.1 with b | b <;> rw [b] at ho <;> cases ho
        · intro k' a
          cases a
          refine ck.late (p := .ack) (by rw [hph]; simp) rfl (fun j _ a => a) (fun j _ _ a => a) (fun j _ a => a) ?_
          simp only [PhaseOk]
          exact .inr (.inr ⟨ho, hnh⟩)
      refine pc_ok h1 (i := k.src) (w := w) (w' := { w with st := .done, got := d }) hp (by rw [ha]; simp) rfl ?_ ?_ ?_
      · intro _
        simp only [hop]
        constructor <;> intro e <;> rw [e] at ho <;> cases ho
      · refine { ix := q.ix, fill := q.fill, ff := q.ff, onceLd := q.onceLd, opf := q.opf, uniqSt := q.uniqSt, stWr := q.stWr, fvic := q.fvic, dense := q.dense, seen := q.seen, com := ?_, comp := by simp, ack := q.ack, line := ?_ }
        · have : k.kind.isWrU = false := by revert ho; cases k.kind <;> simp [Kind.isOnce, Kind.isWrU]
          rw [q.com]; simp [hop, this]
        · unfold LineOk
          simp only [hop]
          revert ho
          cases k.kind <;> simp [Kind.isOnce, hd]
      · intro k' a b
        cases a; cases b
    · have hr : k.kind.isRd = true ∧ d = t.mem k.tag ∧ g.valid = true ∧
          (g.shared = false → ∀ j, j ≠ k.src → ¬ Holds cfg s j k.tag) ∧
          (g.shared = true → ∀ j, j ≠ k.src → Holds cfg s j k.tag → (ln cfg s j k.tag).shared = true) := by
        rcases ph with a | a
        · exact absurd a.1 ho
        · exact a
      obtain ⟨hr, hd, hg, hu1, hu2⟩ := hr
      let l' : Line := { valid := true, tag := k.tag, shared := g.shared, dirty := g.dirty
                         data := t.mem k.tag, be := allBytes }
      have e0 : rxDatCache cfg.num k g d e w (s.cache k.src) =
          some { slot := upd (s.cache k.src).slot (k.tag % cfg.num) l', pc := some { w with st := .done } } := by
        unfold rxDatCache
        rw [if_neg ho, he]
        simp only [hg, if_true, Option.getD_some, htg]
        rw [merge_full _ _ (e := allBytes) (fun _ => rfl), hd]
      rw [e0] at hs
      simp only [Out.next.injEq] at hs
      obtain ⟨rfl, rfl⟩ := hs
      refine ⟨rfl, ?_⟩
      have hinv : (ln cfg s k.src k.tag).valid = false := by
        rw [hop] at l
        revert l hr
        cases k.kind <;> simp [Kind.isRd, ha]
      refine grant_ok h hk hp ha (by rw [hph]; rfl) (by rw [hph]; simp)
        (ca := { slot := upd (s.cache k.src).slot (k.tag % cfg.num) l', pc := some { w with st := .done } })
        rfl rfl rfl rfl rfl rfl rfl ?_ rfl (.inr ⟨rfl, rfl⟩) hu1 hu2 ?_ ?_ ?_
      · intro a; rw [hinv] at a; cases a
      · unfold Kind.alloc; rw [hr]; rfl
      · refine { ix := q.ix, fill := q.fill, ff := q.ff, onceLd := q.onceLd, opf := q.opf, uniqSt := q.uniqSt, stWr := q.stWr, fvic := q.fvic, dense := q.dense, seen := q.seen, com := ?_, comp := by simp, ack := q.ack, line := ?_ }
        · have : k.kind.isWrU = false := by revert hr; cases k.kind <;> simp [Kind.isRd, Kind.isWrU]
          rw [q.com]; simp [hop, this]
        · unfold LineOk
          simp only [hop]
          revert hr
          cases k.kind <;> simp [Kind.isRd]
      · let s' : St := { setCache s k.src { slot := upd (s.cache k.src).slot (k.tag % cfg.num) l', pc := some { w with st := .done } } with cur := some { k with phase := .ack } }
        show Avail cfg s' t k.tag
        have hnew : ln cfg s' k.src k.tag = l' :=
          lnNew (s := s) (ca := { slot := upd (s.cache k.src).slot (k.tag % cfg.num) l', pc := some { w with st := .done } }) rfl rfl rfl
        have hcj : ∀ j, j ≠ k.src → s'.cache j = s.cache j := fun j e => upd_ne _ _ _ e
        cases h.avail k.tag with
        | dirty j a b =>
          have e : j ≠ k.src := by intro e; subst e; rw [holdsLn, hinv] at a; cases a.1
          refine .dirty j ?_ ?_
          · unfold Holds; rw [hcj j e]; exact a
          · unfold ln; rw [hcj j e]; exact b
        | mem a =>
          refine .mem ?_
          rw [← a]
          unfold eff
          rw [hk]
          rw [pend_early k.tag _ (k := k) (by rw [hph]; simp) (by rw [hph]; simp) (by rw [hph]; simp)]
          exact pend_early k.tag _ (by simp) (by simp) (by simp)
        | home k' a _ b =>
          rw [hk] at a; cases a
          rcases b with ⟨j, r, b, _⟩ | ⟨b, _⟩ | ⟨g', d', e', b, c, _⟩
          · rcases ck.quiet (by rw [hph]; rfl) (by rw [hph]; simp) j with c | c <;> rw [b] at c <;> cases c
          · rw [hph] at b; cases b
          · rw [hph] at b; cases b
            exact .dirty k.src (by rw [holdsLn, hnew]; exact ⟨rfl, rfl⟩) (by rw [hnew]; exact c)
        | over k' a _ b =>
          rw [hk] at a; cases a
          rcases b.1 with b | b <;> rw [b] at hr <;> cases hr
        | hot j a =>
          have e : j ≠ k.src := by
            intro e; subst e
            obtain ⟨v, b, c, _⟩ := a
            rw [hp] at b; cases b; rw [ha] at c; cases c
          refine .hot j ?_
          unfold Hot at a ⊢
          rw [hcj j e]; exact a

/-- CompData never lacks what the requester needs. -/
theorem rxDat_noabort {cfg : Cfg} {s : St} {t : Spec} (h : Inv cfg s t) : stepRxDat cfg s ≠ .abort := by
  unfold stepRxDat
  cases hk : s.cur with
  | none => simp
  | some k =>
    have ck := h.cur k hk
    cases hph : k.phase <;> simp only [hph] <;> try simp
    rename_i g d e
    have ph := ck.ph
    simp only [PhaseOk, hph] at ph
    cases hp : (s.cache k.src).pc with
    | none => simp
    | some w =>
      simp only
      unfold rxDatCache
      rw [ph.1]
      cases k.kind.isOnce <;> simp

theorem memRead_ok {cfg : Cfg} {s s' : St} {t : Spec} {es : List Ev} (hlk : cfg.link = true) (h : Inv cfg s t)
    (hcalm : Calm s .memRead) (hs : stepMemRead cfg s = .next s' es) : es = [] ∧ Inv cfg s' t := by
  unfold stepMemRead at hs
  cases hk : s.cur with
  | none => simp [hk] at hs
  | some k =>
    have ck := h.cur k hk
    cases hph : k.phase <;> simp only [hk, hph] at hs <;> try cases hs
    unfold Calm at hcalm
    simp only [hk] at hcalm
    obtain ⟨w, hp, ha, hop, htg⟩ := ck.early (by rw [hph]; rfl)
    have ph := ck.ph
    simp only [PhaseOk, hph] at ph
    obtain ⟨hkd, hgot, hpd, hno⟩ := ph
    have q := h.pcs _ w hp
    have l := q.line
    unfold LineOk at l
    rw [← q.ix, htg] at l
    have hinv : (ln cfg s k.src k.tag).valid = false := by
      rw [hop] at l
      revert l hkd
      cases k.kind <;> simp [Kind.isRd, Kind.isOnce, ha] <;> intro a _ <;> exact a
    have nobody : ∀ j, ¬ Holds cfg s j k.tag := by
      intro j a
      by_cases e : j = k.src
      · subst e; rw [holdsLn, hinv] at a; cases a.1
      · exact hno j e a
    have hnd : ¬ homeDirty k := ck.noDirty (by rw [hph]; simp) (by rw [hph]; simp)
    have hnov : ¬ overwritten k := by
      rintro ⟨a | a, _⟩ <;> rw [a] at hkd <;> rcases hkd with b | b <;> cases b
    have heff : eff s k.tag = s.mem k.tag := by
      unfold eff
      rw [hk, pend_early k.tag _ (k := k) (by rw [hph]; simp) (by rw [hph]; simp) (by rw [hph]; simp)]
      exact foldl_over _ _ hcalm _
    have hV : s.mem k.tag = t.mem k.tag := by
      cases h.avail k.tag with
      | dirty j a => exact absurd a (nobody j)
      | mem a => rw [← a, heff]
      | home k' a _ b => rw [hk] at a; cases a; exact absurd b hnd
      | over k' a _ b => rw [hk] at a; cases a; exact absurd b hnov
      | hot j a => exact absurd (h.hotHolds a).1 (nobody j)
    refine ⟨rfl, home_ok h rfl ?_ ?_ ?_⟩
    · intro i x a _
      left
      rcases (h.filt i x a).2 with f | ⟨k', b, _, _, c, _⟩
      · exact f
      · rw [hk] at b; cases b; rw [hph] at c; cases c
    · intro x
      refine avail_same (h.avail x) rfl ?_ ?_ ?_
      · unfold eff
        simp only
        rw [hk, pend_early x _ (k := k) (by rw [hph]; simp) (by rw [hph]; simp) (by rw [hph]; simp),
          pend_early x _ (by simp) (by simp) (by simp)]
      · intro k' a _ b; rw [hk] at a; cases a; exact absurd b hnd
      · intro k' a _ b; rw [hk] at a; cases a; exact absurd b hnov
    · intro k' a
      have e := (Option.some.inj a).symm
      subst e
      refine (CurOk.same (s := s) ?_ rfl)
      have hq := ck.quiet (by rw [hph]; rfl) (by rw [hph]; simp)
      refine { ck with early := fun _ => ck.early (by rw [hph]; rfl), sn := ?_, dn := fun j a => ⟨(ck.dn j a).hot, (ck.dn j a).inv, (ck.dn j a).share⟩, quiet := fun _ _ => hq, quiet' := fun _ => hq, gotd := by simp, ph := ?_ }
      · intro j r a; rcases hq j with b | b <;> rw [b] at a <;> cases a
      · simp only [PhaseOk, hlk, if_true, true_and]
        rcases hkd with hr | ho
        · refine .inr ⟨hr, hV, ?_, fun _ j _ => nobody j, fun _ j _ a => absurd a (nobody j)⟩
          split <;> rfl
        · refine .inl ⟨ho, ?_⟩
          have e1 := q.fill (by rw [hop]; revert ho; cases k.kind <;> simp [Kind.isOnce, Kind.isFill, Kind.isCb])
          have s1 := q.seen
          rw [← e1, htg, ← hV] at s1
          exact s1

end Verif.ChiCoh
