import Verif.ChiCoh.Local

/-!
# Steps of the home node and the slave node keep the invariant
-/

namespace Verif.ChiCoh

/-- A step that leaves the caches and the abstract memory alone. -/
theorem home_ok {cfg : Cfg} {s s' : St} {t : Spec} (h : Inv cfg s t) (hc : s'.cache = s.cache)
    (filt : ∀ i x, Holds cfg s i x → i < cfg.n → (s'.filt i x = true ∨
      ∃ k, s'.cur = some k ∧ k.src = i ∧ k.tag = x ∧ k.phase = .ack ∧ k.kind.alloc = true))
    (avail : ∀ x, Avail cfg s' t x) (cur : ∀ k, s'.cur = some k → CurOk cfg s' t k) : Inv cfg s' t := by
  cases s'
  cases hc
  exact { act := h.act, pcn := h.pcn, pcs := h.pcs, ixs := h.ixs, copy := h.copy, uniq := h.uniq
          filt := fun i x a => ⟨(h.filt i x a).1, filt i x a (h.filt i x a).1⟩, avail, cur }

/-- The caches unchanged, the request being served keeps its facts. -/
theorem CurOk.same {cfg : Cfg} {s s' : St} {t : Spec} {k : Cur} (h : CurOk cfg s t k)
    (hc : s'.cache = s.cache) : CurOk cfg s' t k := by
  have hl : ∀ j x, ln cfg s' j x = ln cfg s j x := by intro j x; simp only [ln, hc]
  have hh : ∀ j x, Holds cfg s' j x ↔ Holds cfg s j x := by intro j x; unfold Holds; rw [hc]
  have ho : ∀ j x, Hot s' j x ↔ Hot s j x := by intro j x; unfold Hot; rw [hc]
  refine h.mono (fun j a => (hh _ _).1 a) (fun j _ => by rw [hl]) (fun j a => (ho _ _).1 a)
    (fun _ => by rw [hc]) (fun _ => rfl) ?_ (fun _ v a => a)
  intro j r a b
  obtain ⟨x, y, z, _⟩ := (h.sn j r a).data b
  rw [hl]; exact ⟨x, y, z⟩

/-- What an invariant state says about a line when its request does not move it. -/
theorem avail_same {cfg : Cfg} {s s' : St} {t : Spec} {x : Nat} (h : Avail cfg s t x)
    (hc : s'.cache = s.cache) (he : eff s' x = eff s x)
    (hh : ∀ k, s.cur = some k → k.tag = x → homeDirty k → Avail cfg s' t x)
    (ho : ∀ k, s.cur = some k → k.tag = x → overwritten k → Avail cfg s' t x) : Avail cfg s' t x := by
  have hl : ∀ j x, ln cfg s' j x = ln cfg s j x := by intro j x; simp only [ln, hc]
  have hHo : ∀ j x, Holds cfg s' j x ↔ Holds cfg s j x := by intro j x; unfold Holds; rw [hc]
  have hHt : ∀ j x, Hot s' j x ↔ Hot s j x := by intro j x; unfold Hot; rw [hc]
  cases h with
  | dirty i h d => exact .dirty i ((hHo _ _).2 h) (by rw [hl]; exact d)
  | mem h => exact .mem (by rw [he]; exact h)
  | home k hk ht h => exact hh k hk ht h
  | over k hk ht h => exact ho k hk ht h
  | hot i h => exact .hot i ((hHt _ _).2 h)

/-- Outside the phases that carry dirty data there is none at the home node. -/
theorem CurOk.noDirty {cfg : Cfg} {s : St} {t : Spec} {k : Cur} (h : CurOk cfg s t k)
    (hp : k.phase ≠ .snoop) (hd : ∀ g d e, k.phase ≠ .dat g d e) : ¬ homeDirty k := by
  rintro (⟨j, r, a, _⟩ | ⟨a, _⟩ | ⟨g, d, e, a, _⟩)
  · cases e : k.phase.early
    · rcases h.quiet' e j with b | b <;> rw [a] at b <;> cases b
    · rcases h.quiet e hp j with b | b <;> rw [a] at b <;> cases b
  · exact hp a
  · exact hd g d e a

theorem pend_ne (cur : Option Cur) (x : Nat) (d : Data) (h : ∀ k, cur = some k → k.tag ≠ x) : pend cur x d = d := by
  unfold pend
  cases cur with
  | none => rfl
  | some k => simp only [if_neg (h k rfl)]

theorem memWrite_ok {cfg : Cfg} {s s' : St} {t : Spec} {es : List Ev} (h : Inv cfg s t)
    (hs : stepMemWrite s = .next s' es) : es = [] ∧ Inv cfg s' t := by
  unfold stepMemWrite at hs
  cases hp : s.posted with
  | nil => simp [hp] at hs
  | cons p ps =>
    obtain ⟨tg, d, e⟩ := p
    simp only [hp, Out.next.injEq] at hs
    obtain ⟨rfl, rfl⟩ := hs
    refine ⟨rfl, home_ok h rfl (fun i x a _ => (h.filt i x a).2) ?_ (fun k hk => (h.cur k hk).same rfl)⟩
    intro x
    refine (h.avail x).mono rfl ?_ (fun i a b => ⟨a, b⟩) rfl (fun i a => a)
    unfold eff
    simp only [hp, List.foldl_cons]
    congr 2
    unfold over upd
    by_cases e : tg = x
    · subst e; simp
    · rw [if_neg e, if_neg (fun a => e a.symm)]

theorem ack_ok {cfg : Cfg} {s s' : St} {t : Spec} {es : List Ev} (h : Inv cfg s t)
    (hs : stepAck s = .next s' es) : es = [] ∧ Inv cfg s' t := by
  unfold stepAck at hs
  cases hk : s.cur with
  | none => simp [hk] at hs
  | some k =>
    simp only [hk] at hs
    have ck := h.cur k hk
    cases hp : k.phase <;> simp only [hp] at hs <;> try cases hs
    have ph := ck.ph
    simp only [PhaseOk, hp] at ph
    refine ⟨rfl, home_ok h rfl ?_ ?_ (by intro k' e; cases e)⟩
    · intro i x a _
      left
      have f := (h.filt i x a).2
      have f' : k.kind.alloc = false → s.filt i x = true := by
        intro e
        rcases f with f | ⟨k', b, _, _, _, c⟩
        · exact f
        · rw [hk] at b; cases b; rw [e] at c; cases c
      show (if k.kind.isWrU then s.filt else filtEnd k.kind s.filt k.src k.tag) i x = true
      by_cases hw : k.kind.isWrU = true
      · rw [if_pos hw]
        exact f' (by revert hw; cases k.kind <;> simp [Kind.isWrU, Kind.alloc, Kind.isRd])
      · rw [if_neg hw]
        unfold filtEnd
        by_cases ha : k.kind.alloc = true
        · have ha' : (k.kind.isRd || decide (k.kind = .cleanUnique) || decide (k.kind = .makeUnique)) = true := ha
          rw [if_pos ha']
          unfold updFilt upd
          by_cases e1 : i = k.src
          · rw [if_pos e1]
            by_cases e2 : x = k.tag
            · rw [if_pos e2]
            · rw [if_neg e2]
              rcases f with f | ⟨k', b, c, d, _⟩
              · rw [← e1]; exact f
              · rw [hk] at b; cases b; exact absurd d.symm e2
          · rw [if_neg e1]
            rcases f with f | ⟨k', b, c, d, _⟩
            · exact f
            · rw [hk] at b; cases b; exact absurd c.symm e1
        · have ha' : ¬ (k.kind.isRd || decide (k.kind = .cleanUnique) || decide (k.kind = .makeUnique)) = true := ha
          rw [if_neg ha']
          have f2 := f' (by cases e : k.kind.alloc <;> simp_all)
          split
          · exact f2
          · rcases ph with ph | ph | ph
            · exact absurd ph ha
            · exact absurd ph hw
            · unfold updFilt upd
              by_cases e1 : i = k.src
              · rw [if_pos e1]
                by_cases e2 : x = k.tag
                · subst e1; subst e2; exact absurd a ph.2
                · rw [if_neg e2, ← e1]; exact f2
              · rw [if_neg e1]; exact f2
    · intro x
      refine avail_same (h.avail x) rfl ?_ ?_ ?_
      · simp only [eff, pend, hk, hp]; split <;> rfl
      · intro k' a _ b; rw [hk] at a; cases a
        exact absurd b (ck.noDirty (by rw [hp]; simp) (by rw [hp]; simp))
      · intro k' a _ b; rw [hk] at a; cases a
        have := b.2; rw [hp] at this; cases this

/-- The answer is given; what is left to say depends on the phase alone. -/
theorem CurOk.late {cfg : Cfg} {s s' : St} {t t' : Spec} {k : Cur} {p : Phase} (h : CurOk cfg s t k)
    (hp : k.phase ≠ .snoop) (he : p.early = false)
    (hH : ∀ j, j ≠ k.src → Holds cfg s' j k.tag → Holds cfg s j k.tag)
    (hS : ∀ j, j ≠ k.src → Holds cfg s' j k.tag → (ln cfg s j k.tag).shared = true →
      (ln cfg s' j k.tag).shared = true)
    (hot : ∀ j, j ≠ k.src → Hot s' j k.tag → Hot s j k.tag)
    (ph : PhaseOk cfg s' t' { k with phase := p }) : CurOk cfg s' t' { k with phase := p } := by
  have q : ∀ j, k.snp j = .off ∨ k.snp j = .done := by
    intro j
    cases e : k.phase.early
    · exact h.quiet' e j
    · exact h.quiet e hp j
  have ns : ∀ j, k.snp j = .done → j ≠ k.src := by
    intro j a e; rw [e, h.srcOff] at a; cases a
  refine { srcn := h.srcn, fwd := h.fwd, srcOff := h.srcOff, out := h.out, early := ?_, noEv := h.noEv, exp := h.exp, cover := ?_, sn := ?_, dn := ?_, quiet := fun _ _ => q, quiet' := fun _ => q, noSnp := h.noSnp, pdgot := h.pdgot, pdOnce := h.pdOnce, ptl := h.ptl, gotd := ?_, nogot := ?_, nosh := ?_, ph := ph }
  · intro a; rw [he] at a; cases a
  · intro a j b c; exact h.cover a j b (hH j b c)
  · intro j r a
    rcases q j with b | b <;> rw [b] at a <;> cases a
  · intro j a
    have d := h.dn j a
    have n := ns j a
    exact ⟨fun x => d.hot (hot j n x), fun op b c e => d.inv op b c (hH j n e),
      fun b c => hS j n c (d.share b (hH j n c))⟩
  · rintro (a | a)
    · have a' : p = .snoop := a
      rw [a'] at he; cases he
    · have a' : p = .wrDirty := a
      rw [a'] at he; cases he
  · intro a j b c; exact h.nogot a j b (hH j (ns j b) c)
  · intro a j b c; exact h.nosh a j b (hH j (ns j b) c)

theorem wrDat_ok {cfg : Cfg} {s s' : St} {t : Spec} {es : List Ev} (h : Inv cfg s t)
    (hs : stepWrDat s = .next s' es) : es = [] ∧ Inv cfg s' t := by
  unfold stepWrDat at hs
  cases hk : s.cur with
  | none => simp [hk] at hs
  | some k =>
    simp only [hk] at hs
    have ck := h.cur k hk
    cases hp : k.phase <;> simp only [hp] at hs <;> try cases hs
    rename_i pd d e
    have ph := ck.ph
    simp only [PhaseOk, hp] at ph
    refine ⟨rfl, home_ok h rfl ?_ ?_ ?_⟩
    · intro i x a _
      left
      have f : s.filt i x = true := by
        rcases (h.filt i x a).2 with f | ⟨k', b, _, _, c, _⟩
        · exact f
        · rw [hk] at b; cases b; rw [hp] at c; cases c
      show (if k.kind.isWrU then s.filt else filtEnd k.kind s.filt k.src k.tag) i x = true
      by_cases hw : k.kind.isWrU = true
      · rw [if_pos hw]; exact f
      · rw [if_neg hw]
        have hcb : k.kind.isCb = true := by rcases ph.1 with a | a; exact a; exact absurd a hw
        unfold filtEnd
        rw [if_neg (by revert hcb; cases k.kind <;> simp [Kind.isCb, Kind.isRd])]
        by_cases hc : k.kind = .writeClean
        · rw [if_pos hc]; exact f
        · rw [if_neg hc]
          unfold updFilt upd
          by_cases e1 : i = k.src
          · rw [if_pos e1]
            by_cases e2 : x = k.tag
            · subst e1; subst e2; exact absurd a (ph.2.2 hcb hc)
            · rw [if_neg e2, ← e1]; exact f
          · rw [if_neg e1]; exact f
    · intro x
      refine avail_same (h.avail x) rfl ?_ ?_ ?_
      · simp only [eff, pend, hk, hp]
        cases pd
        · simp
        · rfl
      · intro k' a _ b; rw [hk] at a; cases a
        exact absurd b (ck.noDirty (by rw [hp]; simp) (by rw [hp]; simp))
      · intro k' a _ b; rw [hk] at a; cases a
        have := b.2; rw [hp] at this; cases this
    · intro k' hk'
      cases pd
      · cases hk'
      · cases hk'
        refine ck.late (by rw [hp]; simp) rfl (fun j _ a => a) (fun j _ _ a => a) (fun j _ a => a) ?_
        simp only [PhaseOk]; exact ph.1

theorem foldl_over (x : Nat) (ps : List (Nat × Data × Be)) (h : ∀ p ∈ ps, p.1 ≠ x) :
    ∀ d, ps.foldl (over x) d = d := by
  induction ps with
  | nil => intro d; rfl
  | cons p ps ih =>
    intro d
    rw [List.foldl_cons]
    have : over x d p = d := by unfold over; rw [if_neg (h p List.mem_cons_self)]
    rw [this]
    exact ih (fun q hq => h q (List.mem_cons_of_mem _ hq)) d

theorem snWr_ok {cfg : Cfg} {s s' : St} {t : Spec} {es : List Ev} (h : Inv cfg s t)
    (hs : stepSnWr s = .next s' es) : es = [] ∧ Inv cfg s' t := by
  unfold stepSnWr at hs
  cases hk : s.cur with
  | none => simp [hk] at hs
  | some k =>
    simp only [hk] at hs
    have ck := h.cur k hk
    cases hp : k.phase <;> simp only [hp] at hs <;> try cases hs
    rename_i d e
    have ph := ck.ph
    simp only [PhaseOk, hp] at ph
    refine ⟨rfl, home_ok h rfl ?_ ?_ ?_⟩
    · intro i x a _
      left
      rcases (h.filt i x a).2 with f | ⟨k', b, _, _, c, _⟩
      · exact f
      · rw [hk] at b; cases b; rw [hp] at c; cases c
    · intro x
      refine avail_same (h.avail x) rfl ?_ ?_ ?_
      · simp only [eff, pend, hk, hp, List.foldl_append, List.foldl_cons, List.foldl_nil, over]
        by_cases e1 : k.tag = x
        · cases k.exp <;> simp [e1]
        · cases k.exp <;> simp [e1]
      · intro k' a _ b; rw [hk] at a; cases a
        exact absurd b (ck.noDirty (by rw [hp]; simp) (by rw [hp]; simp))
      · intro k' a _ b; rw [hk] at a; cases a
        have := b.2; rw [hp] at this; cases this
    · intro k' hk'
      have hk2 : (if k.exp = true then some { k with phase := .ack } else none) = some k' := hk'
      by_cases hx : k.exp = true
      · rw [if_pos hx] at hk2
        obtain rfl := Option.some.inj hk2
        refine ck.late (p := .ack) (by rw [hp]; simp) rfl (fun j _ a => a) (fun j _ _ a => a) (fun j _ a => a) ?_
        simp only [PhaseOk]; exact .inr (.inl (ck.exp hx))
      · rw [if_neg hx] at hk2; cases hk2

/-! ## After the snoops -/

/-- Nobody but the requester holds the line when no response had data. -/
theorem CurOk.noneHolds {cfg : Cfg} {s : St} {t : Spec} {k : Cur} (h : CurOk cfg s t k)
    (hq : ∀ j, k.snp j = .off ∨ k.snp j = .done) (hg : k.got = false)
    (ho : (snpOp false k.kind).isSome = true) : ∀ j, j ≠ k.src → ¬ Holds cfg s j k.tag := by
  intro j hj hh
  rcases hq j with a | a
  · exact h.cover ho j hj hh a
  · exact h.nogot hg j a hh

theorem snpSome {k : Kind} (h : k.isRd = true ∨ k.isOnce = true) : (snpOp false k).isSome = true := by
  rcases h with h | h <;> revert h <;> cases k <;> simp [Kind.isRd, Kind.isOnce, snpOp]

theorem CurOk.phase {cfg : Cfg} {s : St} {t : Spec} {k : Cur} {p : Phase} (h : CurOk cfg s t k)
    (hp : k.phase = .snoop)
    (hq : ∀ j, k.snp j = .off ∨ k.snp j = .done)
    (ph : PhaseOk cfg s t { k with phase := p }) : CurOk cfg s t { k with phase := p } := by
  have e0 : k.phase.early = true := by rw [hp]; rfl
  refine { h with early := fun _ => h.early e0, sn := ?_, dn := fun j a => ⟨(h.dn j a).hot, (h.dn j a).inv, (h.dn j a).share⟩, quiet := fun _ _ => hq, quiet' := fun _ => hq, gotd := fun _ => h.gotd (.inl hp), ph := ph }
  intro j r a; rcases hq j with b | b <;> rw [b] at a <;> cases a

theorem procReq_ok {cfg : Cfg} {s : St} {t : Spec} {k : Cur} (h : CurOk cfg s t k)
    (hp : k.phase = .snoop) (hg : k.got = false)
    (hq : ∀ j, k.snp j = .off ∨ k.snp j = .done) : CurOk cfg s t (procReq k) := by
  unfold procReq
  by_cases h1 : (k.kind.isRd || k.kind.isOnce) = true
  · rw [if_pos h1]
    refine h.phase hp hq ?_
    simp only [PhaseOk]
    have h1' : k.kind.isRd = true ∨ k.kind.isOnce = true := by
      rwa [Bool.or_eq_true] at h1
    refine ⟨h1', hg, ?_, h.noneHolds hq hg (snpSome h1')⟩
    cases e : k.pd
    · rfl
    · have := h.pdgot e; rw [hg] at this; cases this
  · rw [if_neg h1]
    by_cases h2 : (k.kind.isCb || k.kind.isWrU) = true
    · rw [if_pos h2]
      refine h.phase hp hq ?_
      simp only [PhaseOk]
      rwa [Bool.or_eq_true] at h2
    · rw [if_neg h2]
      refine h.phase hp hq ?_
      simp only [PhaseOk]
      have := h.noEv
      revert h1 h2 this
      cases k.kind <;> simp [Kind.isRd, Kind.isOnce, Kind.isCb, Kind.isWrU]

theorem procSnpd_ok {cfg : Cfg} {s : St} {t : Spec} {k : Cur} (h : CurOk cfg s t k)
    (hp : k.phase = .snoop)
    (hq : ∀ j, k.snp j = .off ∨ k.snp j = .done) : CurOk cfg s t (procSnpd k) := by
  unfold procSnpd
  by_cases h1 : (k.got && k.pd && !((decide (k.kind = .readShared) || decide (k.kind = .readUnique)) && !k.ptl)) = true
  · rw [if_pos h1]
    refine h.phase hp hq ?_
    simp only [PhaseOk]
    simp only [Bool.and_eq_true] at h1
    exact ⟨h1.1.1, h1.1.2⟩
  · rw [if_neg h1]
    by_cases h2 : (k.got && (k.kind.isRd || k.kind.isOnce) && !k.ptl) = true
    · rw [if_pos h2]
      simp only [Bool.and_eq_true, Bool.or_eq_true] at h2
      refine h.phase hp hq ?_
      simp only [PhaseOk]
      obtain ⟨g1, g2, g3⟩ := h.gotd (.inl hp) h2.1.1
      refine ⟨by rw [g1], ?_⟩
      have hs := snpSome h2.1.2
      have cov : ∀ j, j ≠ k.src → Holds cfg s j k.tag → k.snp j = .done := by
        intro j a b
        rcases hq j with c | c
        · exact absurd c (h.cover hs j a b)
        · exact c
      by_cases ho : k.kind.isOnce = true
      · exact .inl ⟨ho, g3 ho⟩
      · have hr : k.kind.isRd = true := by rcases h2.1.2 with a | a; exact a; exact absurd a ho
        have gr : k.grant = ⟨true, k.shared, k.pd⟩ := by unfold Cur.grant; rw [if_neg ho]
        rw [gr]
        refine .inr ⟨hr, (g2 (by intro e; rw [e] at hr; cases hr)).1, rfl, ?_, ?_⟩
        · intro a j b c
          exact h.nosh a j (cov j b c) c
        · intro _ j b c
          exact (g2 (by intro e; rw [e] at hr; cases hr)).2 j c
    · rw [if_neg h2]
      have e : CurOk cfg s t { k with got := false } := by
        have key : k.got = true → k.pd = false ∧ ∀ j, k.snp j = .done → ¬ Holds cfg s j k.tag := by
          intro hg
          rw [hg, h.ptl] at h1 h2
          have nro : ¬ (k.kind.isRd = true ∨ k.kind.isOnce = true) := by
            intro a; apply h2; simpa using a
          constructor
          · cases hpd : k.pd
            · rfl
            · exfalso
              apply h1
              rw [hpd]
              revert nro
              cases k.kind <;> simp [Kind.isRd]
          · intro j a b
            have d := h.dn j a
            have ns := h.noSnp
            have : ∃ op, snpOp false k.kind = some op ∧ invalidating op = true := by
              cases hop : snpOp false k.kind with
              | none =>
                rw [hop] at ns
                have := ns rfl j
                rw [this] at a; cases a
              | some op =>
                refine ⟨op, rfl, ?_⟩
                revert hop nro
                cases k.kind <;> simp [snpOp, Kind.isRd, Kind.isOnce] <;> rintro rfl <;> rfl
            obtain ⟨op, e1, e2⟩ := this
            exact d.inv op e1 e2 b
        refine { h with dn := fun j a => ⟨(h.dn j a).hot, (h.dn j a).inv, (h.dn j a).share⟩, sn := ?_, pdgot := ?_, gotd := ?_, nogot := ?_, ph := ?_ }
        · intro j r a; rcases hq j with b | b <;> rw [b] at a <;> cases a
        · intro a
          cases hg : k.got
          · have := h.pdgot a; rw [hg] at this; cases this
          · rw [(key hg).1] at a; cases a
        · intro _ a; cases a
        · intro _
          cases hg : k.got
          · exact h.nogot hg
          · exact (key hg).2
        · simp only [PhaseOk, hp]
      exact procReq_ok e hp rfl hq

theorem procReq_early (k : Cur) : (procReq k).phase.early = true := by
  unfold procReq
  split
  · rfl
  · split <;> rfl

theorem procSnpd_early (k : Cur) : (procSnpd k).phase.early = true := by
  unfold procSnpd
  split
  · rfl
  · split
    · rfl
    · exact procReq_early _

theorem procReq_fix (k : Cur) : (procReq k).tag = k.tag ∧ (procReq k).kind = k.kind ∧
    (procReq k).phase ≠ .wrDirty ∧ (procReq k).phase ≠ .snoop ∧
    (∀ p d e, (procReq k).phase ≠ .wr p d e) ∧ (∀ d e, (procReq k).phase ≠ .wrMem d e) := by
  unfold procReq
  split
  · simp
  · split <;> simp

theorem procSnpd_fix (k : Cur) : (procSnpd k).tag = k.tag ∧ (procSnpd k).kind = k.kind ∧
    (∀ p d e, (procSnpd k).phase ≠ .wr p d e) ∧ (∀ d e, (procSnpd k).phase ≠ .wrMem d e) ∧
    ((procSnpd k).phase = .wrDirty → (procSnpd k).be = k.be ∧ (procSnpd k).data = k.data ∧ k.got = true ∧ k.pd = true) := by
  unfold procSnpd
  split
  · rename_i h
    simp only [Bool.and_eq_true] at h
    simp [h]
  · split
    · simp
    · have := procReq_fix { k with got := false }
      exact ⟨this.1, this.2.1, this.2.2.2.2.1, this.2.2.2.2.2, fun a => absurd a this.2.2.1⟩

theorem pend_early {k : Cur} (x : Nat) (d : Data) (h1 : ∀ p d e, k.phase ≠ .wr p d e)
    (h2 : ∀ d e, k.phase ≠ .wrMem d e) (h3 : k.phase ≠ .wrDirty) : pend (some k) x d = d := by
  unfold pend
  simp only
  split
  · split
    · rename_i a; exact absurd a h3
    · rename_i a; exact absurd a (h1 _ _ _)
    · rename_i a; exact absurd a (h2 _ _)
    · rfl
  · rfl

theorem snAck_ok {cfg : Cfg} {s s' : St} {t : Spec} {es : List Ev} (h : Inv cfg s t)
    (hs : stepSnAck s = .next s' es) : es = [] ∧ Inv cfg s' t := by
  unfold stepSnAck at hs
  cases hk : s.cur with
  | none => simp [hk] at hs
  | some k =>
    simp only [hk] at hs
    have ck := h.cur k hk
    cases hp : k.phase <;> simp only [hp] at hs <;> try cases hs
    have hq : ∀ j, k.snp j = .off ∨ k.snp j = .done :=
      ck.quiet (by rw [hp]; rfl) (by rw [hp]; simp)
    have ck' : CurOk cfg s t { k with pd := false, phase := .snoop } := by
      refine { ck with early := fun _ => ck.early (by rw [hp]; rfl), dn := fun j a => ⟨(ck.dn j a).hot, (ck.dn j a).inv, (ck.dn j a).share⟩, sn := ?_, quiet := fun _ _ => hq, quiet' := fun _ => hq, pdgot := ?_, pdOnce := fun _ => rfl, gotd := ?_, ph := trivial }
      · intro j r a; rcases hq j with b | b <;> rw [b] at a <;> cases a
      · intro a; cases a
      · intro _; exact ck.gotd (.inr hp)
    have e1 : procSnpd { k with pd := false, phase := .wrDirty } = procSnpd { k with pd := false, phase := .snoop } := by
      unfold procSnpd procReq; rfl
    have fx := procSnpd_fix { k with pd := false, phase := .snoop }
    refine ⟨rfl, home_ok h rfl ?_ ?_ ?_⟩
    · intro i x a _
      left
      rcases (h.filt i x a).2 with f | ⟨k', b, _, _, c, _⟩
      · exact f
      · rw [hk] at b; cases b; rw [hp] at c; cases c
    · intro x
      rw [e1]
      refine avail_same (h.avail x) rfl ?_ ?_ ?_
      · unfold eff
        simp only
        rw [pend_early x _ fx.2.2.1 fx.2.2.2.1 (fun a => by have := (fx.2.2.2.2 a).2.2.2; cases this)]
        simp only [pend, hk, hp, List.foldl_append, List.foldl_cons, List.foldl_nil, over]
      · intro k' a _ b; rw [hk] at a; cases a
        exact absurd b (ck.noDirty (by rw [hp]; simp) (by rw [hp]; simp))
      · intro k' a b c; rw [hk] at a; cases a
        refine .over _ rfl (by rw [fx.1]; exact b) ⟨?_, procSnpd_early _⟩
        rw [fx.2.1]; exact c.1
    · intro k' hk'
      cases hk'
      rw [e1]
      exact (procSnpd_ok ck' rfl hq).same rfl

end Verif.ChiCoh
