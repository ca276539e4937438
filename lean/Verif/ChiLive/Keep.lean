import Verif.ChiLive.Step

/-! # Every step keeps the structure -/

namespace Verif.ChiLive

open Verif.ChiCoh

theorem wf_init (cfg : Cfg) (m : Nat → Data) : WF cfg (init m) :=
  have h1 : ∀ i w, ((init m).cache i).pc = some w → False := fun i w h => by
    have h : (none : Option Wait) = some w := h
    cases h
  have h2 : ∀ k, (init m).cur = some k → False := fun k h => by
    have h : (none : Option Cur) = some k := h
    cases h
  ⟨fun i w h => (h1 i w h).elim, fun k h => (h2 k h).elim, fun k h => (h2 k h).elim, fun i w h => (h1 i w h).elim⟩

theorem cache_set (s : St) (i : Nat) (ca : Cache) : (setCache s i ca).cache i = ca := upd_same _ _ _
theorem cache_set_ne (s : St) {i j : Nat} (ca : Cache) (h : j ≠ i) : (setCache s i ca).cache j = s.cache j :=
  upd_ne _ _ _ h

/-- The CPU side of an idle or completed cache runs. -/
theorem wf_cpu {cfg : Cfg} {s : St} (h : WF cfg s) {i : Nat} {c : Chunk} {p : Cache × List Ev}
    (ha : ∀ w, (s.cache i).pc = some w → w.st ≠ .active) (ht : Turned i c p) : WF cfg (setCache s i p.1) := by
  refine ⟨?_, h.k, ?_, ?_⟩
  · intro j w hw
    by_cases e : j = i
    · subst e
      rw [cache_set] at hw
      rcases ht with ⟨t, _⟩ | ⟨w', t1, t2⟩
      · rw [t] at hw; cases hw
      · rw [t1] at hw; injection hw with hw; subst hw; exact t2.ok
    · rw [cache_set_ne _ _ e] at hw; exact h.w j w hw
  · intro k hk he
    obtain ⟨w, w1, w2⟩ := h.early k hk he
    by_cases e : k.src = i
    · rw [e] at w1; exact absurd w2.1 (ha w w1)
    · rw [cache_set_ne _ _ e]; exact ⟨w, w1, w2⟩
  · intro j w hw hs
    by_cases e : j = i
    · subst e
      rw [cache_set] at hw
      rcases ht with ⟨t, _⟩ | ⟨w', t1, t2⟩
      · rw [t] at hw; cases hw
      · rw [t1] at hw; injection hw with hw; subst hw; rw [t2.st] at hs; cases hs
    · rw [cache_set_ne _ _ e] at hw; exact h.act j w hw hs

/-- The request being served moves on and its requester still waits. -/
theorem wf_move {cfg : Cfg} {s s' : St} (h : WF cfg s) {k k' : Cur} (hc : s.cur = some k)
    (he : k.phase.early = true) (hp : ∀ j, (s'.cache j).pc = (s.cache j).pc) (hc' : s'.cur = some k')
    (hk : COk cfg k') (he' : k'.phase.early = true) (e1 : k'.src = k.src) (e2 : k'.kind = k.kind)
    (e3 : k'.tag = k.tag) : WF cfg s' := by
  refine ⟨fun i w hw => h.w i w (by rw [← hp]; exact hw), ?_, ?_, ?_⟩
  · intro k2 h2; rw [hc'] at h2; injection h2 with h2; subst h2; exact hk
  · intro k2 h2 _
    rw [hc'] at h2; injection h2 with h2; subst h2
    rw [hp, e1, e2, e3]
    exact h.early k hc he
  · intro i w hw hs
    rw [hp] at hw
    obtain ⟨k3, a, b, c⟩ := h.act i w hw hs
    rw [hc] at a; injection a with a; subst a
    exact ⟨k', hc', e1.trans b, he'⟩

/-- The request being served, already answered, moves on or ends. -/
theorem wf_late {cfg : Cfg} {s s' : St} (h : WF cfg s) {k : Cur} (hc : s.cur = some k)
    (he : k.phase.early = false) (hp : ∀ j, (s'.cache j).pc = (s.cache j).pc)
    (hk : ∀ k', s'.cur = some k' → COk cfg k' ∧ k'.phase.early = false) : WF cfg s' := by
  refine ⟨fun i w hw => h.w i w (by rw [← hp]; exact hw), fun k' h' => (hk k' h').1, ?_, ?_⟩
  · intro k' h' e; rw [(hk k' h').2] at e; cases e
  · intro i w hw hs
    rw [hp] at hw
    obtain ⟨k3, a, _, c⟩ := h.act i w hw hs
    rw [hc] at a; injection a with a; subst a
    rw [he] at c; cases c

/-- The requester gets its answer. -/
theorem wf_answer {cfg : Cfg} {s s' : St} (h : WF cfg s) {k k' : Cur} (hc : s.cur = some k)
    {w w' : Wait} (hw : (s.cache k.src).pc = some w)
    (hs : s'.cache = upd s.cache k.src (s'.cache k.src)) (hw' : (s'.cache k.src).pc = some w')
    (ec : w'.c = w.c) (ef : w'.f = w.f) (eo : w'.op = w.op) (et : w'.tag = w.tag) (est : w'.st = .done)
    (hc' : s'.cur = some k') (hk : COk cfg k') (he' : k'.phase.early = false) : WF cfg s' := by
  have hne : ∀ j, j ≠ k.src → s'.cache j = s.cache j := by
    intro j hj; rw [hs, upd_ne _ _ _ hj]
  refine ⟨?_, ?_, ?_, ?_⟩
  · intro j x hx
    by_cases e : j = k.src
    · rw [e, hw'] at hx
      injection hx with hx
      subst hx
      have := h.w _ _ hw
      refine ⟨by rw [ec, ef]; exact this.f, by rw [ec, ef, eo, et]; exact this.op, ?_, ?_⟩
      · rw [est]; nofun
      · rw [est]; nofun
    · rw [hne j e] at hx; exact h.w j x hx
  · intro k2 h2; rw [hc'] at h2; injection h2 with h2; subst h2; exact hk
  · intro k2 h2 e; rw [hc'] at h2; injection h2 with h2; subst h2; rw [he'] at e; cases e
  · intro j x hx hst
    by_cases e : j = k.src
    · rw [e, hw'] at hx
      injection hx with hx
      subst hx
      rw [est] at hst; cases hst
    · rw [hne j e] at hx
      obtain ⟨k3, a, b, _⟩ := h.act j x hx hst
      rw [hc] at a; injection a with a; subst a
      exact absurd b.symm e

/-- A request in a late phase. -/
theorem cok_late {cfg : Cfg} {k : Cur} (h : COk cfg k) (hc : ∀ j, k.snp j = .off ∨ k.snp j = .done) {p : Phase}
    (hp : p.early = false) : COk cfg { k with phase := p } := by
  refine ⟨h.noEv, h.srcOff, h.lt, h.snpSome, ?_, fun _ => hc, h.uniq, ?_, ?_⟩
  · intro e; have e : p = .snoop := e; rw [e] at hp; cases hp
  · intro j r hr; have := h.resp j r hr; exact ⟨this.uniq, this.fwdK, this.fwdG⟩
  · show POk { k with phase := p }
    unfold POk
    cases p <;> first | trivial | cases hp

theorem wf_pick {cfg : Cfg} {s s' : St} {es : List Ev} (h : WF cfg s) {i : Nat}
    (hs : stepPick cfg s i = .next s' es) : WF cfg s' := by
  unfold stepPick at hs
  cases hc : s.cur with
  | some k => rw [hc] at hs; cases hs
  | none =>
    rw [hc] at hs
    cases hw : (s.cache i).pc with
    | none => rw [hw] at hs; cases hs
    | some w =>
      rw [hw] at hs
      simp only at hs
      have W := h.w i w hw
      by_cases e : w.st = .issued
      · rw [if_pos e] at hs
        by_cases ev : w.op = .evict
        · rw [if_pos ev] at hs
          injection hs with hs _
          subst hs
          have hpc : ((setCache s i (setSt (s.cache i) .comp)).cache i).pc = some { w with st := .comp } := by
            rw [cache_set]; simp [setSt, hw]
          refine ⟨?_, ?_, ?_, ?_⟩
          · intro j x hx
            by_cases ej : j = i
            · rw [ej] at hx
              have hx := hpc.symm.trans hx
              injection hx with hx
              subst hx
              exact ⟨W.f, W.op, fun _ => ev, nofun⟩
            · exact h.w j x ((congrArg Cache.pc (cache_set_ne s _ ej)).symm.trans hx)
          · intro k hk; exact absurd (hc.symm.trans hk) nofun
          · intro k hk; exact absurd (hc.symm.trans hk) nofun
          · intro j x hx hst
            by_cases ej : j = i
            · rw [ej] at hx
              have hx := hpc.symm.trans hx
              injection hx with hx
              subst hx
              cases hst
            · exact h.act j x ((congrArg Cache.pc (cache_set_ne s _ ej)).symm.trans hx) hst
        · rw [if_neg ev] at hs
          injection hs with hs _
          subst hs
          have hpc : ((setCache s i (setSt (s.cache i) .active)).cache i).pc = some { w with st := .active } := by
            rw [cache_set]; simp [setSt, hw]
          obtain ⟨n1, n2, n3, n4, n5⟩ := newCur_ok (cfg := cfg) (s := s) (i := i) (w := w) ev
          refine ⟨?_, ?_, ?_, ?_⟩
          · intro j x hx
            by_cases ej : j = i
            · rw [ej] at hx
              have hx := hpc.symm.trans hx
              injection hx with hx
              subst hx
              exact ⟨W.f, W.op, nofun, fun _ => ev⟩
            · exact h.w j x ((congrArg Cache.pc (cache_set_ne s _ ej)).symm.trans hx)
          · intro k hk; injection hk with hk; subst hk; exact n1
          · intro k hk _
            injection hk with hk
            subst hk
            refine ⟨{ w with st := .active }, ?_, rfl, n4.symm, n5.symm⟩
            rw [n3]; exact hpc
          · intro j x hx hst
            by_cases ej : j = i
            · exact ⟨_, rfl, n3.trans ej.symm, n2⟩
            · obtain ⟨k, a, _⟩ := h.act j x ((congrArg Cache.pc (cache_set_ne s _ ej)).symm.trans hx) hst
              rw [hc] at a; cases a
      · rw [if_neg e] at hs; cases hs

theorem early_of_snoop {cfg : Cfg} {k : Cur} (h : COk cfg k) {j : Nat} (h1 : k.snp j ≠ .off) (h2 : k.snp j ≠ .done) :
    k.phase = .snoop := by
  by_cases c : k.phase = .snoop
  · exact c
  · rcases h.closed c j with e | e
    · exact absurd e h1
    · exact absurd e h2

theorem pc_slot (s : St) (j : Nat) (ca : Cache) (h : ca.pc = (s.cache j).pc) (i : Nat) :
    ((setCache s j ca).cache i).pc = (s.cache i).pc := by
  by_cases e : i = j
  · rw [e, cache_set, h]
  · rw [cache_set_ne _ _ e]

theorem wf_snoop {cfg : Cfg} {s s' : St} {es : List Ev} (h : WF cfg s) {j : Nat}
    (hs : stepSnoop cfg s j = .next s' es) : WF cfg s' := by
  unfold stepSnoop at hs
  cases hc : s.cur with
  | none => rw [hc] at hs; cases hs
  | some k =>
    rw [hc] at hs
    simp only at hs
    have K := h.k k hc
    cases hj : k.snp j with
    | sent =>
      cases ho : snpOp k.fwd k.kind with
      | none => rw [hj, ho] at hs; cases hs
      | some op =>
        rw [hj, ho] at hs
        injection hs with hs _
        subst hs
        have hph := early_of_snoop K (j := j) (by rw [hj]; nofun) (by rw [hj]; nofun)
        have hlt := K.lt j (by rw [hj]; nofun)
        refine wf_move h hc (by rw [hph]; rfl) (pc_slot s j _ rfl) rfl ?_ (by show k.phase.early = true; rw [hph]; rfl)
          rfl rfl rfl
        refine ⟨K.noEv, ?_, ?_, ?_, ?_, fun x => absurd hph x, K.uniq, ?_, ?_⟩
        · show upd k.snp j _ k.src = _
          rw [upd_ne _ _ _ (fun e => by have := K.srcOff; rw [e, hj] at this; cases this)]
          exact K.srcOff
        · intro x hx
          by_cases e : x = j
          · rw [e]; exact hlt
          · exact K.lt x (by rw [← upd_ne k.snp j _ e]; exact hx)
        · intro _ _
          show (snpOp k.fwd k.kind).isSome = true
          rw [ho]; rfl
        · intro _
          refine ⟨j, hlt, ?_, ?_⟩
          · show upd k.snp j _ j ≠ _; rw [upd_same]; nofun
          · show upd k.snp j _ j ≠ _; rw [upd_same]; nofun
        · intro x r hx
          have hx : upd k.snp j _ x = _ := hx
          by_cases e : x = j
          · rw [e, upd_same] at hx
            injection hx with hx
            subst hx
            have := snp_ROk k op ho ((s.cache j).slot (k.tag % cfg.num)) k.tag
            exact ⟨this.uniq, this.fwdK, this.fwdG⟩
          · rw [upd_ne _ _ _ e] at hx
            have := K.resp x r hx
            exact ⟨this.uniq, this.fwdK, this.fwdG⟩
        · have := K.ph
          unfold POk at this ⊢
          rw [hph] at this
          show (match k.phase with | _ => _)
          rw [hph]; exact this
    | off => rw [hj] at hs; cases hs
    | handled r => rw [hj] at hs; cases hs
    | done => rw [hj] at hs; cases hs

theorem wf_resp {cfg : Cfg} {s s' : St} {es : List Ev} (h : WF cfg s) {j : Nat} {junk : Be}
    (hs : stepResp cfg s j junk = .next s' es) : WF cfg s' := by
  unfold stepResp at hs
  cases hc : s.cur with
  | none => rw [hc] at hs; cases hs
  | some k =>
    rw [hc] at hs
    simp only at hs
    have K := h.k k hc
    cases hj : k.snp j with
    | handled r =>
      rw [hj] at hs
      injection hs with hs _
      subst hs
      have hph := early_of_snoop K (j := j) (by rw [hj]; nofun) (by rw [hj]; nofun)
      obtain ⟨a, b, c, d, e, _⟩ := takeResp_ok K hj ((s.cache j).slot (k.tag % cfg.num)) junk
      exact wf_move h hc (by rw [hph]; rfl) (fun _ => rfl) rfl a b c d e
    | off => rw [hj] at hs; cases hs
    | sent => rw [hj] at hs; cases hs
    | done => rw [hj] at hs; cases hs

theorem procSnpd_cok {cfg : Cfg} {k : Cur} (K : COk cfg k) (hc : ∀ j, k.snp j = .off ∨ k.snp j = .done)
    (hs : (snpOp k.fwd k.kind).isSome = true) (b : Bool) :
    COk cfg (procSnpd { k with pd := b }) ∧ (procSnpd { k with pd := b }).phase.early = true ∧
    Same k (procSnpd { k with pd := b }) ∧ (b = false → (procSnpd { k with pd := b }).phase ≠ .wrDirty) ∧
    (procSnpd { k with pd := b }).phase ≠ .snoop := by
  obtain ⟨p1, p2, p3, p4, p5⟩ := procSnpd_ok { k with pd := b } K.noEv hs K.uniq
  have sm : Same k (procSnpd { k with pd := b }) := ⟨p4.src, p4.kind, p4.tag, p4.fwd, p4.snp, p4.shared⟩
  exact ⟨sm.cok K p1 p3 hc, p2, sm, p5, p3⟩

theorem wf_snAck {cfg : Cfg} {s s' : St} {es : List Ev} (h : WF cfg s)
    (hs : stepSnAck s = .next s' es) : WF cfg s' := by
  unfold stepSnAck at hs
  cases hc : s.cur with
  | none => rw [hc] at hs; cases hs
  | some k =>
    rw [hc] at hs
    simp only at hs
    have K := h.k k hc
    cases hp : k.phase <;> rw [hp] at hs <;> try cases hs
    have hsn : (snpOp k.fwd k.kind).isSome = true := by
      have := K.ph; unfold POk at this; rw [hp] at this; exact this
    obtain ⟨a, b, c, _⟩ := procSnpd_cok K (K.closed (by rw [hp]; nofun)) hsn false
    exact wf_move h hc (by rw [hp]; rfl) (fun _ => rfl) rfl a b c.src c.kind c.tag

theorem wf_memRead {cfg : Cfg} (hl : cfg.link = true) {s s' : St} {es : List Ev} (h : WF cfg s)
    (hs : stepMemRead cfg s = .next s' es) : WF cfg s' := by
  unfold stepMemRead at hs
  cases hc : s.cur with
  | none => rw [hc] at hs; cases hs
  | some k =>
    rw [hc] at hs
    simp only at hs
    have K := h.k k hc
    cases hp : k.phase <;> rw [hp] at hs <;> try cases hs
    have hk : k.kind.isRd = true ∨ k.kind.isOnce = true := by
      have := K.ph; unfold POk at this; rw [hp] at this; exact this
    refine wf_move h hc (by rw [hp]; rfl) (fun _ => rfl) rfl ?_ rfl rfl rfl rfl
    refine Same.cok K ⟨rfl, rfl, rfl, rfl, rfl, rfl⟩ ?_ nofun (K.closed (by rw [hp]; nofun))
    refine ⟨by rw [hl]; rfl, hk, fun _ => ?_⟩
    show (if (k.shared || k.pd) = true then _ else _ : Grant).valid = true ∧ (k.kind = .readUnique → _)
    by_cases c : (k.shared || k.pd) = true
    · rw [if_pos c]; exact ⟨rfl, K.uniq⟩
    · rw [if_neg c]; exact ⟨rfl, fun _ => rfl⟩

theorem rxDat_pc {num : Nat} {k : Cur} {g : Grant} {d : Data} {e : Option Be} {w : Wait} {ca ca' : Cache}
    (h : rxDatCache num k g d e w ca = some ca') :
    ∃ w', ca'.pc = some w' ∧ w'.c = w.c ∧ w'.f = w.f ∧ w'.op = w.op ∧ w'.tag = w.tag ∧ w'.st = .done := by
  unfold rxDatCache at h
  split at h
  · cases e with
    | none => cases h
    | some b => injection h with h; subst h; exact ⟨_, rfl, rfl, rfl, rfl, rfl, rfl⟩
  · injection h with h; subst h; exact ⟨_, rfl, rfl, rfl, rfl, rfl, rfl⟩

theorem wf_rxDat {cfg : Cfg} {s s' : St} {es : List Ev} (h : WF cfg s)
    (hs : stepRxDat cfg s = .next s' es) : WF cfg s' := by
  unfold stepRxDat at hs
  cases hc : s.cur with
  | none => rw [hc] at hs; cases hs
  | some k =>
    rw [hc] at hs
    simp only at hs
    have K := h.k k hc
    cases hw : (s.cache k.src).pc with
    | none => rw [hw] at hs; cases hp : k.phase <;> rw [hp] at hs <;> cases hs
    | some w =>
      rw [hw] at hs
      cases hp : k.phase <;> rw [hp] at hs <;> try cases hs
      rename_i g d e
      simp only at hs
      cases hr : rxDatCache cfg.num k g d e w (s.cache k.src) with
      | none => rw [hr] at hs; cases hs
      | some ca =>
        rw [hr] at hs
        injection hs with hs _
        subst hs
        obtain ⟨w', a1, a2, a3, a4, a5, a6⟩ := rxDat_pc hr
        have e1 : ((setCache s k.src ca).cache k.src) = ca := cache_set _ _ _
        refine wf_answer h hc hw ?_ (w' := w') ((congrArg Cache.pc e1).trans a1) a2 a3 a4 a5 a6 rfl
          (cok_late K (K.closed (by rw [hp]; nofun)) (p := .ack) rfl) rfl
        show upd s.cache k.src ca = upd s.cache k.src ((setCache s k.src ca).cache k.src)
        rw [e1]

theorem wf_rxComp {cfg : Cfg} {s s' : St} {es : List Ev} (h : WF cfg s)
    (hs : stepRxComp cfg s = .next s' es) : WF cfg s' := by
  unfold stepRxComp at hs
  cases hc : s.cur with
  | none => rw [hc] at hs; cases hs
  | some k =>
    rw [hc] at hs
    simp only at hs
    have K := h.k k hc
    cases hw : (s.cache k.src).pc with
    | none => rw [hw] at hs; cases hp : k.phase <;> rw [hp] at hs <;> cases hs
    | some w =>
      rw [hw] at hs
      cases hp : k.phase <;> rw [hp] at hs <;> try cases hs
      have e1 : ((setCache s k.src (rxCompCache cfg.num w (s.cache k.src))).cache k.src) = _ := cache_set _ _ _
      refine wf_answer h hc hw ?_ (w' := { w with st := .done }) (congrArg Cache.pc e1) rfl rfl rfl rfl rfl rfl
        (cok_late K (K.closed (by rw [hp]; nofun)) (p := .ack) rfl) rfl
      show upd s.cache k.src _ = upd s.cache k.src ((setCache s k.src _).cache k.src)
      rw [e1]

theorem rxDbid_pc (num : Nat) (w : Wait) (ca : Cache) :
    (rxDbidCache num w ca).1.pc = some { w with st := .done } ∧ (rxDbidCache num w ca).2.early = false := by
  unfold rxDbidCache
  split
  · exact ⟨rfl, rfl⟩
  · refine ⟨rfl, ?_⟩
    show (if _ then _ else _ : Phase).early = false
    split <;> rfl

theorem wf_rxDbid {cfg : Cfg} {s s' : St} {es : List Ev} (h : WF cfg s)
    (hs : stepRxDbid cfg s = .next s' es) : WF cfg s' := by
  unfold stepRxDbid at hs
  cases hc : s.cur with
  | none => rw [hc] at hs; cases hs
  | some k =>
    rw [hc] at hs
    simp only at hs
    have K := h.k k hc
    cases hw : (s.cache k.src).pc with
    | none => rw [hw] at hs; cases hp : k.phase <;> rw [hp] at hs <;> cases hs
    | some w =>
      rw [hw] at hs
      cases hp : k.phase <;> rw [hp] at hs <;> try cases hs
      have e1 : ((setCache s k.src (rxDbidCache cfg.num w (s.cache k.src)).1).cache k.src) = _ := cache_set _ _ _
      obtain ⟨p1, p2⟩ := rxDbid_pc cfg.num w (s.cache k.src)
      refine wf_answer h hc hw ?_ (w' := { w with st := .done }) ((congrArg Cache.pc e1).trans p1) rfl rfl rfl rfl rfl rfl
        (cok_late K (K.closed (by rw [hp]; nofun)) p2) p2
      show upd s.cache k.src _ = upd s.cache k.src ((setCache s k.src _).cache k.src)
      rw [e1]

theorem wf_rxEvict {cfg : Cfg} {s s' : St} {es : List Ev} (h : WF cfg s) {i : Nat}
    (hs : stepRxEvict cfg s i = .next s' es) : WF cfg s' := by
  unfold stepRxEvict at hs
  cases hw : (s.cache i).pc with
  | none => rw [hw] at hs; cases hs
  | some w =>
    rw [hw] at hs
    simp only at hs
    by_cases c : w.st = .comp
    · rw [if_pos c] at hs
      injection hs with hs _
      subst hs
      have W := h.w i w hw
      refine ⟨?_, h.k, ?_, ?_⟩
      · intro j x hx
        by_cases e : j = i
        · rw [e, cache_set] at hx
          injection hx with hx
          subst hx
          exact ⟨W.f, W.op, nofun, nofun⟩
        · rw [cache_set_ne _ _ e] at hx; exact h.w j x hx
      · intro k hk he
        obtain ⟨x, w1, w2⟩ := h.early k hk he
        by_cases e : k.src = i
        · rw [e, hw] at w1; injection w1 with w1; subst w1; rw [c] at w2; cases w2.1
        · rw [cache_set_ne _ _ e]; exact ⟨x, w1, w2⟩
      · intro j x hx hst
        by_cases e : j = i
        · rw [e, cache_set] at hx
          injection hx with hx
          subst hx
          cases hst
        · rw [cache_set_ne _ _ e] at hx; exact h.act j x hx hst
    · rw [if_neg c] at hs; cases hs

theorem wf_wrDat {cfg : Cfg} {s s' : St} {es : List Ev} (h : WF cfg s)
    (hs : stepWrDat s = .next s' es) : WF cfg s' := by
  unfold stepWrDat at hs
  cases hc : s.cur with
  | none => rw [hc] at hs; cases hs
  | some k =>
    rw [hc] at hs
    simp only at hs
    have K := h.k k hc
    cases hp : k.phase <;> rw [hp] at hs <;> try cases hs
    rename_i pd d e
    refine wf_late h hc (by rw [hp]; rfl) (fun _ => rfl) ?_
    intro k' hk'
    have hk' : (if pd = true then some { k with phase := .wrMem d e } else none : Option Cur) = some k' := hk'
    split at hk'
    · injection hk' with hk'; subst hk'
      exact ⟨cok_late K (K.closed (by rw [hp]; nofun)) rfl, rfl⟩
    · cases hk'

theorem wf_snWr {cfg : Cfg} {s s' : St} {es : List Ev} (h : WF cfg s)
    (hs : stepSnWr s = .next s' es) : WF cfg s' := by
  unfold stepSnWr at hs
  cases hc : s.cur with
  | none => rw [hc] at hs; cases hs
  | some k =>
    rw [hc] at hs
    simp only at hs
    have K := h.k k hc
    cases hp : k.phase <;> rw [hp] at hs <;> try cases hs
    refine wf_late h hc (by rw [hp]; rfl) (fun _ => rfl) ?_
    intro k' hk'
    have hk' : (if k.exp = true then some { k with phase := .ack } else none : Option Cur) = some k' := hk'
    split at hk'
    · injection hk' with hk'; subst hk'
      exact ⟨cok_late K (K.closed (by rw [hp]; nofun)) rfl, rfl⟩
    · cases hk'

theorem wf_ack {cfg : Cfg} {s s' : St} {es : List Ev} (h : WF cfg s)
    (hs : stepAck s = .next s' es) : WF cfg s' := by
  unfold stepAck at hs
  cases hc : s.cur with
  | none => rw [hc] at hs; cases hs
  | some k =>
    rw [hc] at hs
    simp only at hs
    cases hp : k.phase <;> rw [hp] at hs <;> try cases hs
    refine wf_late h hc (by rw [hp]; rfl) (fun _ => rfl) ?_
    intro k' hk'
    have hk' : (none : Option Cur) = some k' := hk'
    cases hk'

theorem wf_step {cfg : Cfg} (hl : cfg.link = true) {s s' : St} {es : List Ev} {l : Label} (h : WF cfg s)
    (hs : step cfg s l = .next s' es) : WF cfg s' := by
  cases l with
  | start i c r =>
    simp only [step] at hs
    by_cases ci : i < cfg.n
    · rw [if_pos ci] at hs
      cases hp : (s.cache i).pc with
      | some w => rw [hp] at hs; cases hs
      | none =>
        rw [hp] at hs
        injection hs with hs _
        subst hs
        exact wf_cpu h (by intro w hw; rw [hp] at hw; cases hw) (turned_top cfg.num i c r (s.cache i))
    · rw [if_neg ci] at hs; cases hs
  | resume i r =>
    simp only [step] at hs
    cases hp : (s.cache i).pc with
    | none => rw [hp] at hs; cases hs
    | some w =>
      rw [hp] at hs
      simp only at hs
      by_cases c : w.st = .done
      · rw [if_pos c] at hs
        injection hs with hs _
        subst hs
        refine wf_cpu h ?_ (turned_resume cfg.num i w r (s.cache i) (h.w i w hp))
        intro w' hw'
        rw [hp] at hw'; injection hw' with hw'; subst hw'; rw [c]; nofun
      · rw [if_neg c] at hs; cases hs
  | pick i => exact wf_pick h hs
  | snoop j => exact wf_snoop h hs
  | resp j junk => exact wf_resp h hs
  | snAck => exact wf_snAck h hs
  | memRead => exact wf_memRead hl h hs
  | memWrite =>
    simp only [step, stepMemWrite] at hs
    cases hp : s.posted with
    | nil => rw [hp] at hs; cases hs
    | cons p ps =>
      rw [hp] at hs
      obtain ⟨t, d, e⟩ := p
      injection hs with hs _
      subst hs
      exact ⟨h.w, h.k, h.early, h.act⟩
  | rxDat => exact wf_rxDat h hs
  | rxComp => exact wf_rxComp h hs
  | rxEvict i => exact wf_rxEvict h hs
  | rxDbid => exact wf_rxDbid h hs
  | wrDat => exact wf_wrDat h hs
  | snWr => exact wf_snWr h hs
  | ack => exact wf_ack h hs

theorem wf_run {cfg : Cfg} (hl : cfg.link = true) (ls : List Label) : ∀ {s s' : St} {es : List Ev}, WF cfg s →
    run cfg s ls = some (s', es) → WF cfg s' := by
  induction ls with
  | nil => intro s s' es h hr; simp only [run, Option.some.injEq, Prod.mk.injEq] at hr; rw [← hr.1]; exact h
  | cons l ls ih =>
    intro s s' es h hr
    simp only [run] at hr
    cases hs : step cfg s l with
    | next s1 e1 =>
      rw [hs] at hr
      simp only at hr
      cases h2 : run cfg s1 ls with
      | none => rw [h2] at hr; cases hr
      | some p =>
        rw [h2] at hr
        obtain ⟨s2, e2⟩ := p
        injection hr with hr
        injection hr with hr _
        subst hr
        exact ih (wf_step hl h hs) h2
    | blocked => rw [hs] at hr; cases hr
    | abort => rw [hs] at hr; cases hr

end Verif.ChiLive
