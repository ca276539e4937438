import Verif.ChiLive.Serve

/-! # From any reachable state, any waiting access can be brought to its end -/

namespace Verif.ChiLive

open Verif.ChiCoh

/-- Neither starts an access nor writes memory: steps that only finish what was started. -/
def Quiet : Label → Bool
  | .start .. => false
  | _ => true

theorem quiet_of_svc {l : Label} (h : Svc l = true) : Quiet l = true := by cases l <;> first | rfl | cases h

theorem run_cons {cfg : Cfg} {s s' s'' : St} {l : Label} {ls : List Label} {es es' : List Ev}
    (h : step cfg s l = .next s' es) (h' : run cfg s' ls = some (s'', es')) :
    run cfg s (l :: ls) = some (s'', es ++ es') := by
  unfold run; rw [h]; simp only; rw [h']

theorem run_cat {cfg : Cfg} (a : List Label) : ∀ {b : List Label} {s s' s'' : St} {es es' : List Ev},
    run cfg s a = some (s', es) → run cfg s' b = some (s'', es') → run cfg s (a ++ b) = some (s'', es ++ es') := by
  induction a with
  | nil =>
    intro b s s' s'' es es' h h'
    injection h with h
    injection h with h1 h2
    subst h1 h2
    exact h'
  | cons l a ih =>
    intro b s s' s'' es es' h h'
    simp only [run] at h
    cases hs : step cfg s l with
    | blocked => rw [hs] at h; cases h
    | abort => rw [hs] at h; cases h
    | next s1 e1 =>
      rw [hs] at h
      simp only at h
      cases hr : run cfg s1 a with
      | none => rw [hr] at h; cases h
      | some p =>
        obtain ⟨s2, e2⟩ := p
        rw [hr] at h
        injection h with h
        injection h with h1 h2
        subst h1 h2
        rw [List.append_assoc]
        exact run_cons hs (ih hr h')

/-- A schedule without new accesses leads from `s` to `s'`. -/
def Can (cfg : Cfg) (s s' : St) (es : List Ev) : Prop :=
  ∃ ls, ls.all Quiet = true ∧ run cfg s ls = some (s', es)

theorem Can.refl (cfg : Cfg) (s : St) : Can cfg s s [] := ⟨[], rfl, rfl⟩

theorem Can.trans {cfg : Cfg} {a b c : St} {es es' : List Ev} (h : Can cfg a b es) (h' : Can cfg b c es') :
    Can cfg a c (es ++ es') := by
  obtain ⟨x, x1, x2⟩ := h
  obtain ⟨y, y1, y2⟩ := h'
  exact ⟨x ++ y, by rw [List.all_append, x1, y1]; rfl, run_cat x x2 y2⟩

theorem Can.one {cfg : Cfg} {s s' : St} {es : List Ev} (l : Label) (hq : Quiet l = true)
    (h : step cfg s l = .next s' es) : Can cfg s s' es :=
  ⟨[l], by simp [hq], by have := run_cons h (rfl : run cfg s' [] = some (s', [])); rwa [List.append_nil] at this⟩

/-- Serving steps keep every cache's access waiting. -/
theorem svc_pc {cfg : Cfg} {s s' : St} {es : List Ev} {l : Label} (hl : Svc l = true)
    (hs : step cfg s l = .next s' es) {i : Nat} {w : Wait} (hw : (s.cache i).pc = some w) :
    ∃ w', (s'.cache i).pc = some w' ∧ w'.c = w.c := by
  have keep : (∀ j, (s'.cache j).pc = (s.cache j).pc) → ∃ w', (s'.cache i).pc = some w' ∧ w'.c = w.c :=
    fun h => ⟨w, by rw [h, hw], rfl⟩
  cases hc : s.cur with
  | none =>
    exfalso
    cases l <;> simp only [Svc, Bool.false_eq_true] at hl <;>
      simp only [step, stepSnoop, stepResp, stepSnAck, stepMemRead, stepRxDat, stepRxComp, stepRxDbid, stepWrDat,
        stepSnWr, stepAck, hc, reduceCtorEq] at hs
  | some k =>
    have got : ∀ (ca : Cache) (x x' : Wait), (s.cache k.src).pc = some x → ca.pc = some x' → x'.c = x.c →
        s'.cache = (setCache s k.src ca).cache → ∃ w', (s'.cache i).pc = some w' ∧ w'.c = w.c := by
      intro ca x x' h1 h2 h3 h4
      by_cases e : i = k.src
      · subst e
        rw [h1] at hw
        injection hw with hw
        subst hw
        exact ⟨x', by rw [h4, cache_set, h2], h3⟩
      · exact ⟨w, by rw [h4, cache_set_ne _ _ e, hw], rfl⟩
    cases l with
    | start i c r => cases hl
    | resume i r => cases hl
    | pick i => cases hl
    | memWrite => cases hl
    | rxEvict i => cases hl
    | snoop j =>
      simp only [step, stepSnoop, hc] at hs
      cases hj : k.snp j with
      | sent =>
        cases ho : snpOp k.fwd k.kind with
        | none => rw [hj, ho] at hs; cases hs
        | some op =>
          rw [hj, ho] at hs
          injection hs with hs _
          subst hs
          exact keep fun x => pc_slot s j { s.cache j with slot := upd (s.cache j).slot (k.tag % cfg.num) (snpLine op k.tag ((s.cache j).slot (k.tag % cfg.num))).1 } rfl x
      | off => rw [hj] at hs; cases hs
      | handled r => rw [hj] at hs; cases hs
      | done => rw [hj] at hs; cases hs
    | resp j junk =>
      simp only [step, stepResp, hc] at hs
      cases hj : k.snp j <;> rw [hj] at hs <;> try cases hs
      exact keep fun _ => rfl
    | snAck =>
      simp only [step, stepSnAck, hc] at hs
      cases hp : k.phase <;> rw [hp] at hs <;> try cases hs
      exact keep fun _ => rfl
    | memRead =>
      simp only [step, stepMemRead, hc] at hs
      cases hp : k.phase <;> rw [hp] at hs <;> try cases hs
      exact keep fun _ => rfl
    | wrDat =>
      simp only [step, stepWrDat, hc] at hs
      cases hp : k.phase <;> rw [hp] at hs <;> try cases hs
      exact keep fun _ => rfl
    | snWr =>
      simp only [step, stepSnWr, hc] at hs
      cases hp : k.phase <;> rw [hp] at hs <;> try cases hs
      exact keep fun _ => rfl
    | ack =>
      simp only [step, stepAck, hc] at hs
      cases hp : k.phase <;> rw [hp] at hs <;> try cases hs
      exact keep fun _ => rfl
    | rxDat =>
      simp only [step, stepRxDat, hc] at hs
      cases hx : (s.cache k.src).pc with
      | none => rw [hx] at hs; cases hp : k.phase <;> rw [hp] at hs <;> cases hs
      | some x =>
        rw [hx] at hs
        cases hp : k.phase <;> rw [hp] at hs <;> try cases hs
        rename_i g d e
        simp only at hs
        cases hr : rxDatCache cfg.num k g d e x (s.cache k.src) with
        | none => rw [hr] at hs; cases hs
        | some ca =>
          rw [hr] at hs
          injection hs with hs _
          subst hs
          obtain ⟨w', a1, a2, _⟩ := rxDat_pc hr
          exact got ca x w' hx a1 a2 rfl
    | rxComp =>
      simp only [step, stepRxComp, hc] at hs
      cases hx : (s.cache k.src).pc with
      | none => rw [hx] at hs; cases hp : k.phase <;> rw [hp] at hs <;> cases hs
      | some x =>
        rw [hx] at hs
        cases hp : k.phase <;> rw [hp] at hs <;> try cases hs
        exact got _ x { x with st := .done } hx rfl rfl rfl
    | rxDbid =>
      simp only [step, stepRxDbid, hc] at hs
      cases hx : (s.cache k.src).pc with
      | none => rw [hx] at hs; cases hp : k.phase <;> rw [hp] at hs <;> cases hs
      | some x =>
        rw [hx] at hs
        cases hp : k.phase <;> rw [hp] at hs <;> try cases hs
        exact got _ x { x with st := .done } hx (rxDbid_pc cfg.num x (s.cache k.src)).1 rfl rfl

/-- **The home node can finish the request it serves**, and answers its requester. -/
theorem drain {cfg : Cfg} (hl : cfg.link = true) : ∀ (n : Nat) {s : St}, WF cfg s →
    (∀ k, s.cur = some k → todo cfg.n k ≤ n) → ∃ s' es, Can cfg s s' es ∧ WF cfg s' ∧ s'.cur = none ∧
      (∀ i w, (s.cache i).pc = some w → ∃ w', (s'.cache i).pc = some w' ∧ w'.c = w.c) ∧
      (∀ i w0, Served cfg i w0 s → Answered cfg i w0 s') := by
  intro n
  induction n with
  | zero =>
    intro s h hn
    cases hc : s.cur with
    | none =>
      refine ⟨s, [], Can.refl _ _, h, hc, fun i w hw => ⟨w, hw, rfl⟩, fun i w0 hS => ?_⟩
      unfold Served at hS; rw [hc] at hS; exact hS
    | some k =>
      have := hn k hc
      unfold todo at this
      cases hp : k.phase <;> rw [hp] at this <;> simp [rank] at this
  | succ n ih =>
    intro s h hn
    cases hc : s.cur with
    | none =>
      refine ⟨s, [], Can.refl _ _, h, hc, fun i w hw => ⟨w, hw, rfl⟩, fun i w0 hS => ?_⟩
      unfold Served at hS; rw [hc] at hS; exact hS
    | some k =>
      obtain ⟨l, s1, e1, a, b, c⟩ := serve_step hl h hc
      have hk := hn k hc
      obtain ⟨s2, e2, x1, x2, x3, x4, x5⟩ := ih (wf_step hl h b) (fun k' hk' => by have := c k' hk'; omega)
      refine ⟨s2, e1 ++ e2, (Can.one l (quiet_of_svc a) b).trans x1, x2, x3, ?_, ?_⟩
      · intro i w hw
        obtain ⟨w1, y1, y2⟩ := svc_pc a b hw
        obtain ⟨w2, z1, z2⟩ := x4 i w1 y1
        exact ⟨w2, z1, z2.trans y2⟩
      · intro i w0 hS
        exact x5 i w0 (served_step a h hS b)

theorem drain' {cfg : Cfg} (hl : cfg.link = true) {s : St} (h : WF cfg s) :
    ∃ s' es, Can cfg s s' es ∧ WF cfg s' ∧ s'.cur = none ∧
      (∀ i w, (s.cache i).pc = some w → ∃ w', (s'.cache i).pc = some w' ∧ w'.c = w.c) ∧
      (∀ i w0, Served cfg i w0 s → Answered cfg i w0 s') := by
  cases hc : s.cur with
  | none => exact drain hl 0 h fun k hk => by rw [hc] at hk; cases hk
  | some k => exact drain hl (todo cfg.n k) h fun k' hk => by rw [hc] at hk; injection hk with hk; subst hk; exact Nat.le_refl _

/-- **A waiting request can be served**: the home node idle, cache `i`'s request gets its answer. -/
theorem serve_one {cfg : Cfg} (hl : cfg.link = true) {s : St} (h : WF cfg s) (hc : s.cur = none) {i : Nat} {w : Wait}
    (hw : (s.cache i).pc = some w) (hst : w.st = .issued) :
    ∃ s' es, Can cfg s s' es ∧ WF cfg s' ∧ s'.cur = none ∧ Answered cfg i w s' := by
  by_cases ho : w.op = .evict
  · have b1 : step cfg s (.pick i) = .next { setCache s i (setSt (s.cache i) .comp) with filt := filtEnd .evict s.filt i w.tag } [] := by
      simp only [step, stepPick, hc, hw, hst, ho, if_true]
    have e1 : (setSt (s.cache i) .comp).pc = some { w with st := .comp } := by unfold setSt; simp only [hw, Option.map_some]
    generalize hs1 : ({ setCache s i (setSt (s.cache i) .comp) with filt := filtEnd .evict s.filt i w.tag } : St) = s1 at b1
    have p1 : (s1.cache i).pc = some { w with st := .comp } := by
      rw [← hs1]; exact (congrArg Cache.pc (cache_set s i _)).trans e1
    have c1 : s1.cur = none := by rw [← hs1]; exact hc
    have b2 : step cfg s1 (.rxEvict i) = .next (setCache s1 i
        { slot := upd (s1.cache i).slot (w.tag % cfg.num) { (s1.cache i).slot (w.tag % cfg.num) with valid := false }
          pc := some { w with st := .done } }) [] := by
      simp only [step, stepRxEvict, p1, if_true]
    refine ⟨_, _, (Can.one (.pick i) rfl b1).trans (Can.one (.rxEvict i) rfl b2),
      wf_step hl (wf_step hl h b1) b2, c1, { w with st := .done }, ?_, ⟨rfl, rfl, rfl, rfl⟩, rfl, ?_⟩
    · exact congrArg Cache.pc (cache_set s1 i _)
    · rw [ho]; exact ⟨nofun, fun x => by rcases x with x | x <;> cases x⟩
  · have b1 : step cfg s (.pick i) = .next { setCache s i (setSt (s.cache i) .active) with cur := some (newCur cfg s i w) } [] := by
      simp only [step, stepPick, hc, hw, hst, if_true, if_neg ho]
    have e1 : (setSt (s.cache i) .active).pc = some { w with st := .active } := by unfold setSt; simp only [hw, Option.map_some]
    obtain ⟨s2, e2, x1, x2, x3, _, x5⟩ := drain' hl (wf_step hl h b1)
    refine ⟨s2, _, (Can.one (.pick i) rfl b1).trans x1, x2, x3, x5 i w ?_⟩
    obtain ⟨_, n2, n3, n4, n5⟩ := newCur_ok (cfg := cfg) (s := s) (i := i) ho
    show Served cfg i w { setCache s i (setSt (s.cache i) .active) with cur := some (newCur cfg s i w) }
    unfold Served
    refine ⟨n3, n4, n5, ?_⟩
    rw [if_pos n2]
    exact ⟨{ w with st := .active }, (congrArg Cache.pc (cache_set s i _)).trans e1, ⟨rfl, rfl, rfl, rfl⟩⟩

/-- The access of cache `i` comes to its end. -/
def Ends (cfg : Cfg) (s : St) (i : Nat) : Prop :=
  ∃ s' es, Can cfg s s' es ∧ (s'.cache i).pc = none ∧ ∃ d, Ev.finish i d ∈ es

theorem Ends.after {cfg : Cfg} {s s' : St} {es : List Ev} {i : Nat} (h : Can cfg s s' es) (h' : Ends cfg s' i) :
    Ends cfg s i := by
  obtain ⟨t, es', a, b, d, e⟩ := h'
  exact ⟨t, es ++ es', h.trans a, b, d, List.mem_append_right _ e⟩

/-- The step of the CPU side once its transaction is complete. -/
theorem resume_step {cfg : Cfg} {s : St} {i : Nat} {w : Wait} (hw : (s.cache i).pc = some w) (hst : w.st = .done) :
    step cfg s (.resume i {}) = .next (setCache s i (resumeAt cfg.num i w {} (s.cache i)).1)
      (resumeAt cfg.num i w {} (s.cache i)).2 := by
  simp only [step, hw, hst, if_true]

/-- Once the request of the line itself is answered, the access ends at once. -/
theorem end_fill {cfg : Cfg} {s : St} {i : Nat} {w0 : Wait} (h0 : WOk w0) (ho : w0.op = w0.f) (ht : w0.tag = w0.c.tag)
    (ha : Answered cfg i w0 s) : Ends cfg s i := by
  obtain ⟨w, hw, hl, hst, hp⟩ := ha
  have b := resume_step (cfg := cfg) hw hst
  suffices hh : (resumeAt cfg.num i w {} (s.cache i)).1.pc = none ∧
      ∃ d, Ev.finish i d ∈ (resumeAt cfg.num i w {} (s.cache i)).2 by
    exact ⟨_, _, Can.one _ rfl b, (congrArg Cache.pc (cache_set s i _)).trans hh.1, hh.2⟩
  have hf := h0.f
  unfold FOk at hf
  have load : w0.c.wr = false → w0.f.isRd = true → (top cfg.num i w.c {} (s.cache i)).1.pc = none ∧
      ∃ d, Ev.finish i d ∈ (top cfg.num i w.c {} (s.cache i)).2 := by
    intro hwr hr
    obtain ⟨p1, p2, p3, _⟩ := hp.rd (by rw [ho]; exact hr)
    rw [hl.c]
    unfold top
    rw [hwr]
    simp only [Bool.false_eq_true, if_false, topLoad]
    rw [ht] at p1 p2 p3
    rw [if_pos ⟨p1, p3, p2⟩]
    exact ⟨rfl, _, List.mem_singleton.2 rfl⟩
  have store : w0.c.wr = true → (w0.f = .readUnique ∨ w0.f = .cleanUnique ∨ w0.f = .makeUnique) →
      (top cfg.num i w.c {} (s.cache i)).1.pc = none ∧
      ∃ d, Ev.finish i d ∈ (top cfg.num i w.c {} (s.cache i)).2 := by
    intro hwr hr
    have hq : ((s.cache i).slot (w0.tag % cfg.num)).valid = true ∧ ((s.cache i).slot (w0.tag % cfg.num)).tag = w0.tag ∧
        ((s.cache i).slot (w0.tag % cfg.num)).shared = false := by
      rcases hr with e | e
      · obtain ⟨p1, p2, _, p4⟩ := hp.rd (by rw [ho, e]; rfl)
        exact ⟨p1, p2, p4 (by rw [ho, e])⟩
      · exact hp.un (by rw [ho]; exact e)
    obtain ⟨p1, p2, p3⟩ := hq
    rw [hl.c]
    unfold top
    rw [hwr]
    simp only [if_true, topStore]
    rw [ht] at p1 p2 p3
    rw [if_pos ⟨p1, p2⟩, if_pos p3]
    exact ⟨rfl, w0.c.data, by simp⟩
  have eo : w.op = w0.f := hl.op.trans ho
  unfold resumeAt
  rw [eo]
  cases hwr : w0.c.wr with
  | false =>
    rw [hwr] at hf
    simp only [Bool.false_eq_true, if_false] at hf
    obtain ⟨h1, h2⟩ := hf
    have ld := load hwr
    cases hk : w0.f <;> rw [hk] at h1 h2 ld <;> simp [Kind.isRd, Kind.isOnce] at h1 h2 <;> first
      | exact ld rfl
      | exact ⟨rfl, _, List.mem_singleton.2 rfl⟩
  | true =>
    rw [hwr] at hf
    simp only [if_true] at hf
    have stt := store hwr
    cases hk : w0.f <;> rw [hk] at hf stt <;> simp [Kind.isWrU] at hf <;> first
      | exact stt (.inl rfl)
      | exact stt (.inr (.inl rfl))
      | exact stt (.inr (.inr rfl))
      | exact ⟨rfl, _, List.mem_singleton.2 rfl⟩

/-- A new request for the line itself leads to the end. -/
theorem end_issued_fill {cfg : Cfg} (hl : cfg.link = true) {s : St} (h : WF cfg s) (hc : s.cur = none) {i : Nat}
    {w : Wait} (hw : (s.cache i).pc = some w) (hst : w.st = .issued) (ho : w.op = w.f) (ht : w.tag = w.c.tag) :
    Ends cfg s i := by
  obtain ⟨s1, e1, a, _, _, d⟩ := serve_one hl h hc hw hst
  exact (end_fill (h.w i w hw) ho ht d).after a

/-- So does a request that makes room, except WriteClean. -/
theorem end_issued_victim {cfg : Cfg} (hl : cfg.link = true) {s : St} (h : WF cfg s) (hc : s.cur = none) {i : Nat}
    {w : Wait} (hw : (s.cache i).pc = some w) (hst : w.st = .issued) (ho : w.op ≠ .writeClean) : Ends cfg s i := by
  have W := h.w i w hw
  rcases W.op with ⟨a, b⟩ | hv
  · exact end_issued_fill hl h hc hw hst a b
  · obtain ⟨s1, e1, a, b, c, w1, d1, d2, d3, _⟩ := serve_one hl h hc hw hst
    have r := resume_step (cfg := cfg) d1 d3
    have e : resumeAt cfg.num i w1 {} (s1.cache i) = ({ s1.cache i with pc := some (fillReq w1.c w1.f false) }, []) := by
      unfold resumeAt
      rw [d2.op]
      cases hk : w.op <;> rw [hk] at hv ho <;> simp [Kind.isCb] at hv ho <;> rfl
    rw [e] at r
    refine Ends.after (a.trans (Can.one _ rfl r)) (end_issued_fill hl (wf_step hl b r) c
      (congrArg Cache.pc (cache_set s1 i _)) rfl rfl rfl)

theorem end_issued {cfg : Cfg} (hl : cfg.link = true) {s : St} (h : WF cfg s) (hc : s.cur = none) {i : Nat}
    {w : Wait} (hw : (s.cache i).pc = some w) (hst : w.st = .issued) : Ends cfg s i := by
  by_cases ho : w.op = .writeClean
  · obtain ⟨s1, e1, a, b, c, w1, d1, d2, d3, _⟩ := serve_one hl h hc hw hst
    have r := resume_step (cfg := cfg) d1 d3
    obtain ⟨n1, n2⟩ := new_evict (b.w i w1 d1).f {} ((s1.cache i).slot (w1.c.tag % cfg.num))
    have e : (resumeAt cfg.num i w1 {} (s1.cache i)).1.pc =
        some (evictNext w1.c w1.f {} ((s1.cache i).slot (w1.c.tag % cfg.num))).2 := by
      unfold resumeAt
      rw [d2.op, ho]
    refine Ends.after (a.trans (Can.one _ rfl r)) (end_issued_victim hl (wf_step hl b r) c
      ((congrArg Cache.pc (cache_set s1 i _)).trans e) n1.st n2)
  · exact end_issued_victim hl h hc hw hst ho

/-- **Every waiting access can be brought to its end.** -/
theorem ends {cfg : Cfg} (hl : cfg.link = true) {s : St} (h : WF cfg s) {i : Nat} {w : Wait}
    (hw : (s.cache i).pc = some w) : Ends cfg s i := by
  obtain ⟨s1, e1, a, b, c, d, _⟩ := drain' hl h
  obtain ⟨w1, hw1, _⟩ := d i w hw
  have fin : ∀ {s2 : St} {w2 : Wait}, WF cfg s2 → s2.cur = none → (s2.cache i).pc = some w2 → w2.st = .done →
      Ends cfg s2 i := by
    intro s2 w2 h2 c2 p2 st2
    have r := resume_step (cfg := cfg) p2 st2
    rcases turned_resume cfg.num i w2 {} (s2.cache i) (h2.w i w2 p2) with ⟨t1, t2⟩ | ⟨w3, t1, t2⟩
    · exact ⟨_, _, Can.one _ rfl r, (congrArg Cache.pc (cache_set s2 i _)).trans t1, t2⟩
    · exact Ends.after (Can.one _ rfl r) (end_issued hl (wf_step hl h2 r) c2
        ((congrArg Cache.pc (cache_set s2 i _)).trans t1) t2.st)
  refine Ends.after a ?_
  cases hst : w1.st with
  | issued => exact end_issued hl b c hw1 hst
  | active => obtain ⟨k, hk, _⟩ := b.act i w1 hw1 hst; rw [c] at hk; cases hk
  | done => exact fin b c hw1 hst
  | comp =>
    have b2 : step cfg s1 (.rxEvict i) = .next (setCache s1 i
        { slot := upd (s1.cache i).slot (w1.tag % cfg.num) { (s1.cache i).slot (w1.tag % cfg.num) with valid := false }
          pc := some { w1 with st := .done } }) [] := by
      simp only [step, stepRxEvict, hw1, hst, if_true]
    exact Ends.after (Can.one _ rfl b2) (fin (wf_step hl b b2) c (congrArg Cache.pc (cache_set s1 i _)) rfl)

end Verif.ChiLive
