import Verif.ChiLive.Finish
import Verif.ChiCoh.Findings

/-!
# C51: accesses to the caches of a CHI system can always be finished

Full statement: every access started at a cache of the system comes to its end. Proved here, for caches
connected over pin-level links, with or without direct cache transfer, any number of caches and lines,
any random choices, and after any history: no state is a dead end, no assertion fails, and everything
under way can be finished without starting anything new. What is missing: under an unfair order of steps
two stores to one line can take it from each other forever (`stores_can_starve`).
-/

namespace Verif.ChiLive

open Verif.ChiCoh

/-- Cache `i` has an access under way. -/
def Waiting (s : St) (i : Nat) : Prop := (s.cache i).pc ≠ none

/-- Nothing is under way anywhere, and memory has been written. -/
def AtRest (s : St) : Prop := (∀ i, ¬ Waiting s i) ∧ s.cur = none ∧ s.posted = []

/-- A step of the system that starts no access. -/
def Own : Label → Bool
  | .start .. => false
  | _ => true

theorem own_quiet : Own = Quiet := by funext l; cases l <;> rfl

/-- **An access under way can be finished**, from any state the system can get into, without starting
another. -/
theorem access_can_finish {cfg : Cfg} (hl : cfg.link = true) {m : Nat → Data} {ls : List Label} {s : St} {es : List Ev}
    (hr : run cfg (init m) ls = some (s, es)) {i : Nat} (hw : Waiting s i) :
    ∃ ls' s' es', ls'.all Own = true ∧ run cfg s ls' = some (s', es') ∧ ¬ Waiting s' i ∧
      ∃ d, Ev.finish i d ∈ es' := by
  have h := wf_run hl ls (wf_init cfg m) hr
  unfold Waiting at hw
  cases hp : (s.cache i).pc with
  | none => exact absurd hp hw
  | some w =>
    obtain ⟨s', es', ⟨ls', a, b⟩, c, d⟩ := ends hl h hp
    exact ⟨ls', s', es', by rw [own_quiet]; exact a, b, fun x => x c, d⟩

/-! ### Everything can be finished -/

theorem idle_keeps {cfg : Cfg} (hl : cfg.link = true) {s s' : St} {es : List Ev} {l : Label} (h : WF cfg s)
    (hq : Quiet l = true) (hs : step cfg s l = .next s' es) {j : Nat} (hj : (s.cache j).pc = none) :
    (s'.cache j).pc = none := by
  have one : ∀ i (ca : Cache), (s.cache i).pc ≠ none → s'.cache = (setCache s i ca).cache → (s'.cache j).pc = none := by
    intro i ca h1 h2
    have e : j ≠ i := by rintro rfl; exact h1 hj
    rw [h2, cache_set_ne _ _ e]; exact hj
  cases l with
  | start i c r => cases hq
  | resume i r =>
    simp only [step] at hs
    cases hw : (s.cache i).pc with
    | none => rw [hw] at hs; cases hs
    | some w =>
      rw [hw] at hs
      by_cases c : w.st = .done
      · simp only [c, if_true] at hs
        injection hs with hs _
        subst hs
        exact one i _ (by rw [hw]; nofun) rfl
      · simp only [if_neg c] at hs; cases hs
  | pick i =>
    simp only [step, stepPick] at hs
    cases hc : s.cur with
    | some k => rw [hc] at hs; cases hs
    | none =>
      cases hw : (s.cache i).pc with
      | none => rw [hc, hw] at hs; cases hs
      | some w =>
        rw [hc, hw] at hs
        simp only at hs
        by_cases c : w.st = .issued
        · rw [if_pos c] at hs
          by_cases d : w.op = .evict
          · rw [if_pos d] at hs
            injection hs with hs _
            subst hs
            exact one i _ (by rw [hw]; nofun) rfl
          · rw [if_neg d] at hs
            injection hs with hs _
            subst hs
            exact one i _ (by rw [hw]; nofun) rfl
        · rw [if_neg c] at hs; cases hs
  | memWrite =>
    simp only [step, stepMemWrite] at hs
    cases hp : s.posted with
    | nil => rw [hp] at hs; cases hs
    | cons x xs => rw [hp] at hs; injection hs with hs _; subst hs; exact hj
  | rxEvict i =>
    simp only [step, stepRxEvict] at hs
    cases hw : (s.cache i).pc with
    | none => rw [hw] at hs; cases hs
    | some w =>
      rw [hw] at hs
      by_cases c : w.st = .comp
      · simp only [c, if_true] at hs
        injection hs with hs _
        subst hs
        exact one i _ (by rw [hw]; nofun) rfl
      · simp only [if_neg c] at hs; cases hs
  | snoop j' =>
    simp only [step, stepSnoop] at hs
    cases hc : s.cur with
    | none => rw [hc] at hs; cases hs
    | some k =>
      rw [hc] at hs
      simp only at hs
      cases hj' : k.snp j' <;> rw [hj'] at hs <;> try cases hs
      cases ho : snpOp k.fwd k.kind with
      | none => rw [ho] at hs; cases hs
      | some op =>
        rw [ho] at hs
        injection hs with hs _
        subst hs
        exact (pc_slot s j' { s.cache j' with slot := upd (s.cache j').slot (k.tag % cfg.num) (snpLine op k.tag ((s.cache j').slot (k.tag % cfg.num))).1 } rfl j).trans hj
  | resp j' junk =>
    simp only [step, stepResp] at hs
    cases hc : s.cur with
    | none => rw [hc] at hs; cases hs
    | some k => rw [hc] at hs; simp only at hs; cases hp : k.snp j' <;> rw [hp] at hs <;> first | (cases hs; done) | (cases hs; exact hj)
  | snAck =>
    simp only [step, stepSnAck] at hs
    cases hc : s.cur with
    | none => rw [hc] at hs; cases hs
    | some k => rw [hc] at hs; simp only at hs; cases hp : k.phase <;> rw [hp] at hs <;> first | (cases hs; done) | (cases hs; exact hj)
  | memRead =>
    simp only [step, stepMemRead] at hs
    cases hc : s.cur with
    | none => rw [hc] at hs; cases hs
    | some k => rw [hc] at hs; simp only at hs; cases hp : k.phase <;> rw [hp] at hs <;> first | (cases hs; done) | (cases hs; exact hj)
  | wrDat =>
    simp only [step, stepWrDat] at hs
    cases hc : s.cur with
    | none => rw [hc] at hs; cases hs
    | some k => rw [hc] at hs; simp only at hs; cases hp : k.phase <;> rw [hp] at hs <;> first | (cases hs; done) | (cases hs; exact hj)
  | snWr =>
    simp only [step, stepSnWr] at hs
    cases hc : s.cur with
    | none => rw [hc] at hs; cases hs
    | some k => rw [hc] at hs; simp only at hs; cases hp : k.phase <;> rw [hp] at hs <;> first | (cases hs; done) | (cases hs; exact hj)
  | ack =>
    simp only [step, stepAck] at hs
    cases hc : s.cur with
    | none => rw [hc] at hs; cases hs
    | some k => rw [hc] at hs; simp only at hs; cases hp : k.phase <;> rw [hp] at hs <;> first | (cases hs; done) | (cases hs; exact hj)
  | rxDat =>
    simp only [step, stepRxDat] at hs
    cases hc : s.cur with
    | none => rw [hc] at hs; cases hs
    | some k =>
      rw [hc] at hs
      simp only at hs
      cases hw : (s.cache k.src).pc with
      | none => rw [hw] at hs; cases hp : k.phase <;> rw [hp] at hs <;> cases hs
      | some w =>
        rw [hw] at hs
        cases hp : k.phase <;> rw [hp] at hs <;> try cases hs
        rename_i g d e
        simp only at hs
        cases hr : rxDatCache cfg.num k g d e w (s.cache k.src) with
        | none => rw [hr] at hs; cases hs
        | some ca =>
          rw [hr] at hs
          injection hs with hs _
          subst hs
          exact one k.src ca (by rw [hw]; nofun) rfl
  | rxComp =>
    simp only [step, stepRxComp] at hs
    cases hc : s.cur with
    | none => rw [hc] at hs; cases hs
    | some k =>
      rw [hc] at hs
      simp only at hs
      cases hw : (s.cache k.src).pc with
      | none => rw [hw] at hs; cases hp : k.phase <;> rw [hp] at hs <;> cases hs
      | some w =>
        rw [hw] at hs
        cases hp : k.phase <;> rw [hp] at hs <;> try cases hs
        exact one k.src _ (by rw [hw]; nofun) rfl
  | rxDbid =>
    simp only [step, stepRxDbid] at hs
    cases hc : s.cur with
    | none => rw [hc] at hs; cases hs
    | some k =>
      rw [hc] at hs
      simp only at hs
      cases hw : (s.cache k.src).pc with
      | none => rw [hw] at hs; cases hp : k.phase <;> rw [hp] at hs <;> cases hs
      | some w =>
        rw [hw] at hs
        cases hp : k.phase <;> rw [hp] at hs <;> try cases hs
        exact one k.src _ (by rw [hw]; nofun) rfl

theorem run_keeps {cfg : Cfg} (P : St → Prop) (hP : ∀ {s s' : St} {es : List Ev} {l : Label}, Quiet l = true → P s →
    step cfg s l = .next s' es → P s') (ls : List Label) : ∀ {s s' : St} {es : List Ev}, ls.all Quiet = true → P s →
    run cfg s ls = some (s', es) → P s' := by
  induction ls with
  | nil => intro s s' es _ h hr; simp only [run, Option.some.injEq, Prod.mk.injEq] at hr; rw [← hr.1]; exact h
  | cons l ls ih =>
    intro s s' es hq h hr
    rw [List.all_cons, Bool.and_eq_true] at hq
    simp only [run] at hr
    cases hs : step cfg s l with
    | blocked => rw [hs] at hr; cases hr
    | abort => rw [hs] at hr; cases hr
    | next s1 e1 =>
      rw [hs] at hr
      simp only at hr
      cases hr1 : run cfg s1 ls with
      | none => rw [hr1] at hr; cases hr
      | some p =>
        obtain ⟨s2, e2⟩ := p
        rw [hr1] at hr
        injection hr with hr
        injection hr with hr _
        subst hr
        exact ih hq.2 (hP hq.1 h hs) hr1

theorem can_idle {cfg : Cfg} (hl : cfg.link = true) {s s' : St} {es : List Ev} (h : WF cfg s) (hc : Can cfg s s' es) :
    WF cfg s' ∧ ∀ j, (s.cache j).pc = none → (s'.cache j).pc = none := by
  obtain ⟨ls, a, b⟩ := hc
  refine ⟨wf_run hl ls h b, fun j hj => ?_⟩
  exact (run_keeps (fun s => WF cfg s ∧ (s.cache j).pc = none)
    (fun hq p hs => ⟨wf_step hl p.1 hs, idle_keeps hl p.1 hq hs p.2⟩) ls a ⟨h, hj⟩ b).2

theorem finish_upto {cfg : Cfg} (hl : cfg.link = true) : ∀ (n : Nat) {s : St}, WF cfg s →
    ∃ s' es, Can cfg s s' es ∧ WF cfg s' ∧ (∀ j, j < n → (s'.cache j).pc = none) ∧
      ∀ j, (s.cache j).pc = none → (s'.cache j).pc = none
  | 0, s, h => ⟨s, [], Can.refl _ _, h, fun _ hj => absurd hj (Nat.not_lt_zero _), fun _ hj => hj⟩
  | n + 1, s, h => by
    obtain ⟨s1, e1, a, b, c, d⟩ := finish_upto hl n h
    cases hp : (s1.cache n).pc with
    | none =>
      refine ⟨s1, e1, a, b, fun j hj => ?_, d⟩
      rcases Nat.lt_succ_iff_lt_or_eq.1 hj with x | x
      · exact c j x
      · rw [x]; exact hp
    | some w =>
      obtain ⟨s2, e2, x, y, _⟩ := ends hl b hp
      obtain ⟨b2, k2⟩ := can_idle hl b x
      refine ⟨s2, e1 ++ e2, a.trans x, b2, fun j hj => ?_, fun j hj => k2 j (d j hj)⟩
      rcases Nat.lt_succ_iff_lt_or_eq.1 hj with z | z
      · exact k2 j (c j z)
      · rw [z]; exact y

theorem finish_writes {cfg : Cfg} : ∀ (ps : List (Nat × Data × Be)) {s : St}, s.posted = ps →
    ∃ s', Can cfg s s' [] ∧ s'.posted = [] ∧ s'.cache = s.cache ∧ s'.cur = s.cur
  | [], s, h => ⟨s, Can.refl _ _, h, rfl, rfl⟩
  | (t, d, e) :: ps, s, h => by
    have b : step cfg s .memWrite = .next { s with mem := upd s.mem t (merge (s.mem t) e d), posted := ps } [] := by
      simp only [step, stepMemWrite, h]
    obtain ⟨s', x, y, z, u⟩ := finish_writes (cfg := cfg) ps
      (s := { s with mem := upd s.mem t (merge (s.mem t) e d), posted := ps }) rfl
    exact ⟨s', (Can.one _ rfl b).trans x, y, z, u⟩

theorem beyond {cfg : Cfg} (ls : List Label) : ∀ {s s' : St} {es : List Ev}, (hl : cfg.link = true) → WF cfg s →
    (∀ j, cfg.n ≤ j → (s.cache j).pc = none) → run cfg s ls = some (s', es) →
    ∀ j, cfg.n ≤ j → (s'.cache j).pc = none := by
  induction ls with
  | nil => intro s s' es _ _ h hr; simp only [run, Option.some.injEq, Prod.mk.injEq] at hr; rw [← hr.1]; exact h
  | cons l ls ih =>
    intro s s' es hl h hn hr
    simp only [run] at hr
    cases hs : step cfg s l with
    | blocked => rw [hs] at hr; cases hr
    | abort => rw [hs] at hr; cases hr
    | next s1 e1 =>
      rw [hs] at hr
      simp only at hr
      cases hr1 : run cfg s1 ls with
      | none => rw [hr1] at hr; cases hr
      | some p =>
        obtain ⟨s2, e2⟩ := p
        rw [hr1] at hr
        injection hr with hr
        injection hr with hr _
        subst hr
        refine ih hl (wf_step hl h hs) ?_ hr1
        intro j hj
        cases hq : Quiet l with
        | true => exact idle_keeps hl h hq hs (hn j hj)
        | false =>
          cases l <;> simp [Quiet] at hq
          rename_i i c r
          simp only [step] at hs
          by_cases ci : i < cfg.n
          · rw [if_pos ci] at hs
            cases hp : (s.cache i).pc with
            | some w => rw [hp] at hs; cases hs
            | none =>
              rw [hp] at hs
              injection hs with hs _
              subst hs
              have e : j ≠ i := by omega
              rw [cache_set_ne _ _ e]; exact hn j hj
          · rw [if_neg ci] at hs; cases hs

/-- An access ends only with its `finish`. -/
theorem ended {cfg : Cfg} {s s' : St} {es : List Ev} {l : Label} (h : WF cfg s) (hq : Quiet l = true)
    (hs : step cfg s l = .next s' es) {j : Nat} {w : Wait} (hj : (s.cache j).pc = some w) :
    (s'.cache j).pc ≠ none ∨ ∃ d, Ev.finish j d ∈ es := by
  cases hv : Svc l with
  | true =>
    obtain ⟨w', a, _⟩ := svc_pc hv hs hj
    exact .inl (by rw [a]; nofun)
  | false =>
    have one : ∀ i (ca : Cache), ca.pc ≠ none → s'.cache = (setCache s i ca).cache → (s'.cache j).pc ≠ none := by
      intro i ca h1 h2
      by_cases e : j = i
      · subst e; rw [h2, cache_set]; exact h1
      · rw [h2, cache_set_ne _ _ e, hj]; nofun
    cases l <;> simp only [Svc, Bool.true_eq_false] at hv
    case start i c r => cases hq
    case resume i r =>
      simp only [step] at hs
      cases hw : (s.cache i).pc with
      | none => rw [hw] at hs; cases hs
      | some x =>
        rw [hw] at hs
        by_cases c : x.st = .done
        · simp only [c, if_true] at hs
          injection hs with hs he
          subst hs he
          by_cases e : j = i
          · subst e
            rcases turned_resume cfg.num j x r (s.cache j) (h.w j x hw) with ⟨_, t2⟩ | ⟨w3, t1, _⟩
            · exact .inr t2
            · exact .inl (by rw [cache_set, t1]; nofun)
          · exact .inl (by rw [cache_set_ne _ _ e, hj]; nofun)
        · simp only [if_neg c] at hs; cases hs
    case pick i =>
      left
      simp only [step, stepPick] at hs
      cases hc : s.cur with
      | some k => rw [hc] at hs; cases hs
      | none =>
        cases hw : (s.cache i).pc with
        | none => rw [hc, hw] at hs; cases hs
        | some x =>
          rw [hc, hw] at hs
          simp only at hs
          have e1 : ∀ st, (setSt (s.cache i) st).pc ≠ none := by
            intro st; unfold setSt; simp only [hw, Option.map_some]; nofun
          by_cases c : x.st = .issued
          · rw [if_pos c] at hs
            by_cases d : x.op = .evict
            · rw [if_pos d] at hs
              injection hs with hs _
              subst hs
              exact one i _ (e1 _) rfl
            · rw [if_neg d] at hs
              injection hs with hs _
              subst hs
              exact one i _ (e1 _) rfl
          · rw [if_neg c] at hs; cases hs
    case memWrite =>
      left
      simp only [step, stepMemWrite] at hs
      cases hp : s.posted with
      | nil => rw [hp] at hs; cases hs
      | cons x xs =>
        rw [hp] at hs; injection hs with hs _; subst hs
        show (s.cache j).pc ≠ none
        rw [hj]; nofun
    case rxEvict i =>
      left
      simp only [step, stepRxEvict] at hs
      cases hw : (s.cache i).pc with
      | none => rw [hw] at hs; cases hs
      | some x =>
        rw [hw] at hs
        by_cases c : x.st = .comp
        · simp only [c, if_true] at hs
          injection hs with hs _
          subst hs
          exact one i _ (by intro x; cases x) rfl
        · simp only [if_neg c] at hs; cases hs

theorem ended_run {cfg : Cfg} (hl : cfg.link = true) (ls : List Label) : ∀ {s s' : St} {es : List Ev}, WF cfg s →
    ls.all Quiet = true → run cfg s ls = some (s', es) → ∀ {j : Nat}, (s.cache j).pc ≠ none → (s'.cache j).pc = none →
    ∃ d, Ev.finish j d ∈ es := by
  induction ls with
  | nil =>
    intro s s' es _ _ hr j h1 h2
    simp only [run, Option.some.injEq, Prod.mk.injEq] at hr
    rw [← hr.1] at h2; exact absurd h2 h1
  | cons l ls ih =>
    intro s s' es h hq hr j h1 h2
    rw [List.all_cons, Bool.and_eq_true] at hq
    simp only [run] at hr
    cases hs : step cfg s l with
    | blocked => rw [hs] at hr; cases hr
    | abort => rw [hs] at hr; cases hr
    | next s1 e1 =>
      rw [hs] at hr
      simp only at hr
      cases hr1 : run cfg s1 ls with
      | none => rw [hr1] at hr; cases hr
      | some p =>
        obtain ⟨s2, e2⟩ := p
        rw [hr1] at hr
        injection hr with hr
        injection hr with hr he
        subst hr he
        cases hw : (s.cache j).pc with
        | none => exact absurd hw h1
        | some w =>
          rcases ended h hq.1 hs hw with c | ⟨d, c⟩
          · obtain ⟨d, x⟩ := ih (wf_step hl h hs) hq.2 hr1 c h2
            exact ⟨d, List.mem_append_right _ x⟩
          · exact ⟨d, List.mem_append_left _ c⟩

/-- **The whole system can come to rest**, from any state it can get into, without starting anything;
every access under way then has ended. -/
theorem can_come_to_rest {cfg : Cfg} (hl : cfg.link = true) {m : Nat → Data} {ls : List Label} {s : St} {es : List Ev}
    (hr : run cfg (init m) ls = some (s, es)) :
    ∃ ls' s' es', ls'.all Own = true ∧ run cfg s ls' = some (s', es') ∧ AtRest s' ∧
      ∀ i, Waiting s i → ∃ d, Ev.finish i d ∈ es' := by
  have h := wf_run hl ls (wf_init cfg m) hr
  have hb := beyond ls hl (wf_init cfg m) (fun _ _ => rfl) hr
  obtain ⟨s1, e1, a1, b1, c1, d1⟩ := finish_upto hl cfg.n h
  obtain ⟨s2, e2, a2, b2, c2, _, _⟩ := drain' hl b1
  obtain ⟨s3, a3, b3, c3, d3⟩ := finish_writes (cfg := cfg) s2.posted (s := s2) rfl
  obtain ⟨ls', q, r⟩ := (a1.trans a2).trans a3
  have idle : ∀ i, (s3.cache i).pc = none := by
    intro i
    rw [c3]
    refine (can_idle hl b1 a2).2 i ?_
    by_cases ci : i < cfg.n
    · exact c1 i ci
    · exact d1 i (hb i (by omega))
  refine ⟨ls', s3, _, by rw [own_quiet]; exact q, r, ⟨fun i x => x (idle i), d3.trans c2, b3⟩, fun i hi => ?_⟩
  exact ended_run hl ls' h q r hi (idle i)

/-- **No dead end**: while anything is under way, some step other than a new access can happen. -/
theorem never_stuck {cfg : Cfg} (hl : cfg.link = true) {m : Nat → Data} {ls : List Label} {s : St} {es : List Ev}
    (hr : run cfg (init m) ls = some (s, es)) (hb : ¬ AtRest s) :
    ∃ l s' es', Own l = true ∧ step cfg s l = .next s' es' := by
  obtain ⟨ls', s', es', a, b, c, _⟩ := can_come_to_rest hl hr
  cases ls' with
  | nil =>
    simp only [run, Option.some.injEq, Prod.mk.injEq] at b
    rw [← b.1] at c; exact absurd c hb
  | cons l ls' =>
    rw [List.all_cons, Bool.and_eq_true] at a
    simp only [run] at b
    cases hs : step cfg s l with
    | blocked => rw [hs] at b; cases b
    | abort => rw [hs] at b; cases b
    | next s1 e1 => exact ⟨l, s1, e1, a.1, hs⟩

/-- **No assertion of the modelled code fails** when the caches are connected over links, whatever the
races, with or without direct cache transfer. Without links one does (`read_once_asserts`). -/
theorem no_assertion_fails {cfg : Cfg} (hl : cfg.link = true) {m : Nat → Data} {ls : List Label} {s : St}
    {es : List Ev} (hr : run cfg (init m) ls = some (s, es)) (l : Label) : step cfg s l ≠ .abort := by
  have h := wf_run hl ls (wf_init cfg m) hr
  cases l with
  | rxDat =>
    intro hs
    simp only [step, stepRxDat] at hs
    cases hc : s.cur with
    | none => rw [hc] at hs; cases hs
    | some k =>
      rw [hc] at hs
      simp only at hs
      have P := (h.k k hc).ph
      unfold POk at P
      cases hw : (s.cache k.src).pc with
      | none => rw [hw] at hs; cases hp : k.phase <;> rw [hp] at hs <;> cases hs
      | some w =>
        rw [hw] at hs
        cases hp : k.phase <;> rw [hp] at hs <;> try cases hs
        rename_i g d e
        rw [hp] at P
        simp only at hs
        cases hr : rxDatCache cfg.num k g d e w (s.cache k.src) with
        | some ca => rw [hr] at hs; cases hs
        | none =>
          unfold rxDatCache at hr
          split at hr
          · cases e with
            | none => cases P.1
            | some x => cases hr
          · cases hr
  | start i c r => simp only [step]; repeat' split
                   all_goals simp
  | resume i r => simp only [step]; repeat' split
                  all_goals simp
  | pick i => simp only [step, stepPick]; repeat' split
              all_goals simp
  | snoop j => simp only [step, stepSnoop]; repeat' split
               all_goals simp
  | resp j junk => simp only [step, stepResp]; repeat' split
                   all_goals simp
  | snAck => simp only [step, stepSnAck]; repeat' split
             all_goals simp
  | memRead => simp only [step, stepMemRead]; repeat' split
               all_goals simp
  | memWrite => simp only [step, stepMemWrite]; repeat' split
                all_goals simp
  | rxComp => simp only [step, stepRxComp]; repeat' split
              all_goals simp
  | rxEvict i => simp only [step, stepRxEvict]; repeat' split
                 all_goals simp
  | rxDbid => simp only [step, stepRxDbid]; repeat' split
              all_goals simp
  | wrDat => simp only [step, stepWrDat]; repeat' split
             all_goals simp
  | snWr => simp only [step, stepSnWr]; repeat' split
            all_goals simp
  | ack => simp only [step, stepAck]; repeat' split
           all_goals simp

/-- **Without links an assertion does fail**: a ReadOnce served from memory. -/
theorem no_link_fails : ∃ ls s es, run { cfgD with link := false } (init zero) ls = some (s, es) ∧
    step { cfgD with link := false } s .rxDat = .abort := by
  have h : (match run { cfgD with link := false } (init zero) [.start 0 (ldAll 1) { load := 2 }, .pick 0, .memRead] with
    | some (s, _) => (match step { cfgD with link := false } s .rxDat with
      | .abort => true
      | _ => false)
    | none => false) = true := by decide +kernel
  cases hr : run { cfgD with link := false } (init zero) [.start 0 (ldAll 1) { load := 2 }, .pick 0, .memRead] with
  | none => rw [hr] at h; cases h
  | some p =>
    obtain ⟨s, es⟩ := p
    rw [hr] at h
    simp only at h
    refine ⟨_, s, es, hr, ?_⟩
    cases hs : step { cfgD with link := false } s .rxDat with
    | abort => rfl
    | blocked => rw [hs] at h; cases h
    | next a b => rw [hs] at h; cases h

/-! ### The hypotheses are met -/

/-- A store that found its line dirty elsewhere, caught while the other cache is snooped, with direct cache
transfer on. -/
def midway : List Label :=
  [.start 0 (st0 1 7) {}, .pick 0, .memRead, .rxDat, .ack, .resume 0 {}, .start 1 (ldAll 1) {}, .start 0 (ldAll 5) {},
   .pick 1, .snoop 0]

example : ∃ s es, run cfgD (init zero) midway = some (s, es) ∧ Waiting s 0 ∧ Waiting s 1 ∧ ¬ AtRest s := by
  have h : (match run cfgD (init zero) midway with
    | some (s, _) => (s.cache 0).pc.isSome && (s.cache 1).pc.isSome
    | none => false) = true := by decide +kernel
  cases hr : run cfgD (init zero) midway with
  | none => rw [hr] at h; cases h
  | some p =>
    obtain ⟨s, es⟩ := p
    rw [hr] at h
    simp only [Bool.and_eq_true, Option.isSome_iff_ne_none] at h
    exact ⟨s, es, rfl, h.1, h.2, fun x => x.1 0 h.1⟩

end Verif.ChiLive
