import Verif.RtlRam.Inv

/-!
# The data RAM allocator: the state machines

Helper lemmas: which branch a cycle takes, and that the state machines stay in
step.
-/

namespace Verif.RtlRam

theorem step_idle (c : Cfg) {s : Regs} (f : Fsm s) (i : In) (h1 : s.ser ≠ .alc) (h2 : s.ser ≠ .dealc) :
    step c s i = { front s i with
      alc := .idle, preAlc := false, preFail := false, dst := .idle, preDealc := fun _ => false } := by
  have : s.serValid = false := by
    rw [f.flags.1]
    cases hs : s.ser <;> simp_all
  unfold step
  simp [this]

theorem step_alc (c : Cfg) {s : Regs} (f : Fsm s) (i : In) (h : s.ser = .alc) :
    step c s i = alcStep c s i (front s i) := by
  have a : s.serValid = true := by rw [f.flags.1, h]; rfl
  have b : s.serDealc = false := by rw [f.flags.2, h]; rfl
  unfold step
  simp [a, b]

theorem step_dealc (c : Cfg) {s : Regs} (f : Fsm s) (i : In) (h : s.ser = .dealc) :
    step c s i = dealcStep s (front s i) := by
  have a : s.serValid = true := by rw [f.flags.1, h]; rfl
  have b : s.serDealc = true := by rw [f.flags.2, h]; rfl
  unfold step
  simp [a, b]

/-- What every cycle does to the registers outside the list. -/
structure SameFront (s' r : Regs) : Prop where
  alcFf : s'.alcFf = r.alcFf
  descIdx : s'.descIdx = r.descIdx
  svcFf : s'.svcFf = r.svcFf
  descVld : s'.descVld = r.descVld
  txnFf : s'.txnFf = r.txnFf
  txn : s'.txn = r.txn
  cmplFf : s'.cmplFf = r.cmplFf
  save : s'.save = r.save
  vec : s'.vec = r.vec
  ser : s'.ser = r.ser
  serValid : s'.serValid = r.serValid
  serDealc : s'.serDealc = r.serDealc
  ansValid : s'.ansValid = r.ansValid

theorem alcStep_front (c : Cfg) (s : Regs) (i : In) (r : Regs) : SameFront (alcStep c s i r) r := by
  unfold alcStep
  split
  · split <;> exact ⟨rfl, rfl, rfl, rfl, rfl, rfl, rfl, rfl, rfl, rfl, rfl, rfl, rfl⟩
  all_goals exact ⟨rfl, rfl, rfl, rfl, rfl, rfl, rfl, rfl, rfl, rfl, rfl, rfl, rfl⟩

theorem dealcStep_front (s r : Regs) : SameFront (dealcStep s r) r := by
  unfold dealcStep
  split <;> exact ⟨rfl, rfl, rfl, rfl, rfl, rfl, rfl, rfl, rfl, rfl, rfl, rfl, rfl⟩

theorem step_front (c : Cfg) (s : Regs) (i : In) : SameFront (step c s i) (front s i) := by
  unfold step
  dsimp only
  split
  · exact alcStep_front c s i _
  · split
    · exact dealcStep_front s _
    · exact ⟨rfl, rfl, rfl, rfl, rfl, rfl, rfl, rfl, rfl, rfl, rfl, rfl, rfl⟩

theorem any_false {v : Nat → Bool} (h : any v = false) {d : Nat} (hd : d < 16) : v d = false := by
  cases hv : v d with
  | false => rfl
  | true => rw [any_iff.mpr ⟨d, hd, hv⟩] at h; cases h

theorem any_none : any (fun _ => false) = false := by decide

theorem any_mono {v u : Nat → Bool} (h : ∀ d, v d = true → u d = true) (hv : any v = true) : any u = true := by
  obtain ⟨d, hd, e⟩ := any_iff.mp hv
  exact any_iff.mpr ⟨d, hd, h d e⟩

/-- The next service state. -/
theorem serNext_flags (s : Regs) : (serNext s).2.1 = ((serNext s).1 == .alc || (serNext s).1 == .dealc) ∧
    (serNext s).2.2 = ((serNext s).1 == .dealc) := by
  unfold serNext
  split <;> (repeat' split) <;> exact ⟨rfl, rfl⟩

theorem fsm_step (c : Cfg) {s : Regs} (f : Fsm s) (i : In) : Fsm (step c s i) := by
  have sf := step_front c s i
  have hvs : ∀ d, (step c s i).vec d = true → (step c s i).save d = true := by
    intro d
    rw [sf.vec, sf.save]
    unfold front
    dsimp only
    cases s.preDealc d with
    | true => intro h; simpa using h
    | false =>
      simp only [Bool.false_eq_true, if_false]
      split
      · intro h
        rw [f.vec d h]
        simp
      · intro h
        rw [h]
        simp
  have hfl : (step c s i).serValid = ((step c s i).ser == .alc || (step c s i).ser == .dealc) ∧
      ((step c s i).serDealc = ((step c s i).ser == .dealc)) := by
    rw [sf.serValid, sf.serDealc, sf.ser]
    exact serNext_flags s
  have hpd0 : s.dst ≠ .updateLl → s.preDealc = fun _ => false := fun h => by rw [f.preDealc, if_neg h]
  have hser : (step c s i).ser = (serNext s).1 := by rw [sf.ser]; rfl
  have htxn : (step c s i).txn = (if s.preAlc then false else if i.txnValid && !s.txnFf then true else s.txn) := by
    rw [sf.txn]; rfl
  have hvec : (step c s i).vec = fun d =>
      if s.preDealc d then false else if s.serValid && s.serDealc then s.vec d else s.save d := by
    rw [sf.vec]; rfl
  have hsvc : (step c s i).svcFf = (s.serValid && s.serDealc) := by rw [sf.svcFf]; rfl
  have hentry : s.ser ≠ .dealc → any s.vec = true → any (step c s i).vec = true := by
    intro hn ha
    have hd := f.dst hn
    refine any_mono (v := s.vec) (fun d h => ?_) ha
    rw [hvec, hpd0 (by rw [hd]; decide)]
    have : s.serDealc = false := by rw [f.flags.2]; cases hs : s.ser <;> simp_all
    simp [this, f.vec d h]
  have hentrySvc : s.ser ≠ .dealc → (step c s i).svcFf = false := by
    intro hn
    have : s.serDealc = false := by rw [f.flags.2]; cases hs : s.ser <;> simp_all
    rw [hsvc, this, Bool.and_false]
  have htxn' : s.preAlc = false → s.txn = true → (step c s i).txn = true := by
    intro h1 h2
    rw [htxn, h1, h2]
    simp
  cases hs : s.ser with
  | alc =>
    have hd : s.dst = .idle := f.dst (by rw [hs]; decide)
    have e := step_alc c f i hs
    have hst : (step c s i).dst = .idle ∧ (step c s i).preDealc = fun _ => false := by
      have hp := hpd0 (by rw [hd]; decide)
      rw [e]
      unfold alcStep
      split
      · split
        · exact ⟨hd, hp⟩
        · exact ⟨hd, hp⟩
      all_goals exact ⟨hd, hp⟩
    have hal : (step c s i).preAlc = ((step c s i).alc == .newLl || (step c s i).alc == .addNode) ∧
        (step c s i).preFail = ((step c s i).alc == .failed) ∧
        ((s.preAlc = true ∨ s.preFail = true) → (step c s i).alc = .idle) := by
      rw [e, f.preAlc, f.preFail]
      unfold alcStep
      split
      · rename_i ha
        split <;> exact ⟨rfl, rfl, fun h => by rw [ha] at h; rcases h with h | h <;> cases h⟩
      · exact ⟨rfl, rfl, fun _ => rfl⟩
      · rename_i ha
        exact ⟨rfl, rfl, fun h => by rw [ha] at h; rcases h with h | h <;> cases h⟩
      · rename_i ha
        exact ⟨rfl, rfl, fun h => by rw [ha] at h; rcases h with h | h <;> cases h⟩
      · rename_i ha
        exact ⟨rfl, rfl, fun h => by rw [ha] at h; rcases h with h | h <;> cases h⟩
      · rename_i ha
        dsimp only
        cases any s.avail && any s.space
        · exact ⟨rfl, rfl, fun h => by rw [ha] at h; rcases h with h | h <;> cases h⟩
        · exact ⟨rfl, rfl, fun h => by rw [ha] at h; rcases h with h | h <;> cases h⟩
      · exact ⟨rfl, rfl, fun _ => rfl⟩
      · rename_i ha
        exact ⟨rfl, rfl, fun h => by rw [ha] at h; rcases h with h | h <;> cases h⟩
      · exact ⟨rfl, rfl, fun _ => rfl⟩
    have hn : (serNext s).1 = if s.preAlc then (if any s.vec then .dealc else .idle)
        else if s.preFail then (if any s.vec then .dealc else .waitDealc) else .alc := by
      unfold serNext
      rw [hs]
      dsimp only
      cases s.preAlc <;> cases s.preFail <;> cases any s.vec <;> rfl
    refine ⟨hfl, ?_, hal.1, hal.2.1, ?_, fun _ => hst.1, ?_, hvs, ?_, fun _ _ => hentrySvc (by rw [hs]; decide)⟩
    · intro h
      apply hal.2.2
      rw [hser, hn] at h
      cases h1 : s.preAlc with
      | true => exact Or.inl rfl
      | false =>
        cases h2 : s.preFail with
        | true => exact Or.inr rfl
        | false => rw [h1, h2] at h; simp at h
    · intro h
      rw [hser, hn] at h
      have hp : s.preAlc = false := by
        cases h1 : s.preAlc with
        | false => rfl
        | true => rw [h1] at h; cases h2 : any s.vec <;> rw [h2] at h <;> simp at h
      exact htxn' hp (f.txn hs)
    · rw [hst.1, hst.2]; rfl
    · intro h
      rw [hser, hn] at h
      apply hentry (by rw [hs]; decide)
      cases h2 : any s.vec with
      | true => rfl
      | false => rw [h2] at h; cases h1 : s.preAlc <;> cases h3 : s.preFail <;> rw [h1, h3] at h <;> simp at h
  | dealc =>
    have e := step_dealc c f i hs
    have ha : s.alc = .idle := f.alc (by rw [hs]; decide)
    have hpa : s.preAlc = false := by rw [f.preAlc, ha]; rfl
    have hpf : s.preFail = false := by rw [f.preFail, ha]; rfl
    have hv : s.serValid = true := by rw [f.flags.1, hs]; rfl
    have hdl : s.serDealc = true := by rw [f.flags.2, hs]; rfl
    have hal : (step c s i).alc = .idle ∧ (step c s i).preAlc = false ∧ (step c s i).preFail = false := by
      rw [e]
      unfold dealcStep
      split <;> exact ⟨ha, hpa, hpf⟩
    have hn : (serNext s).1 = if any s.preDealc then (if s.txn then .alc else .idle) else .dealc := by
      unfold serNext
      rw [hs]
      dsimp only
      cases any s.preDealc <;> cases s.txn <;> rfl
    have hup : s.dst = .updateLl → any s.preDealc = true := by
      intro h
      rw [f.preDealc, if_pos h]
      exact f.some hs
    have hnup : s.dst ≠ .updateLl → any s.preDealc = false := by
      intro h
      rw [hpd0 h]
      exact any_none
    have hdst : (step c s i).dst = (match s.dst with
        | .idle => .calSubVec | .calSubVec => .calSubcnt | .calSubcnt => .calLlIdx
        | .calLlIdx => .calNextVec | .calNextVec => .updateLl | .updateLl => Dealc.idle) := by
      rw [e]
      unfold dealcStep
      split <;> rename_i h <;> rw [h]
    have hkeep : s.dst ≠ .updateLl → (step c s i).vec = s.vec := by
      intro h
      rw [hvec, hpd0 h, hv, hdl]
      rfl
    refine ⟨hfl, fun _ => hal.1, ?_, ?_, ?_, ?_, ?_, hvs, ?_, ?_⟩
    · rw [hal.1, hal.2.1]; rfl
    · rw [hal.1, hal.2.2]; rfl
    · intro h
      rw [hser, hn] at h
      have : s.txn = true := by
        cases h1 : s.txn with
        | true => rfl
        | false => rw [h1] at h; cases h2 : any s.preDealc <;> rw [h2] at h <;> simp at h
      exact htxn' hpa this
    · intro h
      rw [hser, hn] at h
      by_cases hu : s.dst = .updateLl
      · rw [hdst, hu]
      · rw [hnup hu] at h; simp at h
    · rw [hdst]
      cases hd : s.dst
      case calNextVec =>
        rw [if_pos rfl, hkeep (by rw [hd]; decide), e]
        unfold dealcStep
        rw [hd]
      all_goals
        rw [if_neg (by decide), e]
        unfold dealcStep
        rw [hd]
    · intro h
      rw [hser, hn] at h
      by_cases hu : s.dst = .updateLl
      · rw [hup hu] at h; cases h1 : s.txn <;> rw [h1] at h <;> simp at h
      · rw [hkeep hu]; exact f.some hs
    · intro h h2
      rw [hser, hn] at h
      exfalso
      by_cases hu : s.dst = .updateLl
      · rw [hup hu] at h; cases h1 : s.txn <;> rw [h1] at h <;> simp at h
      · rw [hdst] at h2
        cases hd : s.dst <;> rw [hd] at h2 <;> simp_all
  | idle =>
    have e := step_idle c f i (by rw [hs]; decide) (by rw [hs]; decide)
    have ha : s.alc = .idle := f.alc (by rw [hs]; decide)
    have hpa : s.preAlc = false := by rw [f.preAlc, ha]; rfl
    have hn : (serNext s).1 = if s.txn then .alc else if any s.vec then .dealc else .idle := by
      unfold serNext
      rw [hs]
      dsimp only
      cases any s.vec <;> cases s.txn <;> rfl
    have x1 : (step c s i).alc = .idle := by rw [e]
    have x2 : (step c s i).preAlc = false := by rw [e]
    have x3 : (step c s i).preFail = false := by rw [e]
    have x4 : (step c s i).dst = .idle := by rw [e]
    have x5 : (step c s i).preDealc = fun _ => false := by rw [e]
    refine ⟨hfl, fun _ => x1, by rw [x1, x2]; rfl, by rw [x1, x3]; rfl, ?_, fun _ => x4, by rw [x4, x5]; rfl, hvs, ?_,
      fun _ _ => hentrySvc (by rw [hs]; decide)⟩
    · intro h
      rw [hser, hn] at h
      apply htxn' hpa
      cases h1 : s.txn with
      | true => rfl
      | false => rw [h1] at h; cases h2 : any s.vec <;> rw [h2] at h <;> simp at h
    · intro h
      rw [hser, hn] at h
      apply hentry (by rw [hs]; decide)
      cases h2 : any s.vec with
      | true => rfl
      | false => rw [h2] at h; cases h1 : s.txn <;> rw [h1] at h <;> simp at h
  | waitDealc =>
    have e := step_idle c f i (by rw [hs]; decide) (by rw [hs]; decide)
    have hn : (serNext s).1 = if any s.vec then .dealc else .waitDealc := by
      unfold serNext
      rw [hs]
      dsimp only
      cases any s.vec <;> rfl
    have x1 : (step c s i).alc = .idle := by rw [e]
    have x2 : (step c s i).preAlc = false := by rw [e]
    have x3 : (step c s i).preFail = false := by rw [e]
    have x4 : (step c s i).dst = .idle := by rw [e]
    have x5 : (step c s i).preDealc = fun _ => false := by rw [e]
    refine ⟨hfl, fun _ => x1, by rw [x1, x2]; rfl, by rw [x1, x3]; rfl, ?_, fun _ => x4, by rw [x4, x5]; rfl, hvs, ?_,
      fun _ _ => hentrySvc (by rw [hs]; decide)⟩
    · intro h
      rw [hser, hn] at h
      cases h2 : any s.vec <;> rw [h2] at h <;> simp at h
    · intro h
      rw [hser, hn] at h
      apply hentry (by rw [hs]; decide)
      cases h2 : any s.vec with
      | true => rfl
      | false => rw [h2] at h; simp at h

end Verif.RtlRam
