import Verif.PcAce.Writes
import Verif.PcAce.RdFaults

/-! # C72: where the ACE checker misjudges writes -/

namespace Verif.PcAce

/-! ## Deciding concrete traces -/

instance (l b : Nat) (a : Ax) : Decidable (BackOk l b a) := inferInstanceAs (Decidable (_ ∧ _))
instance (ace : Bool) (l b : Nat) (a : Ax) (t : WrT) : Decidable (AwOk ace l b a t) := inferInstanceAs (Decidable (_ ∧ _))
instance (t : WrT) (a : Ax) (r : Nat) : Decidable (BrespOk t a r) := inferInstanceAs (Decidable (_ ∧ _))
instance (b : Nat) (a : Ax) : Decidable (a.lanesOk b) := inferInstanceAs (Decidable (_ ∧ _))

instance (a : Ax) : Decidable a.Wf :=
  decidable_of_iff (a.snoop < 16 ∧ a.domain < 4 ∧ a.bar < 4 ∧ a.burst < 4 ∧ a.lock < 2)
    ⟨fun ⟨h1, h2, h3, h4, h5⟩ => ⟨h1, h2, h3, h4, h5⟩, fun h => ⟨h.1, h.2, h.3, h.4, h.5⟩⟩

instance (db : Nat) (a : Verif.Axi.Ax) (n : Nat) (strb : Nat → Bool) :
    Decidable (∃ m, a.lower db n ≤ m ∧ m ≤ a.upper db n ∧ ∀ l, l < db → (strb l = true ↔ a.lower db n ≤ l ∧ l ≤ m)) :=
  decidable_of_iff (∃ m, m < a.upper db n + 1 ∧ a.lower db n ≤ m ∧ ∀ l, l < db → (strb l = true ↔ a.lower db n ≤ l ∧ l ≤ m))
    ⟨fun ⟨m, h1, h2, h3⟩ => ⟨m, h2, by omega, h3⟩, fun ⟨m, h1, h2, h3⟩ => ⟨m, by omega, h1, h3⟩⟩

instance (db : Nat) (g : Bool) (a : Verif.Axi.Ax) (n : Nat) (strb : Nat → Bool) : Decidable (PcAxi.StrobesOk db g a n strb) := by
  unfold PcAxi.StrobesOk; infer_instance

instance (b : Nat) (g : Bool) (t : WrT) (a : Ax) (n : Nat) (s : List Bool) : Decidable (StrbOk b g t a n s) := by
  unfold StrbOk; infer_instance

def wlegalB (c : Cfg) : List Wo → List WEv → Bool
  | _, [] => true
  | q, .aw a :: es =>
    match wrOf a.snoop a.domain a.bar with
    | none => false
    | some t =>
      decide (AwOk c.ace c.line c.bus a t) && (!t.unique || q.all fun o => !o.t.back) && (!t.back || q.all fun o => !o.t.unique) &&
      (q.all fun o => o.a.id != a.id || (o.t == .barrier) == (t == .barrier)) && wlegalB c (q ++ [{ t := t, a := a }]) es
  | q, .w w :: es =>
    (match q.find? Wo.waits with
      | none => false
      | some o => decide (StrbOk c.bus c.gaps o.t o.a o.n w.strb) && decide (w.last = true ↔ o.n = o.a.len)) && wlegalB c (feed q) es
  | q, .b b :: es =>
    (match q.find? fun o => o.a.id == b.id with
      | none => false
      | some o => !o.waits && decide (BrespOk o.t o.a b.resp)) && wlegalB c (q.eraseP fun o => o.a.id == b.id) es

theorem or_imp_iff {p : Bool} {q : Prop} : (p = false ∨ q) ↔ (p = true → q) := by
  cases p <;> simp

theorem wlegalB_iff (c : Cfg) (q : List Wo) (es : List WEv) : wlegalB c q es = true ↔ WLegal c q es := by
  induction es generalizing q with
  | nil => simp [wlegalB, WLegal]
  | cons e es ih =>
    cases e with
    | aw a =>
      rw [wlegalB, WLegal]
      cases ht : wrOf a.snoop a.domain a.bar with
      | none =>
        constructor
        · intro h; cases h
        · rintro ⟨t, h, _⟩
          have := h.1
          rw [ht] at this; cases this
      | some t =>
        have e4 : ∀ o : Wo, (o.a.id != a.id || (o.t == .barrier) == (t == .barrier)) = true ↔
            (o.a.id = a.id → (o.t = .barrier ↔ t = .barrier)) := by
          intro o
          by_cases h1 : o.a.id = a.id <;> by_cases h2 : o.t = .barrier <;> by_cases h3 : t = .barrier <;>
            simp [h1, h2, h3, beq_eq_false_iff_ne.mpr]
        simp only [Bool.and_eq_true, decide_eq_true_eq, Bool.or_eq_true, Bool.not_eq_true', List.all_eq_true, ih, e4, or_imp_iff]
        constructor
        · rintro ⟨⟨⟨⟨h1, h2⟩, h3⟩, h4⟩, h5⟩; exact ⟨t, h1, h2, h3, h4, h5⟩
        · rintro ⟨t', h1, h2, h3, h4, h5⟩
          have : t' = t := by
            have := h1.1
            rw [ht] at this; cases this; rfl
          subst this
          exact ⟨⟨⟨⟨h1, h2⟩, h3⟩, h4⟩, h5⟩
    | w w =>
      rw [wlegalB, WLegal, Bool.and_eq_true, ih]
      cases q.find? Wo.waits with
      | none => simp
      | some o =>
        rw [Bool.and_eq_true, decide_eq_true_eq, decide_eq_true_eq]
        exact and_congr_left fun _ => ⟨fun h => ⟨o, rfl, h⟩, fun ⟨x, e, h⟩ => by cases e; exact h⟩
    | b b =>
      rw [wlegalB, WLegal, Bool.and_eq_true, ih]
      cases q.find? fun o => o.a.id == b.id <;> simp

def overB (id : Nat) : Bool → List Wo → Bool
  | _, [] => false
  | w, o :: q => if o.a.id = id then !o.t.data && w else overB id (w || o.waits) q

theorem overB_of (id : Nat) (q : List Wo) (h : Overtakes q id) : overB id false q = true := by
  obtain ⟨pre, o, post, rfl, h1, h2, h3, x, hx, hw⟩ := h
  have key : ∀ (pre : List Wo) (w : Bool), (∀ y ∈ pre, y.a.id ≠ id) → (w = true ∨ ∃ y ∈ pre, y.waits = true) →
      overB id w (pre ++ o :: post) = true := by
    intro pre
    induction pre with
    | nil =>
      intro w _ hw
      rcases hw with rfl | ⟨y, hy, _⟩
      · rw [List.nil_append, overB, if_pos h1, h3]; rfl
      · cases hy
    | cons z l ih =>
      intro w hi hw
      rw [List.cons_append, overB, if_neg (hi z (List.mem_cons_self ..))]
      refine ih _ (fun y hy => hi y (List.mem_cons_of_mem _ hy)) ?_
      rcases hw with rfl | ⟨y, hy, hyw⟩
      · exact Or.inl rfl
      · rcases List.mem_cons.mp hy with rfl | hy
        · left; rw [hyw, Bool.or_true]
        · exact Or.inr ⟨y, hy, hyw⟩
  exact key pre false h2 (Or.inr ⟨x, hx, hw⟩)

def quietB (c : Cfg) : List Wo → List WEv → Bool
  | _, [] => true
  | q, .aw a :: es =>
    decide (q.length < c.depth) && decide a.Wf && decide (a.id < 256) && decide (a.bar ≠ 2) && decide (a.burst ≠ 3) &&
    match wrOf a.snoop a.domain a.bar with
    | none => true
    | some t =>
      (!t.back || decide (a.burst = 1 ∧ a.len < 16) && q.all fun o => !o.t.unique && o.t != .writeClean) &&
      (!t.data || decide (a.lanesOk c.bus)) && quietB c (q ++ [{ t := t, a := a }]) es
  | q, .w w :: es =>
    (match q.find? Wo.waits with
      | none => true
      | some o => o.t != .writeLineUnique || o.n != o.a.len || PcAxi.bit w.strb (c.bus - 1)) && quietB c (feed q) es
  | q, .b b :: es => decide (b.resp < 4) && !overB b.id false q && quietB c (q.eraseP fun o => o.a.id == b.id) es

theorem quiet_of (c : Cfg) (q : List Wo) (es : List WEv) (h : quietB c q es = true) : Quiet c q es := by
  induction es generalizing q with
  | nil => trivial
  | cons e es ih =>
    cases e with
    | aw a =>
      rw [quietB] at h
      simp only [Bool.and_eq_true, decide_eq_true_eq] at h
      obtain ⟨⟨⟨⟨⟨h1, h2⟩, h3⟩, h4⟩, h5⟩, h6⟩ := h
      refine ⟨h1, h2, h3, h4, h5, ?_⟩
      intro t ht
      rw [ht] at h6
      simp only [Bool.and_eq_true, Bool.or_eq_true, Bool.not_eq_true', or_imp_iff, decide_eq_true_eq, List.all_eq_true,
        bne_iff_ne] at h6
      obtain ⟨⟨g1, g2⟩, g3⟩ := h6
      exact ⟨fun e => ⟨(g1 e).1.1, (g1 e).1.2, (g1 e).2⟩, g2, ih _ g3⟩
    | w w =>
      rw [quietB, Bool.and_eq_true] at h
      refine ⟨?_, ih _ h.2⟩
      intro o ho h1 h2
      have := h.1
      rw [ho] at this
      simpa [h1, h2] using this
    | b b =>
      rw [quietB] at h
      simp only [Bool.and_eq_true, decide_eq_true_eq, Bool.not_eq_true'] at h
      refine ⟨h.1.1, fun ho => ?_, ih _ h.2⟩
      rw [overB_of _ _ ho] at h
      exact absurd h.1.2 (by decide)

/-! ## The theorem applies -/

def allOn : List Bool := List.replicate 16 true

/-- A `WriteLineUnique` and an `Evict` behind it, a narrow unaligned write, a barrier; then a `WriteBack`. -/
def sampleWr : List WrClk :=
  [{ aw := some { id := 1, addr := 64, len := 3, size := 4, snoop := 1, domain := 1 } },
   { aw := some { id := 2, addr := 128, len := 3, size := 4, snoop := 4, domain := 1 }, w := some ⟨allOn, false⟩ },
   { aw := some { id := 3, addr := 7, len := 1, size := 2, snoop := 0, domain := 0 }, w := some ⟨allOn, false⟩ },
   { aw := some { id := 4, snoop := 0, bar := 1 }, w := some ⟨allOn, false⟩ }, { w := some ⟨allOn, true⟩ },
   { w := some ⟨[false, false, false, false, false, false, false, true], false⟩, b := some { id := 2 } },
   { w := some ⟨[false, false, false, false, false, false, false, false, true, true], true⟩, b := some { id := 1 } },
   { aw := some { id := 1, addr := 64, len := 3, size := 4, snoop := 3, domain := 1 }, b := some { id := 4 } },
   { w := some ⟨allOn, false⟩, b := some { id := 3 } }, { w := some ⟨allOn, false⟩ }, { w := some ⟨allOn, false⟩ },
   { w := some ⟨allOn, true⟩ }, { b := some { id := 1 } }]

example : Quiet {} [] (wevents sampleWr) ∧ WLegal {} [] (wevents sampleWr) :=
  ⟨quiet_of _ _ _ (by decide +kernel), (wlegalB_iff ..).mp (by decide +kernel)⟩

example : (wrRun {} {} sampleWr).2 = [] := by decide +kernel

/-- And a trace that is not legal: the last answer comes before the last beat. -/
example : Quiet {} [] (wevents (sampleWr.take 11 ++ [{ b := some { id := 1 } }])) ∧
    ¬ WLegal {} [] (wevents (sampleWr.take 11 ++ [{ b := some { id := 1 } }])) :=
  ⟨quiet_of _ _ _ (by decide +kernel), fun h => absurd ((wlegalB_iff ..).mpr h) (by decide +kernel)⟩

/-! ## Faults -/

/-- The trace is legal, yet an error is reported. -/
def WFalseAlarm (c : Cfg) (tr : List WrClk) : Prop := WLegal c [] (wevents tr) ∧ (wrRun c {} tr).2 ≠ []

/-- The trace is not legal, yet no error is reported. -/
def WMissed (c : Cfg) (tr : List WrClk) : Prop := ¬ WLegal c [] (wevents tr) ∧ (wrRun c {} tr).2 = []

theorem wfalse_of {c : Cfg} {tr : List WrClk} (h : wlegalB c [] (wevents tr) = true) (h' : (wrRun c {} tr).2 ≠ []) :
    WFalseAlarm c tr := ⟨(wlegalB_iff ..).mp h, h'⟩

theorem wmissed_of {c : Cfg} {tr : List WrClk} (h : wlegalB c [] (wevents tr) = false) (h' : (wrRun c {} tr).2 = []) :
    WMissed c tr := ⟨fun hl => by (rw [(wlegalB_iff ..).mpr hl] at h; cases h), h'⟩

/-- A `WriteBack` while a `WriteUnique` or a `WriteLineUnique` is under way passes: the search for these
looks for `WriteClean` (2197-2223). -/
theorem back_during_unique_missed (k : Nat) (hk : k = 2 ∨ k = 3) :
    WMissed {} [{ aw := some { id := 1, addr := 64, len := 3, size := 4, snoop := 1, domain := 1 } },
      { aw := some { id := 2, addr := 128, len := 3, size := 4, snoop := k, domain := 1 } }] ∧
    WMissed {} [{ aw := some { id := 1, addr := 64, len := 3, size := 4, snoop := 0, domain := 1 } },
      { aw := some { id := 2, addr := 128, len := 3, size := 4, snoop := k, domain := 1 } }] := by
  rcases hk with rfl | rfl <;>
    exact ⟨wmissed_of (by decide +kernel) (by decide +kernel), wmissed_of (by decide +kernel) (by decide +kernel)⟩

/-- And two `WriteClean`s, or a `WriteBack` after a `WriteClean`, are reported (as an ongoing `WriteUnique`
and an ongoing `WriteLineUnique`). -/
theorem back_after_clean_false_alarm (k : Nat) (hk : k = 2 ∨ k = 3) :
    WFalseAlarm {} [{ aw := some { id := 1, addr := 64, len := 3, size := 4, snoop := 2, domain := 1 } },
      { aw := some { id := 2, addr := 128, len := 3, size := 4, snoop := k, domain := 1 } }] := by
  rcases hk with rfl | rfl <;> exact wfalse_of (by decide +kernel) (by decide +kernel)

/-- The number of beats of a wrapping `WriteBack` is compared with `AWLEN`, which is one less (1896-1912):
wraps of 2 and 4 beats are reported. -/
theorem wrap_length_false_alarm (n : Nat) (hn : n = 1 ∨ n = 3) :
    WFalseAlarm {} [{ aw := some { id := 1, addr := 80, len := n, size := 4, burst := 2, snoop := 3, domain := 1 } }] := by
  rcases hn with rfl | rfl <;> exact wfalse_of (by decide +kernel) (by decide +kernel)

/-- And one of 3 beats, which no wrapping burst may have, passes. -/
theorem wrap_length_missed :
    WMissed {} [{ aw := some { id := 1, addr := 80, len := 2, size := 4, burst := 2, snoop := 3, domain := 1 } }] :=
  wmissed_of (by decide +kernel) (by decide +kernel)

/-- A `WriteBack` of more than 16 beats passes (1871-1873 add to the message, without an error). -/
theorem long_back_missed :
    WMissed { line := 64, bus := 2 } [{ aw := some { id := 1, addr := 64, len := 31, size := 1, snoop := 3, domain := 1 } }] :=
  wmissed_of (by decide +kernel) (by decide +kernel)

/-- The last beat of a `WriteLineUnique` may lack strobes, one lane is enough (the rule for the last beat
of a plain write, 1565-1588). -/
theorem line_unique_strobes_missed :
    WMissed {} [{ aw := some { id := 1, addr := 64, len := 3, size := 4, snoop := 1, domain := 1 } },
      { w := some ⟨allOn, false⟩ }, { w := some ⟨allOn, false⟩ }, { w := some ⟨allOn, false⟩ }, { w := some ⟨[true], true⟩ }] :=
  wmissed_of (by decide +kernel) (by decide +kernel)

/-- An answer to an `Evict`, or to a barrier, that does not wait for the data of an earlier write of another
identifier, is reported as unexpected. -/
theorem evict_answer_false_alarm :
    WFalseAlarm {} [{ aw := some { id := 1, addr := 0, size := 4 } },
      { aw := some { id := 2, addr := 64, len := 3, size := 4, snoop := 4, domain := 1 } }, { b := some { id := 2 } }] ∧
    WFalseAlarm {} [{ aw := some { id := 1, addr := 0, size := 4 } }, { aw := some { id := 2, bar := 1 } }, { b := some { id := 2 } }] :=
  ⟨wfalse_of (by decide +kernel) (by decide +kernel), wfalse_of (by decide +kernel) (by decide +kernel)⟩

/-- Identifiers are kept in 8 bits (1486): with wider ones a plain write is reported at its answer. -/
theorem wide_id_write_false_alarm :
    WFalseAlarm {} [{ aw := some { id := 256, size := 4 } }, { w := some ⟨allOn, true⟩ }, { b := some { id := 256 } }] :=
  wfalse_of (by decide +kernel) (by decide +kernel)

/-- A write that ignores barriers (`AWBAR` 2) is taken for a barrier: its data are unexpected. -/
theorem ignore_barriers_write_false_alarm :
    WFalseAlarm {} [{ aw := some { id := 1, size := 4, bar := 2 } }, { w := some ⟨allOn, true⟩ }, { b := some { id := 1 } }] :=
  wfalse_of (by decide +kernel) (by decide +kernel)

/-- The reserved burst is accepted for a whole line, at any address. -/
theorem reserved_burst_write_missed :
    WMissed {} [{ aw := some { id := 1, addr := 3, len := 3, size := 4, burst := 3, snoop := 1, domain := 1 } }] ∧
    WMissed {} [{ aw := some { id := 1, addr := 64, len := 3, size := 4, burst := 3, snoop := 3, domain := 1 } }] :=
  ⟨wmissed_of (by decide +kernel) (by decide +kernel), wmissed_of (by decide +kernel) (by decide +kernel)⟩

/-- Data before their address, which AXI allows, are reported whatever they are. -/
theorem data_first_reported (c : Cfg) (w : W) (tr : List WrClk) : WErr.unexpected ∈ (wrRun c {} ({ w := some w } :: tr)).2 := by
  simp [wrRun, wrStep, wrAw, wrW]

/-- With the answers outstanding at the depth, a further write is reported when its data are complete and
forgotten, and its answer is reported again. -/
theorem resp_overflow_reported_twice :
    (wrRun { depth := 1 } {} [{ aw := some { id := 1, size := 4 } }, { w := some ⟨allOn, true⟩ },
      { aw := some { id := 2, size := 4 } }, { w := some ⟨allOn, true⟩ }, { b := some { id := 2 } }]).2 = [.maxResp, .unknownId] := by
  decide +kernel

end Verif.PcAce
