import Verif.PcAce.Reads

/-! # C72: where the ACE checker misjudges reads -/

namespace Verif.PcAce

/-! ## Deciding concrete traces -/

instance (a : Ax) : Decidable (CacheOk a) := inferInstanceAs (Decidable (_ ∧ _))
instance (l b : Nat) (a : Ax) : Decidable (LineOk l b a) := inferInstanceAs (Decidable (_ ∧ _))
instance (a : Ax) : Decidable (BarOk a) := inferInstanceAs (Decidable (_ ∧ _))
instance (b : Nat) (a : Ax) : Decidable (DvmOk b a) := inferInstanceAs (Decidable (_ ∧ _))
instance (n : Nat) : Decidable (syncOrHint n) := inferInstanceAs (Decidable (_ ∨ _))
instance (ace : Bool) (l b : Nat) (a : Ax) (t : Rd) : Decidable (ArOk ace l b a t) := inferInstanceAs (Decidable (_ ∧ _))
instance (ace : Bool) (t : Rd) (a : Ax) (n f r : Nat) : Decidable (RespOk ace t a n f r) :=
  inferInstanceAs (Decidable (_ ∧ _))

def legalB (ace : Bool) (line bus : Nat) : List Open → List Ev → Bool
  | _, [] => true
  | q, .inl a :: es =>
    match rdOf a.snoop a.domain a.bar with
    | none => false
    | some t => decide (ArOk ace line bus a t) && q.all (fun o => o.t.kind == t.kind) &&
        legalB ace line bus (q ++ [{ t := t, a := a }]) es
  | [], .inr _ :: _ => false
  | o :: q, .inr r :: es =>
    decide (RespOk ace o.t o.a o.n o.first r.resp) && decide (r.last = true ↔ o.n + 1 = o.t.beats o.a.len) &&
      legalB ace line bus
        (if r.last then q else { o with n := o.n + 1, first := if o.n = 0 then r.resp else o.first } :: q) es

theorem legalB_iff (ace : Bool) (line bus : Nat) (q : List Open) (es : List Ev) :
    legalB ace line bus q es = true ↔ Legal ace line bus q es := by
  induction es generalizing q with
  | nil => simp [legalB, Legal]
  | cons e es ih =>
    cases e with
    | inl a =>
      unfold legalB Legal
      cases ht : rdOf a.snoop a.domain a.bar with
      | none =>
        constructor
        · intro h; cases h
        · rintro ⟨t, h, _⟩
          have := h.1
          rw [ht] at this; cases this
      | some t =>
        simp only [Bool.and_eq_true, decide_eq_true_eq, List.all_eq_true, beq_iff_eq, ih]
        constructor
        · rintro ⟨⟨h1, h2⟩, h3⟩; exact ⟨t, h1, h2, h3⟩
        · rintro ⟨t', h1, h2, h3⟩
          have : t' = t := by
            have := h1.1
            rw [ht] at this; cases this; rfl
          subst this
          exact ⟨⟨h1, h2⟩, h3⟩
    | inr r =>
      cases q with
      | nil => simp [legalB, Legal]
      | cons o q =>
        unfold legalB Legal
        simp only [Bool.and_eq_true, decide_eq_true_eq, ih, and_assoc]

theorem legal_all (ace : Bool) (line bus : Nat) (evs : List Ev) (n : Nat) (hn : ∀ e ∈ evs, e.id < n)
    (h : ∀ id < n, legalB ace line bus [] (evs.filter fun e => e.id == id) = true) :
    ∀ id, Legal ace line bus [] (evs.filter fun e => e.id == id) := by
  intro id
  by_cases c : id < n
  · exact (legalB_iff ..).mp (h id c)
  · have : evs.filter (fun e => e.id == id) = [] := by
      apply List.filter_eq_nil_iff.mpr
      intro e he
      have := hn e he
      simp; omega
    rw [this]; trivial

theorem within_of_count (depth : Nat) (evs : List Ev) (h : evs.countP Ev.isAr ≤ depth) : Within depth evs := by
  intro pre hp
  have := hp.sublist.countP_le (p := Ev.isAr)
  omega

/-! ## The theorem applies -/

/-- Two reads of lines and a `ReadOnce` interleaved, a barrier and a DVM message. -/
def sampleTr : List RdCycle :=
  [.clk (some { id := 1, addr := 64, len := 3, size := 4, snoop := 1, domain := 1 }) none,
   .clk (some { id := 2, addr := 7, len := 1, size := 2, snoop := 0, domain := 2 }) (some ⟨1, 12, false⟩),
   .clk (some { id := 3, snoop := 0, bar := 1 }) (some ⟨2, 0, false⟩),
   .clk (some { id := 4, addr := 0x4000, size := 4, snoop := 0xf, domain := 1 }) (some ⟨1, 12, false⟩),
   .clk (some { id := 1, addr := 80, len := 3, size := 4, burst := 2, snoop := 0xb, domain := 1, lock := 1 }) (some ⟨3, 0, true⟩),
   .clk none (some ⟨1, 12, false⟩), .clk none (some ⟨4, 0, true⟩), .clk none (some ⟨1, 12, true⟩),
   .clk none (some ⟨2, 0, true⟩), .clk none (some ⟨1, 1, true⟩)]

theorem sampleTr_plain : Plain (events sampleTr) := by
  constructor
  · intro a ha
    simp [events, sampleTr] at ha
    rcases ha with rfl | rfl | rfl | rfl | rfl <;> refine ⟨⟨?_, ?_, ?_, ?_, ?_⟩, ?_⟩ <;> decide
  · intro a ha ht
    simp [events, sampleTr] at ha
    rcases ha with rfl | rfl | rfl | rfl | rfl
    · exact absurd ht (by decide)
    · refine ⟨rfl, fun r hr hid => ?_⟩
      simp [events, sampleTr] at hr
      rcases hr with rfl | rfl | rfl | rfl | rfl | rfl | rfl | rfl | rfl <;> revert hid <;> decide
    · exact absurd ht (by decide)
    · exact absurd ht (by decide)
    · exact absurd ht (by decide)

example : RdCycle.reset ∉ sampleTr ∧ Plain (events sampleTr) ∧ Within 64 (events sampleTr) ∧
    ∀ id, Legal true 64 16 [] ((events sampleTr).filter fun e => e.id == id) :=
  ⟨by decide, sampleTr_plain, within_of_count _ _ (by decide), legal_all _ _ _ _ 5 (by decide) (by decide +kernel)⟩

example : (rdRun {} [] sampleTr).2 = [] := by decide +kernel

/-- And traces that are not legal meet the other hypotheses: a beat too few. -/
example : (rdRun {} [] (sampleTr.take 7 ++ sampleTr.drop 8)).2 ≠ [] := by decide +kernel

/-! ## Faults -/

/-- The trace is legal, yet an error is reported. -/
def FalseAlarm (c : Cfg) (tr : List RdCycle) : Prop :=
  (∀ id, Legal c.ace c.line c.bus [] ((events tr).filter fun e => e.id == id)) ∧ (rdRun c [] tr).2 ≠ []

/-- The trace is not legal, yet no error is reported. -/
def Missed (c : Cfg) (tr : List RdCycle) : Prop :=
  (¬ ∀ id, Legal c.ace c.line c.bus [] ((events tr).filter fun e => e.id == id)) ∧ (rdRun c [] tr).2 = []

theorem missed_of {c : Cfg} {tr : List RdCycle} (id : Nat)
    (h : legalB c.ace c.line c.bus [] ((events tr).filter fun e => e.id == id) = false)
    (h' : (rdRun c [] tr).2 = []) : Missed c tr :=
  ⟨fun hl => by (rw [(legalB_iff ..).mpr (hl id)] at h; cases h), h'⟩

/-- Identifiers are kept in 8 bits (553): with wider ones a plain read is reported, at every answer. -/
theorem wide_id_false_alarm (n : Nat) (hn : 256 ≤ n) :
    FalseAlarm {} [.clk (some { id := n }) none, .clk none (some ⟨n, 0, true⟩)] := by
  constructor
  · intro id
    by_cases c : n = id
    · subst c
      simp only [events, Option.toList, List.map_cons, List.map_nil, List.append_nil, List.nil_append,
        List.cons_append, List.filter_cons, Ev.id, BEq.rfl, if_true, List.filter_nil]
      refine ⟨.readNoSnoop, ?_, by (intro o ho; cases ho), ?_, ?_, trivial⟩
      · simp [ArOk, rdOf, rdTable, CacheOk, Rd.wholeLine, Rd.dvm]
      · simp [RespOk]
      · simp [Rd.beats, Rd.oneBeat]
    · simp [events, Ev.id, c, Legal]
  · have : ¬ n % 256 = n := by omega
    simp [rdRun, rdStep, rdAr, rdR, Ax.key, this]

/-- `IsShared` is refused for every transaction coded 0 (783), so for `ReadOnce` as well. -/
theorem readOnce_shared_false_alarm :
    FalseAlarm {} [.clk (some { id := 1, domain := 1 }) none, .clk none (some ⟨1, 8, true⟩)] :=
  ⟨legal_all _ _ _ _ 2 (by decide) (by decide +kernel), by decide +kernel⟩

/-- An exclusive `ReadOnce` passes, for the same reason (768). -/
theorem readOnce_exclusive_missed :
    Missed {} [.clk (some { id := 1, domain := 1, lock := 1 }) none, .clk none (some ⟨1, 1, true⟩)] :=
  missed_of 1 (by decide +kernel) (by decide +kernel)

/-- Cache maintenance in the non-shareable domain is expected to be answered by a whole line
(amba-ace.h 244-245), though it transfers no data. -/
theorem maintenance_false_alarm (s : Nat) (hs : s = 8 ∨ s = 9 ∨ s = 13) :
    FalseAlarm {} [.clk (some { id := 1, len := 3, size := 4, snoop := s }) none, .clk none (some ⟨1, 0, true⟩)] := by
  rcases hs with rfl | rfl | rfl <;>
    exact ⟨legal_all _ _ _ _ 2 (by decide) (by decide +kernel), by decide +kernel⟩

/-- The reserved burst is accepted for a whole line, at any address (741-758). -/
theorem reserved_burst_missed :
    Missed {} [.clk (some { id := 1, addr := 3, len := 3, size := 4, burst := 3, snoop := 1, domain := 1 }) none] :=
  missed_of 1 (by decide +kernel) (by decide +kernel)

/-- An access that ignores barriers (`ARBAR` 2) is taken for a barrier (633). -/
theorem ignore_barriers_false_alarm :
    FalseAlarm {} [.clk (some { id := 1, addr := 64, len := 1, size := 4, bar := 2 }) none,
      .clk none (some ⟨1, 0, false⟩), .clk none (some ⟨1, 0, true⟩)] :=
  ⟨legal_all _ _ _ _ 2 (by decide) (by decide +kernel), by decide +kernel⟩

/-- An answer in the very cycle in which the address is accepted is not noticed. -/
theorem same_cycle_answer_accepted : (rdRun {} [] [.clk (some { id := 1 }) (some ⟨1, 0, true⟩)]).2 = [] := by
  decide +kernel

/-- A read beyond the depth is reported and forgotten, and its answer is reported again. -/
theorem depth_overflow_reported_twice (a b : Ax) (ha : a.id < 256) (hne : a.id ≠ b.id) :
    (rdRun { depth := 1 } [] [.clk (some a) none, .clk (some b) none, .clk none (some ⟨b.id, 0, true⟩)]).2 =
      checkAr { depth := 1 } [] a ++ [.maxDepth, .unknownId] := by
  have h1 : a.id % 256 = a.id := Nat.mod_eq_of_lt ha
  simp [rdRun, rdStep, rdAr, rdR, Ax.key, h1, hne]

/-! ## The limit on barriers -/

theorem many_not_checkResp (c : Cfg) (t : RTx) (r : R) : RErr.many ∉ checkResp c t r := by
  unfold checkResp err
  simp only [List.mem_append, not_or]
  refine ⟨⟨⟨?_, ?_⟩, ?_⟩, ?_⟩
  all_goals (repeat' split) <;> simp

theorem many_not_checkAr (c : Cfg) (l : List RTx) (a : Ax) (h : l.length < 256) : RErr.many ∉ checkAr c l a := by
  rw [← checkAr_filter c l a h]
  unfold arErrs err
  simp only [List.mem_append, not_or]
  refine ⟨⟨⟨?_, ?_⟩, ?_⟩, ?_⟩
  all_goals (repeat' split) <;> simp

/-- More than 256 barriers outstanding are never reported as such with the depth of the checker at 256 or
below (config-ace.h gives 64): the list is found full first, whatever is outstanding. -/
theorem barrier_limit_never_reported (c : Cfg) (h : c.depth ≤ 256) (l : List RTx) (tr : List RdCycle) :
    RErr.many ∉ (rdRun c l tr).2 := by
  have har : ∀ l a, RErr.many ∉ (rdAr c l a).2 := by
    intro l a
    unfold rdAr
    by_cases hl : l.length < c.depth
    · rw [if_pos hl]; exact many_not_checkAr c l a (by omega)
    · rw [if_neg hl]; simp
  have hrr : ∀ l r, RErr.many ∉ (rdR c l r).2 := by
    intro l r
    unfold rdR
    cases l.find? (fun t => t.ax.key == r.id) with
    | none => simp
    | some t =>
      intro hm
      rcases List.mem_append.mp hm with hm | hm
      · exact many_not_checkResp c t r hm
      · unfold err at hm
        split at hm <;> simp at hm
  induction tr generalizing l with
  | nil => simp [rdRun]
  | cons x t ih =>
    intro hm
    unfold rdRun at hm
    rcases List.mem_append.mp hm with hm | hm
    · cases x with
      | reset => simp [rdStep] at hm
      | clk ar r =>
        cases ar <;> cases r <;> simp [rdStep] at hm
        · exact hrr _ _ hm
        · exact har _ _ hm
        · rcases hm with hm | hm
          · exact har _ _ hm
          · exact hrr _ _ hm
    · exact ih _ hm

/-! ## The assertion -/

theorem mem_updFirst {α : Type} {p : α → Bool} {f : α → Option α} {x : α} (l : List α)
    (h : x ∈ updFirst p f l) : x ∈ l ∨ ∃ y ∈ l, f y = some x := by
  induction l with
  | nil => cases h
  | cons t l ih =>
    unfold updFirst at h
    by_cases e : p t = true
    · rw [if_pos e] at h
      rcases List.mem_append.mp h with h | h
      · exact Or.inr ⟨t, List.mem_cons_self, by simpa using h⟩
      · exact Or.inl (List.mem_cons_of_mem _ h)
    · rw [if_neg e] at h
      rcases List.mem_cons.mp h with h | h
      · exact Or.inl (h ▸ List.mem_cons_self)
      · rcases ih h with h | ⟨y, hy, he⟩
        · exact Or.inl (List.mem_cons_of_mem _ h)
        · exact Or.inr ⟨y, List.mem_cons_of_mem _ hy, he⟩

/-- The assertion in `Done` (589-598) never fails, whatever is seen on the channels: a transaction with a single transfer
still has all its beats before and after every beat that is counted for it. -/
theorem done_assertion_holds (c : Cfg) (tr : List RdCycle) (t : RTx) (h : t ∈ (rdRun c [] tr).1) (hs : t.ax.single = true)
    (r : R) : t.left = t.ax.len + 1 ∧ (t.after c r).left = (t.after c r).ax.len + 1 := by
  have hA : ∀ (l : List RTx) (a : Ax), (∀ t ∈ l, t.ax.single = true → t.left = t.ax.len + 1) →
      ∀ t ∈ (rdAr c l a).1, t.ax.single = true → t.left = t.ax.len + 1 := by
    intro l a hl t ht
    unfold rdAr at ht
    by_cases e : l.length < c.depth
    · rw [if_pos e] at ht
      rcases List.mem_append.mp ht with ht | ht
      · exact hl t ht
      · rw [List.mem_singleton] at ht; subst ht; intro _; rfl
    · rw [if_neg e] at ht; exact hl t ht
  have hR : ∀ (l : List RTx) (r : R), (∀ t ∈ l, t.ax.single = true → t.left = t.ax.len + 1) →
      ∀ t ∈ (rdR c l r).1, t.ax.single = true → t.left = t.ax.len + 1 := by
    intro l r hl t ht
    unfold rdR at ht
    cases hf : l.find? (fun t => t.ax.key == r.id) with
    | none => rw [hf] at ht; exact hl t ht
    | some u =>
      rw [hf] at ht
      dsimp only at ht
      rcases mem_updFirst _ ht with ht | ⟨y, hy, he⟩
      · exact hl t ht
      · by_cases e : r.last = true
        · rw [if_pos e] at he; cases he
        · rw [if_neg e] at he
          cases he
          intro hs
          have := hl y hy hs
          unfold RTx.after at hs ⊢
          dsimp only at hs ⊢
          rw [if_pos hs]
          exact this
  have key : ∀ (tr : List RdCycle) (l : List RTx), (∀ t ∈ l, t.ax.single = true → t.left = t.ax.len + 1) →
      ∀ t ∈ (rdRun c l tr).1, t.ax.single = true → t.left = t.ax.len + 1 := by
    intro tr
    induction tr with
    | nil => intro l hl t ht; exact hl t ht
    | cons x xs ih =>
      intro l hl
      refine ih _ ?_
      cases x with
      | reset => intro t ht; cases ht
      | clk ar r =>
        cases ar with
        | none => cases r with
          | none => exact hl
          | some r => exact hR l r hl
        | some a => cases r with
          | none => exact hA l a hl
          | some r => exact hR _ r (hA l a hl)
  have hl := key tr [] (fun t ht => by cases ht) t h hs
  refine ⟨hl, ?_⟩
  unfold RTx.after
  dsimp only
  rw [if_pos hs]
  exact hl

/-- A make-unique read is a single transfer and waits in the list. -/
example : ∃ t ∈ (rdRun { depth := 4 } [] [.clk (some { id := 1, snoop := 0xc, domain := 1, len := 3, addr := 0 }) none]).1,
    t.ax.single = true ∧ t.ax.len = 3 := by
  decide

end Verif.PcAce
