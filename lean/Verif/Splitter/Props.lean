import Verif.Splitter.Model
/-!
C37: the splitter performs an access on every target and reports failures.
-/
namespace Verif.Splitter
open Verif

variable {σ : Type}

/-- What TLM-2.0 allows a target to change: the response status and, for a read,
the contents (not the length) of the data buffer. -/
def Obeys (t : Target σ) : Prop :=
  ∀ s p, (t s p).2.gp.cmd = p.gp.cmd ∧ (t s p).2.gp.addr = p.gp.addr ∧ (t s p).2.gp.be = p.gp.be ∧
    (t s p).2.gp.sw = p.gp.sw ∧ (t s p).2.gp.data.length = p.gp.data.length ∧
    (p.gp.cmd ≠ .read → (t s p).2.gp.data = p.gp.data)

/-- The same access, as far as a target can see before it answers. -/
def SameAccess (a b : Gp) : Prop :=
  a.cmd = b.cmd ∧ a.addr = b.addr ∧ a.be = b.be ∧ a.sw = b.sw ∧ a.data.length = b.data.length ∧
    (b.cmd ≠ .read → a.data = b.data)

theorem loop_nocheck (ts : List (Target σ × σ)) : ∀ p resp ref, (loop false ts p resp ref).1.mismatch = false := by
  induction ts with
  | nil => intros; rfl
  | cons x ts ih =>
    obtain ⟨t, s⟩ := x
    intro p resp ref
    simp only [loop, Bool.false_and, Bool.false_eq_true, if_false]
    exact ih _ _ _

/-- Without a mismatch every target is called exactly once, in order. -/
theorem loop_calls {check : Bool} (ts : List (Target σ × σ)) : ∀ p resp ref,
    (loop check ts p resp ref).1.mismatch = false →
    (loop check ts p resp ref).1.calls.length = ts.length ∧
    (loop check ts p resp ref).1.states =
      (ts.zip (loop check ts p resp ref).1.calls).map (fun x => (x.1.1 x.1.2 x.2.1).1) ∧
    ((loop check ts p resp ref).1.calls).map (·.2) =
      (ts.zip (loop check ts p resp ref).1.calls).map (fun x => (x.1.1 x.1.2 x.2.1).2) := by
  induction ts with
  | nil => intros; exact ⟨rfl, rfl, rfl⟩
  | cons x ts ih =>
    obtain ⟨t, s⟩ := x
    intro p resp ref h
    simp only [loop] at h ⊢
    split at h
    · exact absurd h (by simp)
    · rename_i hb
      rw [if_neg hb]
      obtain ⟨h1, h2, h3⟩ := ih _ _ _ h
      refine ⟨congrArg (· + 1) h1, ?_, ?_⟩
      · simp only [List.zip_cons_cons, List.map_cons]
        rw [← h2]
      · simp only [List.zip_cons_cons, List.map_cons]
        rw [← h3]

theorem loop_same {check : Bool} {g : Gp} (ts : List (Target σ × σ)) (ho : ∀ x ∈ ts, Obeys x.1) :
    ∀ p resp ref, SameAccess p.gp g →
    (∀ c ∈ (loop check ts p resp ref).1.calls, SameAccess c.1.gp g) ∧
      SameAccess (loop check ts p resp ref).2.1.gp g := by
  induction ts with
  | nil => intro p resp ref h; exact ⟨fun c hc => by simp [loop] at hc, h⟩
  | cons x ts ih =>
    obtain ⟨t, s⟩ := x
    intro p resp ref h
    obtain ⟨o1, o2, o3, o4, o5, o6⟩ := ho (t, s) List.mem_cons_self s p
    obtain ⟨h1, h2, h3, h4, h5, h6⟩ := h
    have h' : SameAccess (t s p).2.gp g :=
      ⟨o1.trans h1, o2.trans h2, o3.trans h3, o4.trans h4, o5.trans h5,
        fun hc => (o6 (h1 ▸ hc)).trans (h6 hc)⟩
    have r := ih (fun x hx => ho x (List.mem_cons_of_mem _ hx)) (t s p).2
    simp only [loop]
    split
    · refine ⟨?_, h'⟩
      intro c hc
      simp only [List.mem_singleton] at hc
      subst hc
      exact ⟨h1, h2, h3, h4, h5, h6⟩
    · refine ⟨?_, (r _ _ h').2⟩
      intro c hc
      simp only [List.mem_cons] at hc
      rcases hc with rfl | hc
      · exact ⟨h1, h2, h3, h4, h5, h6⟩
      · exact (r _ _ h').1 c hc

/-- Every target is called once, in order, with the initiator's access; what the
targets do to their state is what that access does. For any number of targets. -/
theorem replicated {ts : List (Target σ × σ)} (ho : ∀ x ∈ ts, Obeys x.1) (p : Pay) :
    (transport false ts p).1.calls.length = ts.length ∧
    (∀ c ∈ (transport false ts p).1.calls, SameAccess c.1.gp p.gp) ∧
    (transport false ts p).1.states =
      (ts.zip (transport false ts p).1.calls).map (fun x => (x.1.1 x.1.2 x.2.1).1) ∧
    SameAccess (transport false ts p).2.gp p.gp := by
  have hm := loop_nocheck ts p .ok none
  have hc := loop_calls ts p .ok none hm
  have hs := loop_same (check := false) ts ho p .ok none
    (g := p.gp) ⟨rfl, rfl, rfl, rfl, rfl, fun _ => rfl⟩
  refine ⟨hc.1, hs.1, hc.2.1, ?_⟩
  simp only [transport, hm, Bool.false_eq_true, if_false]
  exact hs.2

theorem loop_status {check : Bool} (ts : List (Target σ × σ)) : ∀ p resp ref,
    (loop check ts p resp ref).2.2 =
      (((loop check ts p resp ref).1.calls.map (fun c => c.2.status)).filter (· ≠ .ok)).getLastD resp := by
  induction ts with
  | nil => intros; rfl
  | cons x ts ih =>
    obtain ⟨t, s⟩ := x
    intro p resp ref
    simp only [loop]
    split
    · by_cases h : (t s p).2.status = .ok <;> simp [h]
    · simp only [List.map_cons]
      rw [ih]
      by_cases h : (t s p).2.status = .ok
      · simp [h]
      · rw [if_pos h, List.filter_cons_of_pos (by simp [h]), List.getLastD_cons]

/-- The reported status is a failure exactly if a target failed, and then it is
the status of the last target that did. -/
theorem status_reported {check : Bool} {ts : List (Target σ × σ)} {p : Pay}
    (hm : (transport check ts p).1.mismatch = false) :
    ((transport check ts p).2.status = .ok ↔
      ∀ c ∈ (transport check ts p).1.calls, c.2.status = .ok) ∧
    (transport check ts p).2.status =
      (((transport check ts p).1.calls.map (fun c => c.2.status)).filter (· ≠ .ok)).getLastD .ok := by
  have hm' : (loop check ts p .ok none).1.mismatch = false := hm
  have e : (transport check ts p).2.status =
      (((transport check ts p).1.calls.map (fun c => c.2.status)).filter (· ≠ .ok)).getLastD .ok := by
    simp only [transport, hm', Bool.false_eq_true, if_false]
    exact loop_status ts p .ok none
  refine ⟨?_, e⟩
  rw [e]
  constructor
  · intro h c hc
    cases hl : (((transport check ts p).1.calls.map (fun c => c.2.status)).filter (· ≠ .ok)) with
    | nil =>
      have := List.filter_eq_nil_iff.1 hl c.2.status (List.mem_map.2 ⟨c, hc, rfl⟩)
      simpa using this
    | cons a l =>
      have mem : (((transport check ts p).1.calls.map (fun c => c.2.status)).filter (· ≠ .ok)).getLastD .ok
          ∈ (((transport check ts p).1.calls.map (fun c => c.2.status)).filter (· ≠ .ok)) := by
        rw [hl, List.getLastD_cons]
        cases l with
        | nil => simp
        | cons b l => 
          rw [List.getLastD_cons]
          exact List.mem_cons_of_mem _ List.getLastD_mem_cons
      have := (List.mem_filter.1 mem).2
      rw [h] at this
      simp at this
  · intro h
    have : (((transport check ts p).1.calls.map (fun c => c.2.status)).filter (· ≠ .ok)) = [] := by
      rw [List.filter_eq_nil_iff]
      intro s hs
      obtain ⟨c, hc, rfl⟩ := List.mem_map.1 hs
      simp [h c hc]
    rw [this]; rfl

theorem loop_check {ts : List (Target σ × σ)} (ho : ∀ x ∈ ts, Obeys x.1) : ∀ p resp (r : List Byte),
    p.gp.cmd = .read →
    ((loop true ts p resp (some r)).1.mismatch = false →
      ∀ c ∈ (loop true ts p resp (some r)).1.calls, c.2.gp.data = r) ∧
    ((loop true ts p resp (some r)).1.mismatch = true →
      ∃ c ∈ (loop true ts p resp (some r)).1.calls, c.2.gp.data ≠ r) := by
  induction ts with
  | nil => intro p resp r _; exact ⟨fun _ c hc => by simp [loop] at hc, fun h => by simp [loop] at h⟩
  | cons x ts ih =>
    obtain ⟨t, s⟩ := x
    intro p resp r hc
    have hr : (t s p).2.gp.cmd = .read := (ho (t, s) List.mem_cons_self s p).1.trans hc
    have ih' := ih (fun x hx => ho x (List.mem_cons_of_mem _ hx)) (t s p).2
      (if (t s p).2.status ≠ .ok then (t s p).2.status else resp) r hr
    simp only [loop, hr, decide_true, Bool.true_and, if_true, differs, keepRef]
    by_cases hd : r = (t s p).2.gp.data
    · rw [if_neg (by simp [hd])]
      refine ⟨fun h c hc => ?_, fun h => ?_⟩
      · simp only [List.mem_cons] at hc
        rcases hc with rfl | hc
        · exact hd.symm
        · exact ih'.1 h c hc
      · obtain ⟨c, hc, hne⟩ := ih'.2 h
        exact ⟨c, List.mem_cons_of_mem _ hc, hne⟩
    · rw [if_pos (by simp [hd])]
      exact ⟨fun h => by simp at h, fun _ => ⟨_, List.mem_singleton.2 rfl, fun h => hd h.symm⟩⟩

/-- With the read comparison switched on, a read is accepted exactly if all
targets returned the same data. -/
theorem mismatch_iff {t : Target σ} {s : σ} {ts : List (Target σ × σ)} (ho : ∀ x ∈ (t, s) :: ts, Obeys x.1)
    {p : Pay} (hc : p.gp.cmd = .read) :
    (transport true ((t, s) :: ts) p).1.mismatch = false ↔
      ∀ c ∈ (transport true ((t, s) :: ts) p).1.calls, c.2.gp.data = (t s p).2.gp.data := by
  have hr : (t s p).2.gp.cmd = .read := (ho (t, s) List.mem_cons_self s p).1.trans hc
  have k := loop_check (ts := ts) (fun x hx => ho x (List.mem_cons_of_mem _ hx)) (t s p).2
    (if (t s p).2.status ≠ .ok then (t s p).2.status else .ok) (t s p).2.gp.data hr
  simp only [transport, loop, hr, decide_true, Bool.true_and, Bool.false_eq_true,
    if_false, if_true, differs, keepRef]
  constructor
  · intro h c hc
    simp only [List.mem_cons] at hc
    rcases hc with rfl | hc
    · rfl
    · exact k.1 h c hc
  · intro h
    cases hm : (loop true ts (t s p).2 (if (t s p).2.status ≠ .ok then (t s p).2.status else .ok)
        (some (t s p).2.gp.data)).1.mismatch with
    | false => rfl
    | true =>
      obtain ⟨c, hc, hne⟩ := k.2 hm
      exact absurd (h c (List.mem_cons_of_mem _ hc)) hne

/-- A memory target that fails with the given status, or works if it is `ok`. -/
def memTarget (st : Status) : Target Mem := fun m p =>
  if st = .ok then
    ((p.gp.run m).1, { gp := { p.gp with data := (p.gp.run m).2 }, status := .ok })
  else (m, { p with status := st })

theorem memTarget_obeys (st : Status) : Obeys (memTarget st) := by
  intro m p
  unfold memTarget
  split
  · simp only [Gp.run]
    cases p.gp.cmd <;> simp
  · simp

/-- Three memories, the second fails: all are called, the failure is reported,
and the first and third have the data. -/
example :
    let r := transport false [(memTarget .ok, fun _ => 0#8), (memTarget .address, fun _ => 0#8),
      (memTarget .ok, fun _ => 0#8)] ⟨⟨.write, 4, [7#8, 8#8], [], 2⟩, .incomplete⟩
    r.2.status = .address ∧ r.1.states.map (fun m => m 5) = [8#8, 0#8, 8#8] ∧ r.1.calls.length = 3 := by
  decide +kernel

/-- FINDING. The status is not reset between targets: a target that does not set
it (the initial value `TLM_INCOMPLETE_RESPONSE` would show that) counts as
successful after one that succeeded. -/
theorem unset_status_hidden :
    let silent : Target Mem := fun m p => (m, p)
    (transport false [(memTarget .ok, fun _ => 0#8), (silent, fun _ => 0#8)]
      ⟨⟨.write, 4, [7#8], [], 1⟩, .incomplete⟩).2.status = .ok ∧
    (transport false [(silent, fun _ => 0#8), (memTarget .ok, fun _ => 0#8)]
      ⟨⟨.write, 4, [7#8], [], 1⟩, .incomplete⟩).2.status = .incomplete := by
  decide +kernel

end Verif.Splitter
