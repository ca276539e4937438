import Verif.AceHwConc.Model
import Verif.AxiOrder.Props

/-! # C66: several accesses at once -/

namespace Verif.AceHwConc

/-! ## Matching answers -/

namespace Out

/-- The accesses with an id, in order. -/
def withId (i : Nat) (l : List Tr) : List Tr := l.filter fun t => t.id = i

theorem withId_append (i : Nat) (a b : List Tr) : withId i (a ++ b) = withId i a ++ withId i b := List.filter_append ..

theorem lookup_some {id : Nat} : ∀ {l : List Tr} {t : Tr} {p : List Tr}, lookup id l = some (t, p) →
    t.id = id ∧ (∀ i, withId i l = withId i [t] ++ withId i p) ∧ l.Perm (t :: p) := by
  intro l
  induction l with
  | nil => intro t p h; cases h
  | cons x l ih =>
    intro t p h
    rw [lookup] at h
    by_cases hx : x.id = id
    · rw [if_pos hx] at h
      injection h with h
      injection h with h1 h2
      subst h1 h2
      refine ⟨hx, fun i => ?_, List.Perm.refl _⟩
      rw [← withId_append]; rfl
    · rw [if_neg hx] at h
      cases hl : lookup id l with
      | none => rw [hl] at h; cases h
      | some r =>
        rw [hl, Option.map_some] at h
        injection h with h
        injection h with h1 h2
        obtain ⟨a, b, c⟩ := ih (t := r.1) (p := r.2) (by rw [hl])
        subst h1 h2
        refine ⟨a, fun i => ?_, ?_⟩
        · have : withId i (x :: l) = withId i [x] ++ withId i l := by rw [← withId_append]; rfl
          have h2 : withId i (x :: r.2) = withId i [x] ++ withId i r.2 := by rw [← withId_append]; rfl
          rw [this, b i, h2]
          by_cases hi : x.id = i
          · have : withId i [r.1] = [] := by
              unfold withId
              rw [List.filter_eq_nil_iff]
              intro u hu
              simp at hu
              subst hu
              simp
              intro e
              exact hx (by rw [hi, ← e, a])
            rw [this]
            simp
          · have : withId i [x] = [] := by
              unfold withId
              rw [List.filter_eq_nil_iff]
              intro u hu
              simp at hu
              subst hu
              simp [hi]
            rw [this]
            simp
        · exact (List.Perm.cons x c).trans (List.Perm.swap _ _ _)

theorem lookup_none {id : Nat} : ∀ {l : List Tr}, lookup id l = none → withId id l = [] := by
  intro l
  induction l with
  | nil => intro _; rfl
  | cons x l ih =>
    intro h
    rw [lookup] at h
    by_cases hx : x.id = id
    · rw [if_pos hx] at h; cases h
    · rw [if_neg hx] at h
      cases hl : lookup id l with
      | none =>
        have := ih hl
        unfold withId at this ⊢
        rw [List.filter_cons_of_neg (by simp [hx])]
        exact this
      | some r => rw [hl] at h; cases h

theorem withId_move (i : Nat) (l : List Tr) (k : Nat) (t : Tr) (hk : l[k]? = some t) (hall : (l.take k).all (fun u => u.id ≠ t.id) = true) :
    withId i [t] ++ withId i (l.eraseIdx k) = withId i l := by
  have hlt : k < l.length := by
    rcases Nat.lt_or_ge k l.length with h | h
    · exact h
    · rw [List.getElem?_eq_none h] at hk; cases hk
  have hg : l[k] = t := by
    rw [List.getElem?_eq_getElem hlt] at hk
    injection hk
  have hsplit : l = l.take k ++ t :: l.drop (k + 1) := by
    conv => lhs; rw [← List.take_append_drop k l]
    rw [List.drop_eq_getElem_cons hlt, hg]
  have he : l.eraseIdx k = l.take k ++ l.drop (k + 1) := List.eraseIdx_eq_take_drop_succ l k
  have hr : withId i l = withId i (l.take k) ++ (withId i [t] ++ withId i (l.drop (k + 1))) := by
    conv => lhs; rw [hsplit]
    rw [withId_append, show t :: l.drop (k + 1) = [t] ++ l.drop (k + 1) from rfl, withId_append]
  rw [he, withId_append, hr]
  by_cases hi : t.id = i
  · have : withId i (l.take k) = [] := by
      unfold withId
      rw [List.filter_eq_nil_iff]
      intro u hu
      have := List.all_eq_true.mp hall u hu
      simp at this
      simp
      rw [← hi]
      exact this
    rw [this]
    simp
  · have : withId i [t] = [] := by
      unfold withId
      rw [List.filter_eq_nil_iff]
      intro u hu
      simp at hu
      subst hu
      simp [hi]
    rw [this]
    simp

/-- What holds as long as there was no reset and no unexpected ID. -/
structure Inv (s : St) : Prop where
  order : ∀ i, withId i (s.pend ++ pushed s.cur) = withId i (s.resp ++ s.bus ++ s.hw)
  right : ∀ e ∈ s.log, e.1 = e.2
  once : s.all.Perm (s.queue ++ (s.cur.map (·.1)).toList ++ s.pend ++ s.log.map (·.1))

theorem withId_head {t r : Tr} {a b : List Tr} (h : withId r.id (t :: a) = withId r.id (r :: b)) (ht : t.id = r.id) : t = r := by
  unfold withId at h
  rw [List.filter_cons_of_pos (by simp [ht]), List.filter_cons_of_pos (by simp)] at h
  injection h

theorem withId_cons (i : Nat) (x : Tr) (l : List Tr) : withId i (x :: l) = withId i [x] ++ withId i l := by
  rw [← withId_append]; rfl

theorem inv_step {s s' : St} (m : Move) (hi : Inv s) (h : s.move m = some s') (hf : s'.fail = false) (hw : s'.wiped = false) : Inv s' := by
  obtain ⟨queue, cur, ram, hw0, bus, resp, pend, log, sent, fail, all, overlap, wiped⟩ := s
  cases m with
  | submit id =>
    simp only [St.move] at h
    by_cases hfl : fail = true
    · rw [if_pos hfl] at h; cases h
    · rw [if_neg hfl] at h
      injection h with h
      subst h
      refine ⟨hi.order, hi.right, ?_⟩
      have := hi.once
      simp only [List.append_assoc] at this ⊢
      refine (List.Perm.append_right _ this).trans ?_
      simp only [List.append_assoc]
      refine List.Perm.append_left _ ?_
      rw [← List.append_assoc, ← List.append_assoc]
      refine List.perm_append_comm.trans ?_
      simp
  | load =>
    cases fail with
    | true => cases h
    | false =>
    cases cur with
    | some c => cases h
    | none =>
      cases queue with
      | nil => cases h
      | cons t q =>
        injection h with h
        subst h
        refine ⟨hi.order, hi.right, ?_⟩
        refine hi.once.trans ?_
        simp only [Option.map_none, Option.toList_none, Option.map_some, Option.toList_some, List.append_nil, List.cons_append, List.append_assoc,
          List.nil_append]
        exact (List.perm_middle (l₁ := q)).symm
  | push =>
    cases fail with
    | true => cases h
    | false =>
    cases cur with
    | none => cases h
    | some c =>
      obtain ⟨t, b⟩ := c
      cases b with
      | true => cases h
      | false =>
        injection h with h
        subst h
        refine ⟨fun i => ?_, hi.right, hi.once⟩
        have := hi.order i
        simp only [pushed, List.append_nil] at this
        simp only [pushed]
        rw [withId_append, this, ← withId_append]
        simp
  | record =>
    cases fail with
    | true => cases h
    | false =>
    cases cur with
    | none => cases h
    | some c =>
      obtain ⟨t, b⟩ := c
      cases b with
      | false => cases h
      | true =>
        injection h with h
        subst h
        refine ⟨fun i => ?_, hi.right, ?_⟩
        · have := hi.order i
          simp only [pushed] at this
          simp only [pushed, List.append_nil]
          exact this
        · refine hi.once.trans ?_
          simp only [Option.map_none, Option.toList_none, Option.map_some, Option.toList_some, List.append_nil, List.append_assoc]
          refine List.Perm.append_left _ ?_
          rw [← List.append_assoc, ← List.append_assoc]
          exact List.Perm.append_right _ List.perm_append_comm
  | send =>
    cases hw0 with
    | nil => cases h
    | cons t r =>
      injection h with h
      subst h
      refine ⟨fun i => ?_, hi.right, hi.once⟩
      have := hi.order i
      rw [this]
      simp
  | answer k =>
    simp only [St.move] at h
    cases hk : bus[k]? with
    | none => rw [hk] at h; cases h
    | some t =>
      rw [hk] at h
      simp only [] at h
      by_cases hall : (bus.take k).all (fun u => u.id ≠ t.id) = true
      · rw [if_pos hall] at h
        injection h with h
        subst h
        refine ⟨fun i => ?_, hi.right, hi.once⟩
        have := hi.order i
        rw [this]
        simp only [withId_append]
        rw [List.append_assoc (withId i resp) (withId i [t]), withId_move i bus k t hk hall]
      · rw [if_neg hall] at h; cases h
  | handle =>
    cases fail with
    | true => cases h
    | false =>
    cases resp with
    | nil => cases h
    | cons r rs =>
      simp only [St.move] at h
      cases hl : lookup r.id pend with
      | none =>
        rw [hl] at h
        injection h with h
        subst h
        cases hf
      | some x =>
        obtain ⟨t, p⟩ := x
        rw [hl] at h
        injection h with h
        subst h
        obtain ⟨h1, h2, h3⟩ := lookup_some hl
        have htr : t = r := by
          have := hi.order r.id
          rw [withId_append, h2 r.id, ← withId_append, ← withId_append] at this
          exact withId_head this h1
        subst htr
        refine ⟨fun i => ?_, ?_, ?_⟩
        · have := hi.order i
          rw [withId_append, h2 i] at this
          simp only [List.cons_append] at this
          rw [withId_cons i t (rs ++ bus ++ hw0), List.append_assoc] at this
          have := List.append_cancel_left this
          rw [← withId_append] at this
          exact this
        · intro e he
          rcases List.mem_append.mp he with he | he
          · exact hi.right e he
          · simp at he; subst he; rfl
        · refine hi.once.trans ?_
          simp only [List.map_append, List.map_cons, List.map_nil]
          rw [List.append_assoc, List.append_assoc (queue ++ _)]
          refine List.Perm.append_left _ ?_
          refine (List.Perm.append_right _ h3).trans ?_
          rw [← List.append_assoc]
          simp only [List.cons_append]
          refine (List.perm_append_comm (l₁ := [t]) (l₂ := p ++ log.map (·.1))).trans ?_
          exact List.Perm.refl _
  | reset =>
    injection h with h
    subst h
    cases hw

theorem flags {s s' : St} (m : Move) (h : s.move m = some s') : (s'.fail = false → s.fail = false) ∧ (s'.wiped = false → s.wiped = false) ∧
    (s'.overlap = false → s.overlap = false) := by
  obtain ⟨queue, cur, ram, hw0, bus, resp, pend, log, sent, fail, all, overlap, wiped⟩ := s
  cases m <;> simp only [St.move] at h <;> grind

theorem inv_of {s : St} (h : Reach s) (hf : s.fail = false) (hw : s.wiped = false) : Inv s := by
  induction h with
  | init => exact ⟨fun _ => rfl, fun e he => by (cases he), List.Perm.refl _⟩
  | step m hr hm ih =>
    have := flags m hm
    exact inv_step m (ih (this.1 hf) (this.2.1 hw)) hm hf hw

/-- **C66, answers.** As long as no reset happens and no response comes before its
access is recorded: every call is answered with its own response, whatever ids are
in use and in whatever order the bus answers different ids. -/
theorem answers_match_partial {s : St} (h : Reach s) (hf : s.fail = false) (hw : s.wiped = false) : ∀ e ∈ s.log, e.1 = e.2 :=
  (inv_of h hf hw).right

theorem tags {s : St} (h : Reach s) : s.all.map (·.tag) = List.range s.all.length := by
  induction h with
  | init => rfl
  | @step s s' m hr hm ih =>
    obtain ⟨queue, cur, ram, hw0, bus, resp, pend, log, sent, fail, all, overlap, wiped⟩ := s
    cases m with
    | submit id =>
      simp only [St.move] at hm
      by_cases hfl : fail = true
      · rw [if_pos hfl] at hm; cases hm
      · rw [if_neg hfl] at hm
        injection hm with hm
        subst hm
        simp only [List.map_append, List.length_append, List.map_cons, List.map_nil, List.length_cons, List.length_nil]
        rw [List.range_succ]
        simp only at ih
        rw [ih]
    | _ =>
      have : s'.all = all := by
        simp only [St.move] at hm
        grind
      rw [this]
      exact ih

/-- … exactly once: each is waiting, or being sent, or pending, or answered, and only
one of these. -/
theorem exactly_once_partial {s : St} (h : Reach s) (hf : s.fail = false) (hw : s.wiped = false) :
    s.all.Perm (s.queue ++ (s.cur.map (·.1)).toList ++ s.pend ++ s.log.map (·.1)) ∧ (s.log.map (·.1.tag)).Nodup := by
  have hp := (inv_of h hf hw).once
  refine ⟨hp, ?_⟩
  have h1 : (s.all.map (·.tag)).Nodup := by rw [tags h]; exact List.nodup_range
  have h2 := (hp.map (·.tag)).nodup_iff.mp h1
  rw [List.map_append] at h2
  have h3 := (List.nodup_append.mp h2).2.1
  rw [List.map_map] at h3
  exact h3

/-- The response comes too early exactly when its access is still between the push and
the recording, and no other with its id is pending. -/
theorem unexpected_iff {s : St} (h : Reach s) (hf : s.fail = false) (hw : s.wiped = false) (s' : St) (hm : s.move .handle = some s') :
    s'.fail = true ↔ ∃ r rs, s.resp = r :: rs ∧ s.cur = some (r, true) ∧ withId r.id s.pend = [] := by
  have hi := inv_of h hf hw
  obtain ⟨queue, cur, ram, hw0, bus, resp, pend, log, sent, fail, all, overlap, wiped⟩ := s
  simp only at hf hw
  subst hf
  cases resp with
  | nil => cases hm
  | cons r rs =>
    simp only [St.move] at hm
    cases hl : lookup r.id pend with
    | some x =>
      obtain ⟨t, p⟩ := x
      rw [hl] at hm
      injection hm with hm
      subst hm
      constructor
      · intro h; cases h
      · rintro ⟨r', rs', e, -, h0⟩
        injection e with e1 e2
        subst e1
        obtain ⟨h1, h2, -⟩ := lookup_some hl
        have := h2 r.id
        simp only at h0
        rw [h0] at this
        unfold withId at this
        rw [List.filter_cons_of_pos (by simp [h1])] at this
        simp at this
    | none =>
      rw [hl] at hm
      injection hm with hm
      subst hm
      refine ⟨fun _ => ⟨r, rs, rfl, ?_, lookup_none hl⟩, fun _ => rfl⟩
      have := hi.order r.id
      simp only [withId_append] at this
      rw [lookup_none hl, List.nil_append, withId_cons] at this
      have hr1 : withId r.id [r] = [r] := by unfold withId; simp
      rw [hr1] at this
      cases cur with
      | none => simp [pushed, withId] at this
      | some c =>
        obtain ⟨t, b⟩ := c
        cases b with
        | false => simp [pushed, withId] at this
        | true =>
          simp only [pushed] at this
          unfold withId at this
          by_cases ht : t.id = r.id
          · rw [List.filter_cons_of_pos (by simp [ht])] at this
            simp only [List.cons_append] at this
            injection this with h1 _
            simp only
            rw [h1]
          · rw [List.filter_cons_of_neg (by simp [ht])] at this
            simp at this

/-! ## Data -/

structure DInv (s : St) : Prop where
  cur : ∀ t, s.cur = some (t, false) → s.ram = some t.tag ∧ s.hw = []
  hw : s.hw = [] ∨ ∃ t, s.hw = [t] ∧ s.ram = some t.tag
  own : ∀ e ∈ s.sent, e.2 = some e.1.tag

theorem dinv_of {s : St} (h : Reach s) (ho : s.overlap = false) : DInv s := by
  induction h with
  | init => exact ⟨fun _ h => by (cases h), Or.inl rfl, fun e he => by (cases he)⟩
  | @step s s' m hr hm ih =>
    have hd := ih ((flags m hm).2.2 ho)
    obtain ⟨queue, cur, ram, hw0, bus, resp, pend, log, sent, fail, all, overlap, wiped⟩ := s
    obtain ⟨d1, d2, d3⟩ := hd
    simp only at d1 d2 d3
    cases m with
    | submit id =>
      simp only [St.move] at hm
      by_cases hfl : fail = true
      · rw [if_pos hfl] at hm; cases hm
      · rw [if_neg hfl] at hm
        injection hm with hm
        subst hm
        exact ⟨d1, d2, d3⟩
    | load =>
      cases fail with
      | true => cases hm
      | false =>
      cases cur with
      | some c => cases hm
      | none =>
        cases queue with
        | nil => cases hm
        | cons t q =>
          injection hm with hm
          subst hm
          have he : hw0 = [] := by
            simp only [Bool.or_eq_false_iff, Bool.not_eq_false'] at ho
            exact List.isEmpty_iff.mp ho.2
          subst he
          refine ⟨fun t' e => ?_, Or.inl rfl, d3⟩
          injection e with e
          injection e with e1 _
          subst e1
          exact ⟨rfl, rfl⟩
    | push =>
      cases fail with
      | true => cases hm
      | false =>
      cases cur with
      | none => cases hm
      | some c =>
        obtain ⟨t, b⟩ := c
        cases b with
        | true => cases hm
        | false =>
          injection hm with hm
          subst hm
          obtain ⟨e1, e2⟩ := d1 t rfl
          subst e2
          exact ⟨fun t' e => by (injection e with e; injection e with _ e; cases e), Or.inr ⟨t, rfl, e1⟩, d3⟩
    | record =>
      cases fail with
      | true => cases hm
      | false =>
      cases cur with
      | none => cases hm
      | some c =>
        obtain ⟨t, b⟩ := c
        cases b with
        | false => cases hm
        | true =>
          injection hm with hm
          subst hm
          exact ⟨fun t' e => by (cases e), d2, d3⟩
    | send =>
      cases hw0 with
      | nil => cases hm
      | cons t r =>
        injection hm with hm
        subst hm
        rcases d2 with h | ⟨u, h1, h2⟩
        · cases h
        · injection h1 with h1 h3
          subst h1 h3
          refine ⟨fun t' e => ⟨(d1 t' e).1, rfl⟩, Or.inl rfl, ?_⟩
          intro e he
          rcases List.mem_append.mp he with he | he
          · exact d3 e he
          · simp at he; subst he; exact h2
    | answer k =>
      simp only [St.move] at hm
      cases hk : bus[k]? with
      | none => rw [hk] at hm; cases hm
      | some t =>
        rw [hk] at hm
        simp only [] at hm
        by_cases hall : (bus.take k).all (fun u => u.id ≠ t.id) = true
        · rw [if_pos hall] at hm
          injection hm with hm
          subst hm
          exact ⟨d1, d2, d3⟩
        · rw [if_neg hall] at hm; cases hm
    | handle =>
      cases fail with
      | true => cases hm
      | false =>
      cases resp with
      | nil => cases hm
      | cons r rs =>
        simp only [St.move] at hm
        cases hl : lookup r.id pend with
        | none =>
          rw [hl] at hm
          injection hm with hm
          subst hm
          exact ⟨d1, d2, d3⟩
        | some x =>
          rw [hl] at hm
          injection hm with hm
          subst hm
          exact ⟨d1, d2, d3⟩
    | reset =>
      injection hm with hm
      subst hm
      exact ⟨fun t e => ⟨(d1 t e).1, rfl⟩, Or.inl rfl, d3⟩

/-- **C66, data.** A write carries its own data as long as no write is prepared while an
earlier one has not been sent. -/
theorem own_data_partial {s : St} (h : Reach s) (ho : s.overlap = false) : ∀ e ∈ s.sent, e.2 = some e.1.tag :=
  (dinv_of h ho).own

/-! ## Progress -/

/-- Work left: an upper bound on the moves of bridge and hardware. -/
def work (s : St) : Nat :=
  6 * s.queue.length + (match s.cur with | none => 0 | some (_, false) => 5 | some (_, true) => 1) + 3 * s.hw.length + 2 * s.bus.length + s.resp.length

/-- **C66, progress.** Bridge and hardware never do more than `work` moves without a
new access, and as long as a call is unanswered (and no reset or unexpected ID
happened) there is one they can do. -/
theorem progress_partial {s : St} (h : Reach s) (hf : s.fail = false) (hw : s.wiped = false) :
    (∀ m s', s.move m = some s' → (∀ i, m ≠ .submit i) → m ≠ .reset → work s' < work s) ∧
    (s.all.length ≠ s.log.length → ∃ m s', s.move m = some s' ∧ (∀ i, m ≠ .submit i) ∧ m ≠ .reset) := by
  have hi := inv_of h hf hw
  obtain ⟨queue, cur, ram, hw0, bus, resp, pend, log, sent, fail, all, overlap, wiped⟩ := s
  simp only at hf hw
  subst hf
  constructor
  · intro m s' hm hs hr
    cases m with
    | submit i => exact absurd rfl (hs i)
    | reset => exact absurd rfl hr
    | load =>
      cases cur with
      | some c => cases hm
      | none =>
        cases queue with
        | nil => cases hm
        | cons t q =>
          injection hm with hm
          subst hm
          simp only [work, List.length_cons]
          omega
    | push =>
      cases cur with
      | none => cases hm
      | some c =>
        obtain ⟨t, b⟩ := c
        cases b with
        | true => cases hm
        | false =>
          injection hm with hm
          subst hm
          simp only [work, List.length_append, List.length_cons, List.length_nil]
          omega
    | record =>
      cases cur with
      | none => cases hm
      | some c =>
        obtain ⟨t, b⟩ := c
        cases b with
        | false => cases hm
        | true =>
          injection hm with hm
          subst hm
          simp only [work]
          omega
    | send =>
      cases hw0 with
      | nil => cases hm
      | cons t r =>
        injection hm with hm
        subst hm
        simp only [work, List.length_append, List.length_cons, List.length_nil]
        omega
    | answer k =>
      simp only [St.move] at hm
      cases hk : bus[k]? with
      | none => rw [hk] at hm; cases hm
      | some t =>
        rw [hk] at hm
        simp only [] at hm
        by_cases hall : (bus.take k).all (fun u => u.id ≠ t.id) = true
        · rw [if_pos hall] at hm
          injection hm with hm
          subst hm
          have hlt : k < bus.length := by
            rcases Nat.lt_or_ge k bus.length with h | h
            · exact h
            · rw [List.getElem?_eq_none h] at hk; cases hk
          simp only [work, List.length_append, List.length_cons, List.length_nil, List.length_eraseIdx, if_pos hlt]
          omega
        · rw [if_neg hall] at hm; cases hm
    | handle =>
      cases resp with
      | nil => cases hm
      | cons r rs =>
        simp only [St.move] at hm
        cases hl : lookup r.id pend with
        | none =>
          rw [hl] at hm
          injection hm with hm
          subst hm
          simp only [work, List.length_cons]
          omega
        | some x =>
          rw [hl] at hm
          injection hm with hm
          subst hm
          simp only [work, List.length_cons]
          omega
  · intro hne
    cases resp with
    | cons r rs =>
      cases hl : lookup r.id pend with
      | none => exact ⟨.handle, _, by simp only [St.move, hl]; rfl, fun i h => by (cases h), fun h => by (cases h)⟩
      | some x => exact ⟨.handle, _, by simp only [St.move, hl]; rfl, fun i h => by (cases h), fun h => by (cases h)⟩
    | nil =>
      cases bus with
      | cons t b => exact ⟨.answer 0, _, by simp only [St.move, List.getElem?_cons_zero, List.take_zero, List.all_nil, if_true]; rfl, fun i h => by (cases h), fun h => by (cases h)⟩
      | nil =>
        cases hw0 with
        | cons t r => exact ⟨.send, _, rfl, fun i h => by (cases h), fun h => by (cases h)⟩
        | nil =>
          cases cur with
          | some c =>
            obtain ⟨t, b⟩ := c
            cases b with
            | false => exact ⟨.push, _, rfl, fun i h => by (cases h), fun h => by (cases h)⟩
            | true => exact ⟨.record, _, rfl, fun i h => by (cases h), fun h => by (cases h)⟩
          | none =>
            cases queue with
            | cons t q => exact ⟨.load, _, rfl, fun i h => by (cases h), fun h => by (cases h)⟩
            | nil =>
              exfalso
              cases pend with
              | cons t p =>
                have := hi.order t.id
                simp [pushed, withId] at this
              | nil =>
                have := hi.once.length_eq
                simp at this
                simp at hne
                omega

/-- Three accesses of two ids, answered out of order across the ids. -/
example : ∃ s, Reach s ∧ s.fail = false ∧ s.wiped = false ∧ s.overlap = false ∧
    s.log.map (fun e => (e.1.tag, e.2.tag)) = [(1, 1), (0, 0), (2, 2)] ∧ s.sent.length = 3 := by
  have h : (St.init.runs [.submit 7, .submit 8, .submit 7, .load, .push, .record, .send, .load, .push, .record, .send, .load, .push, .send, .answer 1,
      .handle, .record, .answer 0, .answer 0, .handle, .handle]).isSome = true := by decide +kernel
  obtain ⟨s, hs⟩ := Option.isSome_iff_exists.mp h
  refine ⟨s, Reach.init.runs _ hs, ?_⟩
  have : ((St.init.runs [.submit 7, .submit 8, .submit 7, .load, .push, .record, .send, .load, .push, .record, .send, .load, .push, .send, .answer 1,
      .handle, .record, .answer 0, .answer 0, .handle, .handle]).map fun s =>
        decide (s.fail = false ∧ s.wiped = false ∧ s.overlap = false ∧
    s.log.map (fun e => (e.1.tag, e.2.tag)) = [(1, 1), (0, 0), (2, 2)] ∧ s.sent.length = 3)) = some true := by decide +kernel
  rw [hs, Option.map_some] at this
  injection this with this
  exact of_decide_eq_true this

/-! ## What goes wrong -/

/-- Every write's data starts at offset 0 of one memory: preparing the second write
replaces the data of the first if the hardware has not sent it. -/
theorem data_overwritten : ∃ s, Reach s ∧ s.fail = false ∧ s.wiped = false ∧ s.sent.map (fun e => (e.1.tag, e.2)) = [(0, some 1), (1, some 1)] := by
  have h : ((St.init.runs [.submit 0, .submit 1, .load, .push, .record, .load, .send, .push, .send]).map fun s =>
      decide (s.fail = false ∧ s.wiped = false ∧ s.sent.map (fun e => (e.1.tag, e.2)) = [(0, some 1), (1, some 1)])) = some true := by decide +kernel
  cases hs : St.init.runs [.submit 0, .submit 1, .load, .push, .record, .load, .send, .push, .send] with
  | none => rw [hs] at h; cases h
  | some s =>
    rw [hs, Option.map_some] at h
    injection h with h
    exact ⟨s, Reach.init.runs _ hs, of_decide_eq_true h⟩

/-- A single access whose response is handled before the pushing thread gets to record
it ends the simulation. -/
theorem early_answer_fails : ∃ s, Reach s ∧ s.fail = true ∧ s.wiped = false ∧ s.all.length = 1 := by
  have h : ((St.init.runs [.submit 0, .load, .push, .send, .answer 0, .handle]).map fun s =>
      decide (s.fail = true ∧ s.wiped = false ∧ s.all.length = 1)) = some true := by decide +kernel
  cases hs : St.init.runs [.submit 0, .load, .push, .send, .answer 0, .handle] with
  | none => rw [hs] at h; cases h
  | some s =>
    rw [hs, Option.map_some] at h
    injection h with h
    exact ⟨s, Reach.init.runs _ hs, of_decide_eq_true h⟩

/-- A reset leaves the pending accesses in the list.  They are not aborted, and the next
access with the same id hands its response to one of them and waits itself. -/
theorem reset_shifts_answers : ∃ s, Reach s ∧ s.fail = false ∧ s.log.map (fun e => (e.1.tag, e.2.tag)) = [(0, 1)] ∧
    s.pend.map (·.tag) = [1] ∧ s.hw = [] ∧ s.bus = [] ∧ s.resp = [] := by
  have h : ((St.init.runs [.submit 0, .load, .push, .record, .send, .reset, .submit 0, .load, .push, .record, .send, .answer 0, .handle]).map fun s =>
      decide (s.fail = false ∧ s.log.map (fun e => (e.1.tag, e.2.tag)) = [(0, 1)] ∧ s.pend.map (·.tag) = [1] ∧ s.hw = [] ∧ s.bus = [] ∧ s.resp = [])) =
      some true := by decide +kernel
  cases hs : St.init.runs [.submit 0, .load, .push, .record, .send, .reset, .submit 0, .load, .push, .record, .send, .answer 0, .handle] with
  | none => rw [hs] at h; cases h
  | some s =>
    rw [hs, Option.map_some] at h
    injection h with h
    exact ⟨s, Reach.init.runs _ hs, of_decide_eq_true h⟩

/-- Right after a reset, with nobody else calling, the calls that were pending stay
pending: no sequence of moves of bridge and hardware answers them. -/
theorem reset_hangs {s : St} (ms : List Move) (s' : St) (hq : s.queue = []) (hc : s.cur = none)
    (hms : ∀ m ∈ ms, ∀ i, m ≠ .submit i) (h : St.runs s (.reset :: ms) = some s') : s'.pend = s.pend ∧ s'.log = s.log := by
  have key : ∀ (ms : List Move) (s : St), s.queue = [] → s.cur = none → s.hw = [] → s.bus = [] → s.resp = [] → (∀ m ∈ ms, ∀ i, m ≠ .submit i) →
      s.runs ms = some s' → s'.pend = s.pend ∧ s'.log = s.log := by
    intro ms
    induction ms with
    | nil => intro s _ _ _ _ _ _ h; injection h with h; subst h; exact ⟨rfl, rfl⟩
    | cons m ms ih =>
      intro s h1 h2 h3 h4 h5 hms h
      simp only [St.runs] at h
      cases hm : s.move m with
      | none => rw [hm] at h; cases h
      | some t =>
        rw [hm, Option.bind_some] at h
        have hmem : ∀ m' ∈ ms, ∀ i, m' ≠ .submit i := fun m' h' => hms m' (List.mem_cons_of_mem _ h')
        cases m with
        | submit i => exact absurd rfl (hms _ List.mem_cons_self i)
        | load => simp only [St.move, h1, h2] at hm; split at hm <;> first | contradiction | cases hm
        | push => simp only [St.move, h2] at hm; split at hm <;> first | contradiction | cases hm
        | record => simp only [St.move, h2] at hm; split at hm <;> first | contradiction | cases hm
        | send => simp only [St.move, h3] at hm; cases hm
        | answer k => simp only [St.move, h4, List.getElem?_nil] at hm; cases hm
        | handle => simp only [St.move, h5] at hm; split at hm <;> first | contradiction | cases hm
        | reset =>
          simp only [St.move] at hm
          injection hm with hm
          subst hm
          exact ih { s with hw := [], bus := [], resp := [], wiped := true } h1 h2 rfl rfl rfl hmem h
  simp only [St.runs, St.move, Option.bind_some] at h
  exact key ms { s with hw := [], bus := [], resp := [], wiped := true } hq hc rfl rfl rfl hms h

end Out

/-! ## The read data memory of the slave -/

namespace Ram

structure Inv (s : St) : Prop where
  mode : s.full = true
  own : ∀ e ∈ s.sent, e.2 = some e.1
  one : match s.cur with
    | some t => s.ram = some t ∧ s.hw = [] ∧ s.waiting = false ∧ s.acks = 0
    | none => if s.waiting then (∃ t, s.hw = [t] ∧ s.ram = some t ∧ s.acks = 0) ∨ (s.hw = [] ∧ s.acks = 1) else s.hw = [] ∧ s.acks = 0

/-- **C66, read data to a full ACE master.** Every response carries its own data. -/
theorem full_own_data {s : St} (h : Reach true s) : ∀ e ∈ s.sent, e.2 = some e.1 := by
  suffices Inv s from this.own
  induction h with
  | init => exact ⟨rfl, fun e he => by (cases he), by simp [St.init]⟩
  | @step s s' m hr hm ih =>
    obtain ⟨full, next, cur, waiting, ram, hw, acks, sent⟩ := s
    obtain ⟨i1, i2, i3⟩ := ih
    simp only at i1 i2 i3
    subst i1
    cases m with
    | load =>
      simp only [St.move] at hm
      by_cases hc : cur = none ∧ waiting = false
      · rw [if_pos hc] at hm
        injection hm with hm
        subst hm
        obtain ⟨hc1, hc2⟩ := hc
        subst hc1 hc2
        simp at i3
        exact ⟨rfl, i2, ⟨rfl, i3.1, rfl, i3.2⟩⟩
      · rw [if_neg hc] at hm; cases hm
    | push =>
      cases cur with
      | none => cases hm
      | some t =>
        injection hm with hm
        subst hm
        obtain ⟨a1, a2, a3, a4⟩ := i3
        subst a2
        refine ⟨rfl, i2, ?_⟩
        simp only [if_true]
        exact Or.inl ⟨t, rfl, a1, a4⟩
    | send =>
      cases hw with
      | nil => cases hm
      | cons t r =>
        injection hm with hm
        subst hm
        cases cur with
        | some u => exact absurd i3.2.1 (by simp)
        | none =>
          cases waiting with
          | false => simp at i3
          | true =>
            simp only [if_true] at i3
            rcases i3 with ⟨u, b1, b2, b3⟩ | ⟨b1, _⟩
            · injection b1 with b1 b4
              subst b1 b4
              refine ⟨rfl, ?_, ?_⟩
              · intro e he
                rcases List.mem_append.mp he with he | he
                · exact i2 e he
                · simp at he; subst he; exact b2
              · simp only [if_true]
                exact Or.inr ⟨trivial, by omega⟩
            · cases b1
    | ack =>
      simp only [St.move] at hm
      by_cases hc : waiting = true ∧ 0 < acks
      · rw [if_pos hc] at hm
        injection hm with hm
        subst hm
        obtain ⟨hc1, hc2⟩ := hc
        subst hc1
        refine ⟨rfl, i2, ?_⟩
        cases cur with
        | some u => exact absurd i3.2.2.1 (by simp)
        | none =>
          simp only [if_true] at i3
          rcases i3 with ⟨u, b1, b2, b3⟩ | ⟨b1, b2⟩
          · omega
          · simp only [Bool.false_eq_true, if_false]
            exact ⟨b1, by omega⟩
      · rw [if_neg hc] at hm; cases hm

example : ∃ s, Reach true s ∧ s.sent = [(0, some 0), (1, some 1)] := by
  have h : ((St.init true).runs [.load, .push, .send, .ack, .load, .push, .send]).map (fun s => decide (s.sent = [(0, some 0), (1, some 1)])) = some true := by
    decide +kernel
  cases hs : (St.init true).runs [.load, .push, .send, .ack, .load, .push, .send] with
  | none => rw [hs] at h; cases h
  | some s =>
    rw [hs, Option.map_some] at h
    injection h with h
    exact ⟨s, Reach.init.runs _ hs, of_decide_eq_true h⟩

/-- To an ACE-Lite or AXI master there is no acknowledgement to wait for, and the next
response overwrites the data of one the hardware has not sent. -/
theorem lite_data_overwritten : ∃ s, Reach false s ∧ s.sent = [(0, some 1)] := by
  have h : ((St.init false).runs [.load, .push, .load, .send]).map (fun s => decide (s.sent = [(0, some 1)])) = some true := by decide +kernel
  cases hs : (St.init false).runs [.load, .push, .load, .send] with
  | none => rw [hs] at h; cases h
  | some s =>
    rw [hs, Option.map_some] at h
    injection h with h
    exact ⟨s, Reach.init.runs _ hs, of_decide_eq_true h⟩

end Ram

/-! ## The acknowledgement event -/

namespace Rack

/-- The acknowledgement polled while the pushing process is still in its register
accesses is forgotten: the process waits forever. -/
theorem ack_lost : St.init.runs [.push, .ack, .poll, .wait] = some ⟨.waiting, true, false⟩ ∧ ∀ m, (⟨.waiting, true, false⟩ : St).move m = none := by
  refine ⟨by decide, ?_⟩
  intro m
  cases m <;> decide

/-- No poll between the push and the wait. -/
def Late : St → List Move → Prop
  | _, [] => True
  | s, m :: ms => ¬ (m = .poll ∧ s.ph = .pushing) ∧ ∀ s', s.move m = some s' → Late s' ms

/-- If no poll comes between the push and the wait, an acknowledgement is seen by the
next poll, whenever it came. -/
theorem ack_seen_partial (ms : List Move) (s : St) (h : St.init.runs ms = some s) (hl : Late St.init ms) (hw : s.ph = .waiting) (ha : s.acked = true) :
    ∃ s', s.move .poll = some s' ∧ s'.ph = .done := by
  have key : ∀ (ms : List Move) (t : St), (t.acked = true → t.ph ≠ .idle ∧ (t.ph = .pushing ∨ t.ph = .waiting → t.comp = true)) → Late t ms → t.runs ms = some s →
      (s.acked = true → s.ph ≠ .idle ∧ (s.ph = .pushing ∨ s.ph = .waiting → s.comp = true)) := by
    intro ms
    induction ms with
    | nil => intro t ht _ h; injection h with h; subst h; exact ht
    | cons m ms ih =>
      intro t ht hl h
      simp only [St.runs] at h
      cases hm : t.move m with
      | none => rw [hm] at h; cases h
      | some u =>
        rw [hm, Option.bind_some] at h
        refine ih u ?_ (hl.2 u hm) h
        have hn := hl.1
        obtain ⟨ph, acked, comp⟩ := t
        clear ih h hl
        revert u
        cases m <;> cases ph <;> cases acked <;> cases comp <;> simp_all [St.move]
  have hc := (key ms St.init (by simp [St.init]) hl h ha).2 (Or.inr hw)
  exact ⟨_, by simp only [St.move]; rw [if_pos hc], by simp [hw]⟩

example : St.init.runs [.push, .ack, .wait] = some ⟨.waiting, true, true⟩ := by decide

end Rack

/-! ## Snoops -/

namespace Snoop

structure Inv (s : St) : Prop where
  own : ∀ e ∈ s.sent, e.2 = some e.1
  excl : ∀ p, inside (s.pc p) = true → inside (s.pc (!p)) = false
  desc : ∀ p, s.pc p = .written → s.desc s.idx = some p

theorem clash_mono {s s' : St} (p : Bool) (h : s.move p = some s') (hc : s'.clash = false) : s.clash = false := by
  unfold St.move at h
  cases hp : s.pc p <;> rw [hp] at h <;> simp only [] at h
  · injection h with h; subst h
    simp only [Bool.or_eq_false_iff] at hc
    exact hc.1
  · injection h with h; subst h; exact hc
  · injection h with h; subst h; exact hc
  · cases h

theorem inv_of {idx : Nat} {s : St} (h : Reach idx s) (hc : s.clash = false) : Inv s := by
  induction h with
  | init => exact ⟨fun e he => by (cases he), fun p h => by (cases h), fun p h => by (cases h)⟩
  | @step s s' p hr hm ih =>
    have hcs := clash_mono p hm hc
    obtain ⟨i1, i2, i3⟩ := ih hcs
    unfold St.move at hm
    cases hp : s.pc p with
    | start =>
      rw [hp] at hm
      simp only [] at hm
      injection hm with hm
      subst hm
      simp only [Bool.or_eq_false_iff] at hc
      refine ⟨i1, ?_, ?_⟩
      · intro q hq
        simp only at hq ⊢
        cases q <;> cases p <;> simp_all [inside]
      · intro q hq
        simp only at hq ⊢
        cases q <;> cases p <;> simp_all [inside]
    | written =>
      rw [hp] at hm
      simp only [] at hm
      injection hm with hm
      subst hm
      refine ⟨?_, ?_, ?_⟩
      · intro e he
        rcases List.mem_append.mp he with he | he
        · exact i1 e he
        · simp at he; subst he; exact i3 p hp
      · intro q hq
        have h1 := i2 p (by rw [hp]; rfl)
        cases q <;> cases p <;> simp_all [inside]
      · intro q hq
        have h1 := i2 p (by rw [hp]; rfl)
        cases q <;> cases p <;> simp_all [inside]
    | pushed =>
      rw [hp] at hm
      simp only [] at hm
      injection hm with hm
      subst hm
      have h1 := i2 p (by rw [hp]; rfl)
      refine ⟨i1, ?_, ?_⟩
      · intro q hq
        cases q <;> cases p <;> simp_all [inside]
      · intro q hq
        cases q <;> cases p <;> simp_all [inside]
    | finished => rw [hp] at hm; cases hm

/-- **C66, snoops.** Two snoops are sent with their own addresses as long as they do not
prepare their descriptors at the same time. -/
theorem own_snoop_partial {idx : Nat} {s : St} (h : Reach idx s) (hc : s.clash = false) : ∀ e ∈ s.sent, e.2 = some e.1 :=
  (inv_of h hc).own

example : ((St.init 15).runs [true, true, true, false, false, false]).map (fun s => decide (s.sent = [(true, some true), (false, some false)] ∧ s.idx = 1 ∧ s.clash = false)) =
    some true := by decide +kernel

/-- The lock around it (47-124) does not stop them: what it compares are the ranges. -/
theorem lock_decides (l : Lock) (addr len : Nat) (hl : 1 ≤ len) (hb : addr + len < 2 ^ 64) (ho : 1 ≤ l.len) (hm : l.addr + l.len < 2 ^ 64) :
    l.trylock addr len = false ↔ l.ongoing = true ∧ ∃ x, (addr ≤ x ∧ x < addr + len) ∧ (l.addr ≤ x ∧ x < l.addr + l.len) := by
  have e1 : (addr + len + (2 ^ 64 - 1)) % 2 ^ 64 = addr + len - 1 := by omega
  have e2 : (addr + len) % 2 ^ 64 = addr + len := Nat.mod_eq_of_lt hb
  have e3 : (l.addr + l.len) % 2 ^ 64 = l.addr + l.len := Nat.mod_eq_of_lt hm
  unfold Lock.trylock Lock.overlap inRange
  rw [e1, e2, e3]
  cases ho : l.ongoing
  · simp
  · simp only [Bool.not_true, Bool.false_or, Bool.not_eq_false', Bool.or_eq_true, decide_eq_true_eq, true_and]
    constructor
    · rintro ((h | h) | h)
      · exact ⟨addr, by omega, by omega⟩
      · exact ⟨addr + len - 1, by omega, by omega⟩
      · exact ⟨l.addr, by omega, by omega⟩
    · rintro ⟨x, h1, h2⟩
      omega

example : (Lock.mk true 0x1000 64).trylock 0x103f 4 = false ∧ (Lock.mk true 0x1000 64).trylock 0x1040 4 = true := by decide

/-- A range that ends at the top of the address space never excludes anything. -/
theorem top_range_unlocked : (Lock.mk true (2 ^ 64 - 64) 64).trylock (2 ^ 64 - 64) 64 = true := by decide

/-- Taken for a second range, it forgets the first: an access to the first range is let
in while the first holder still has it; and the first holder's release is also the
second's. -/
theorem second_lock_forgets_first :
    (Lock.mk false 0 0).trylock 0x1000 64 = true ∧
    (((Lock.mk false 0 0).take 0x1000 64).trylock 0x2000 64 = true) ∧
    ((((Lock.mk false 0 0).take 0x1000 64).take 0x2000 64).trylock 0x1000 64 = true) ∧
    ((((Lock.mk false 0 0).take 0x1000 64).take 0x2000 64).release.trylock 0x2000 64 = true) := by decide

/-- Two at once: both take the same descriptor, the hardware is told twice to snoop for
the second and never for the first; or the descriptor after it, with old contents. -/
theorem snoops_collide :
    (∃ s, Reach 0 s ∧ s.sent = [(true, some false), (false, some false)]) ∧
    (∃ s, Reach 0 s ∧ s.sent = [(true, some false), (false, none)]) := by
  refine ⟨?_, ?_⟩
  · have h : ((St.init 0).runs [true, false, true, false]).map (fun s => decide (s.sent = [(true, some false), (false, some false)])) = some true := by
      decide +kernel
    cases hs : (St.init 0).runs [true, false, true, false] with
    | none => rw [hs] at h; cases h
    | some s =>
      rw [hs, Option.map_some] at h
      injection h with h
      exact ⟨s, Reach.init.runs _ hs, of_decide_eq_true h⟩
  · have h : ((St.init 0).runs [true, false, true, true, false]).map (fun s => decide (s.sent = [(true, some false), (false, none)])) = some true := by
      decide +kernel
    cases hs : (St.init 0).runs [true, false, true, true, false] with
    | none => rw [hs] at h; cases h
    | some s =>
      rw [hs, Option.map_some] at h
      injection h with h
      exact ⟨s, Reach.init.runs _ hs, of_decide_eq_true h⟩

end Snoop

/-! ## Threads -/

/-- Without a limit on outstanding requests plain accesses can fill the response
queue; then a request is run twice, as for barriers in the AXI bridge (C28). -/
theorem request_run_twice :
    ∃ ops : List AxiOrder.Slave.Op, (∀ o ∈ ops, ∀ i p, o ≠ .accept i p true) ∧
      ¬ (AxiOrder.Slave.calls (ops.foldl stepU AxiOrder.Slave.St.init).log).Nodup := by
  let ops : List AxiOrder.Slave.Op := (List.range 18).map (fun i => AxiOrder.Slave.Op.accept (i + 1) i false)
    ++ [.run 0, .run 0, .run 0, .take]
    ++ (List.range 16).flatMap (fun _ => [.run 0, .run 0, .run 0])
    ++ [.run 0, .run 0, .run 0, .accept 18 100 false, .run 1, .run 1, .finish, .take, .run 0, .run 0,
        .run 0]
  have hk : ops.all (fun o => match o with | .accept _ _ b => !b | _ => true) = true := by decide +kernel
  refine ⟨ops, fun o ho i p e => ?_, by decide +kernel⟩
  have := List.all_eq_true.mp hk o ho
  rw [e] at this
  cases this

end Verif.AceHwConc
