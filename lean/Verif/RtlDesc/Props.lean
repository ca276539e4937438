import Verif.RtlDesc.Spec

/-!
# Every descriptor is handed out once
-/

namespace Verif.RtlDesc

open RtlFifo (Queue)

/-- How often a descriptor is in the FIFOs. -/
def held (s : Regs) (d : Nat) : Nat := s.wq.items.count d + s.rq.items.count d

def bit (b : Bool) : Nat := if b then 1 else 0

structure Inv (w : World) : Prop where
  ff : w.s.ff = w.own
  ff2 : w.s.ff2 = w.own2
  books : ∀ d < 16, w.b.given d = w.b.out d + held w.s d + bit (w.b.waits d)
  small : ∀ d < 16, w.b.given d ≤ w.b.out d + 1
  pend : ∀ d < 16, w.s.pend d = w.b.waits d
  up : ∀ d < 16, w.b.waits d = true → w.own d = true
  fresh : ∀ d < 16, w.own d = true → w.own2 d = false → w.s.pend d = true
  done : ∀ d < 16, w.s.done d = true → (w.s.wen = true ∧ w.s.wid = d) ∨ (w.s.pend d = false ∧ w.b.recent d = true)
  writing : w.s.writing = w.s.wen
  wen : w.s.wen = true → w.s.wid < 16 ∧ w.s.pend w.s.wid = true ∧ w.s.done w.s.wid = true
  wroom : w.s.wen = true → w.s.wq.items.length < 16 ∧ w.s.rq.items.length < 16
  wlen : w.s.wq.items.length ≤ 16 ∧ w.s.rq.items.length ≤ 16
  wlt : ∀ d ∈ w.s.wq.items, d < 16 ∧ w.typ d = false
  rlt : ∀ d ∈ w.s.rq.items, d < 16 ∧ w.typ d = true
  wen' : w.s.wrRead = false → w.s.wrEn = false
  ren' : w.s.rdRead = false → w.s.rdEn = false

theorem inv_start : Inv World.start where
  ff := rfl
  ff2 := rfl
  books := by intro d _; rfl
  small := by intro d _; exact Nat.le_succ _
  pend := by intro d _; rfl
  up := by intro d _ h; cases h
  fresh := by intro d _ h; cases h
  done := by intro d _ h; cases h
  writing := rfl
  wen := by intro h; cases h
  wroom := by intro h; cases h
  wlen := by decide
  wlt := by intro d h; cases h
  rlt := by intro d h; cases h
  wen' := fun _ => rfl
  ren' := fun _ => rfl

/-- What a queue holds after a cycle, counted. -/
theorem count_next (q : Queue Nat) (w r : Bool) (x d : Nat) (h : w = true → q.items.length < 16) :
    (q.next 16 ⟨w, r, x⟩).items.count d + (if (if r then q.items.head? else none) = some d then 1 else 0) =
      q.items.count d + (if w && x == d then 1 else 0) := by
  have hw : (w && decide (q.items.length < 16)) = w := by
    cases w
    · rfl
    · simpa using h rfl
  change ((if r = true then q.items.drop 1 else q.items) ++ (if (w && decide (q.items.length < 16)) = true then [x] else [])).count d + _ = _
  rw [hw, List.count_append]
  have e2 : (if w = true then [x] else []).count d = if (w && x == d) = true then 1 else 0 := by
    cases w
    · rfl
    · simp [List.count_cons, List.count_nil]
  rw [e2]
  cases r
  · simp
  · cases hq : q.items with
    | nil => simp
    | cons a t =>
      simp only [if_true, List.drop_one, List.tail_cons, List.head?_cons, Option.some.injEq, List.count_cons, beq_iff_eq]
      omega

theorem mem_next {q : Queue Nat} {w r : Bool} {x d : Nat} (h : d ∈ (q.next 16 ⟨w, r, x⟩).items) :
    d ∈ q.items ∨ (w = true ∧ d = x) := by
  change d ∈ (if r = true then q.items.drop 1 else q.items) ++ (if (w && decide (q.items.length < 16)) = true then [x] else []) at h
  rcases List.mem_append.mp h with h | h
  · left
    split at h
    · exact List.mem_of_mem_drop h
    · exact h
  · right
    split at h
    · rename_i hw
      exact ⟨(Bool.and_eq_true_iff.mp hw).1, by simpa using h⟩
    · cases h

theorem len_next_le (q : Queue Nat) (r : Bool) (x : Nat) : (q.next 16 ⟨false, r, x⟩).items.length ≤ q.items.length := by
  change ((if r = true then q.items.drop 1 else q.items) ++ []).length ≤ _
  rw [List.append_nil]
  split
  · rw [List.length_drop]; omega
  · exact Nat.le_refl _

theorem len_next_room (q : Queue Nat) (w r : Bool) (x : Nat) (h : q.items.length ≤ 16) : (q.next 16 ⟨w, r, x⟩).items.length ≤ 16 := by
  change ((if r = true then q.items.drop 1 else q.items) ++ (if (w && decide (q.items.length < 16)) = true then [x] else [])).length ≤ _
  rw [List.length_append]
  have h1 : (if r = true then q.items.drop 1 else q.items).length ≤ q.items.length := by
    split
    · rw [List.length_drop]; omega
    · exact Nat.le_refl _
  have h2 : (if (w && decide (q.items.length < 16)) = true then [x] else []).length + q.items.length ≤ 16 := by
    split
    · rename_i hw
      have : q.items.length < 16 := by simpa using (Bool.and_eq_true_iff.mp hw).2
      simp only [List.length_cons, List.length_nil]
      omega
    · simpa using h
  omega

/-- The books after a cycle, all but what was given. -/
theorem held_next {w : World} (v : Inv w) (i : In) (d : Nat) :
    held (w.next i).s d + (if outW w.s = some d then 1 else 0) + (if outR w.s = some d then 1 else 0) =
      held w.s d + (if w.s.wen && w.s.wid == d then 1 else 0) := by
  have h1 := count_next w.s.wq (w.s.wen && !i.typ w.s.wid) w.s.wrEn w.s.wid d
    (fun h => (v.wroom (Bool.and_eq_true_iff.mp h).1).1)
  have h2 := count_next w.s.rq (w.s.wen && i.typ w.s.wid) w.s.rdEn w.s.wid d
    (fun h => (v.wroom (Bool.and_eq_true_iff.mp h).1).2)
  have e3 : (if ((w.s.wen && !i.typ w.s.wid) && w.s.wid == d) = true then 1 else 0) + (if ((w.s.wen && i.typ w.s.wid) && w.s.wid == d) = true then 1 else 0) =
      if (w.s.wen && w.s.wid == d) = true then 1 else (0 : Nat) := by
    cases w.s.wen <;> cases i.typ w.s.wid <;> cases (w.s.wid == d) <;> rfl
  unfold held outW outR
  change (w.s.wq.next 16 _).items.count d + (w.s.rq.next 16 _).items.count d + _ + _ = _
  omega

theorem pick_some {s : Regs} {d : Nat} (h : pick s = some d) :
    d < 16 ∧ s.pend d = true ∧ s.rq.items.length ≠ 16 ∧ s.wq.items.length ≠ 16 := by
  have h1 := List.find?_some h
  have h2 := List.mem_of_find?_eq_some h
  simp only [Bool.and_eq_true, Bool.not_eq_true', decide_eq_false_iff_not] at h1
  exact ⟨by simpa using h2, h1.1.1, h1.1.2, h1.2⟩

theorem waits_owed {w : World} (v : Inv w) {d : Nat} (hd : d < 16) (h : w.b.waits d = true) : owed w d := by
  have := v.books d hd
  rw [h] at this
  intro e
  rw [e, bit, if_pos rfl] at this
  omega

theorem held_owed {w : World} (v : Inv w) {d : Nat} (hd : d < 16) (h : held w.s d ≠ 0) : owed w d := by
  have := v.books d hd
  intro e
  omega

theorem not_owed {w : World} (v : Inv w) {d : Nat} (hd : d < 16) (h : ¬ owed w d) : held w.s d = 0 ∧ w.b.waits d = false := by
  constructor
  · rcases Nat.eq_zero_or_pos (held w.s d) with e | e
    · exact e
    · exact absurd (held_owed v hd (by omega)) h
  · cases e : w.b.waits d
    · rfl
    · exact absurd (waits_owed v hd e) h

/-- A descriptor whose ownership is given is not on its way into a FIFO. -/
theorem gives_push {w : World} (v : Inv w) {i : In} (p : Polite w i) {d : Nat} (hd : d < 16) (g : gives w i d = true) :
    (w.s.wen && w.s.wid == d) = false := by
  have hw := (not_owed v hd (p.once d hd g).1).2
  cases hp : (w.s.wen && w.s.wid == d)
  · rfl
  · obtain ⟨h1, h2⟩ := Bool.and_eq_true_iff.mp hp
    have h2 : w.s.wid = d := by simpa using h2
    have := (v.wen h1).2.1
    rw [h2, v.pend d hd, hw] at this
    cases this

theorem pend_next {w : World} (v : Inv w) {i : In} (p : Polite w i) {d : Nat} (hd : d < 16) :
    pendNext w.s i d = (w.next i).b.waits d := by
  change _ = if gives w i d then true else if w.s.wen && w.s.wid == d then false else w.b.waits d
  unfold pendNext pulse
  rw [v.ff2, v.pend d hd]
  cases g : gives w i d
  · have hp : (i.own d && !w.own2 d && !w.b.waits d) = false := by
      cases h : (i.own d && !w.own2 d && !w.b.waits d)
      · rfl
      · simp only [Bool.and_eq_true, Bool.not_eq_true'] at h
        have ho : w.own d = true := by
          cases e : w.own d
          · rw [gives, h.1.1, e] at g; cases g
          · rfl
        have := v.fresh d hd ho h.1.2
        rw [v.pend d hd, h.2] at this
        cases this
    rw [hp]
    cases hpush : (w.s.wen && w.s.wid == d)
    · cases hdn : w.s.done d
      · simp
      · rcases v.done d hd hdn with h | h
        · rw [h.1, h.2] at hpush; simp at hpush
        · rw [← v.pend d hd, h.1]; simp
    · obtain ⟨h1, h2⟩ := Bool.and_eq_true_iff.mp hpush
      have h2 : w.s.wid = d := by simpa using h2
      have := (v.wen h1).2.2
      rw [h2] at this
      rw [this]
  · have hw := (not_owed v hd (p.once d hd g).1).2
    have h2 := (p.once d hd g).2
    have ho : i.own d = true := (Bool.and_eq_true_iff.mp g).1
    rw [hw, h2, ho]
    simp

theorem somebody {w : World} (v : Inv w) (h : w.s.wen = true) : nobody w.b = false := by
  obtain ⟨h1, h2, _⟩ := v.wen h
  rw [v.pend _ h1] at h2
  cases hn : nobody w.b
  · rfl
  · have := List.all_eq_true.mp hn w.s.wid (by simpa using h1)
    rw [h2] at this
    cases this

theorem inv_next {w : World} (v : Inv w) {i : In} (p : Polite w i) : Inv (w.next i) where
  ff := rfl
  ff2 := v.ff
  books := by
    intro d hd
    have h := held_next v i d
    have hb := v.books d hd
    change w.b.given d + (if gives w i d then 1 else 0) =
      w.b.out d + (if outW w.s = some d then 1 else 0) + (if outR w.s = some d then 1 else 0) + held (w.next i).s d +
        bit (if gives w i d then true else if w.s.wen && w.s.wid == d then false else w.b.waits d)
    cases g : gives w i d
    · cases hp : (w.s.wen && w.s.wid == d)
      · rw [hp] at h
        simp only [Bool.false_eq_true, if_false] at h ⊢
        omega
      · obtain ⟨h1, h2⟩ := Bool.and_eq_true_iff.mp hp
        have h2 : w.s.wid = d := by simpa using h2
        have hw := (v.wen h1).2.1
        rw [h2, v.pend d hd] at hw
        rw [hw] at hb
        rw [hp] at h
        simp only [Bool.false_eq_true, if_false, if_true, bit] at h hb ⊢
        omega
    · have hp := gives_push v p hd g
      have hw := (not_owed v hd (p.once d hd g).1).2
      rw [hw] at hb
      rw [hp] at h
      simp only [Bool.false_eq_true, if_false, if_true, bit] at h hb ⊢
      omega
  small := by
    intro d hd
    change w.b.given d + (if gives w i d then 1 else 0) ≤ w.b.out d + _ + _ + 1
    have := v.small d hd
    cases g : gives w i d
    · simp only [Bool.false_eq_true, if_false]; omega
    · have := (p.once d hd g).1
      have : w.b.given d = w.b.out d := Classical.byContradiction this
      simp only [if_true]; omega
  pend := fun d hd => pend_next v p hd
  up := by
    intro d hd h
    change i.own d = true
    change (if gives w i d then true else if w.s.wen && w.s.wid == d then false else w.b.waits d) = true at h
    cases g : gives w i d
    · rw [g] at h
      have : w.b.waits d = true := by
        cases hp : (w.s.wen && w.s.wid == d)
        · rw [hp] at h; simpa using h
        · rw [hp] at h; simp at h
      exact (p.keeps d hd (waits_owed v hd this)).1
    · exact (Bool.and_eq_true_iff.mp g).1
  fresh := by
    intro d hd h1 h2
    have h1 : i.own d = true := h1
    have h2 : w.own d = false := h2
    change pendNext w.s i d = true
    rw [pend_next v p hd]
    change (if gives w i d then true else _) = true
    rw [gives, h1, h2]
    rfl
  done := by
    have keep : ∀ d < 16, w.s.pend d = false → w.b.recent d = true → nobody w.b = false →
        (w.next i).s.pend d = false ∧ (w.next i).b.recent d = true := by
      intro d hd h1 h2 h3
      have g : gives w i d = false := by
        cases g : gives w i d
        · rfl
        · rw [p.rested d hd g] at h2; cases h2
      constructor
      · change pendNext w.s i d = false
        rw [pend_next v p hd]
        change (if gives w i d then true else if w.s.wen && w.s.wid == d then false else w.b.waits d) = false
        rw [g, ← v.pend d hd, h1]
        simp
      · change (if w.s.wen && w.s.wid == d then true else if nobody w.b then false else w.b.recent d) = true
        rw [h3, h2]
        simp
    intro d hd h
    change (alloc w.s).2.2.1 d = true at h
    change ((alloc w.s).1 = true ∧ (alloc w.s).2.1 = d) ∨ _
    unfold alloc at h ⊢
    rw [v.writing] at h ⊢
    cases hwen : w.s.wen
    · rw [hwen] at h
      simp only [Bool.false_eq_true, if_false] at h ⊢
      cases hpick : pick w.s with
      | none => rw [hpick] at h; cases h
      | some k =>
        rw [hpick] at h
        dsimp only at h ⊢
        by_cases e : d = k
        · left; exact ⟨rfl, e.symm⟩
        · right
          rw [if_neg e] at h
          obtain ⟨hk, hpk, _⟩ := pick_some hpick
          have hn : nobody w.b = false := by
            cases hn : nobody w.b
            · rfl
            · have := List.all_eq_true.mp hn k (by simpa using hk)
              rw [v.pend k hk] at hpk
              rw [hpk] at this
              cases this
          rcases v.done d hd h with h' | h'
          · rw [hwen] at h'; cases h'.1
          · exact keep d hd h'.1 h'.2 hn
    · rw [hwen] at h
      simp only [if_true] at h ⊢
      right
      have hn := somebody v hwen
      rcases v.done d hd h with h' | h'
      · have hpush : (w.s.wen && w.s.wid == d) = true := by rw [h'.1, h'.2]; simp
        have g : gives w i d = false := by
          cases g : gives w i d
          · rfl
          · rw [gives_push v p hd g] at hpush; cases hpush
        constructor
        · change pendNext w.s i d = false
          rw [pend_next v p hd]
          change (if gives w i d then true else if w.s.wen && w.s.wid == d then false else w.b.waits d) = false
          rw [g, hpush]
          rfl
        · change (if w.s.wen && w.s.wid == d then true else _) = true
          rw [hpush]
          rfl
      · exact keep d hd h'.1 h'.2 hn
  writing := by
    change (alloc w.s).2.2.2 = (alloc w.s).1
    unfold alloc
    split
    · rfl
    · split <;> rfl
  wen := by
    intro h
    change (alloc w.s).1 = true at h
    change (alloc w.s).2.1 < 16 ∧ pendNext w.s i (alloc w.s).2.1 = true ∧ (alloc w.s).2.2.1 (alloc w.s).2.1 = true
    unfold alloc at h ⊢
    rw [v.writing] at h ⊢
    cases hwen : w.s.wen <;> rw [hwen] at h
    · simp only [Bool.false_eq_true, if_false] at h ⊢
      cases hpick : pick w.s with
      | none => rw [hpick] at h; cases h
      | some k =>
        obtain ⟨hk, hpk, _⟩ := pick_some hpick
        dsimp only
        refine ⟨hk, ?_, by rw [if_pos rfl]⟩
        rw [pend_next v p hk]
        change (if gives w i k then true else if w.s.wen && w.s.wid == k then false else w.b.waits k) = true
        rw [hwen, ← v.pend k hk, hpk]
        simp
    · cases h
  wroom := by
    intro h
    change (alloc w.s).1 = true at h
    unfold alloc at h
    rw [v.writing] at h
    cases hwen : w.s.wen <;> rw [hwen] at h
    · simp only [Bool.false_eq_true, if_false] at h
      cases hpick : pick w.s with
      | none => rw [hpick] at h; cases h
      | some k =>
        obtain ⟨_, _, h1, h2⟩ := pick_some hpick
        have := v.wlen
        change (w.s.wq.next 16 ⟨w.s.wen && !i.typ w.s.wid, w.s.wrEn, w.s.wid⟩).items.length < 16 ∧
          (w.s.rq.next 16 ⟨w.s.wen && i.typ w.s.wid, w.s.rdEn, w.s.wid⟩).items.length < 16
        rw [hwen]
        have a := len_next_le w.s.wq w.s.wrEn w.s.wid
        have b := len_next_le w.s.rq w.s.rdEn w.s.wid
        simp only [Bool.false_and]
        omega
    · cases h
  wlen := ⟨len_next_room _ _ _ _ v.wlen.1, len_next_room _ _ _ _ v.wlen.2⟩
  wlt := by
    intro d h
    change d < 16 ∧ i.typ d = false
    rcases mem_next h with h | ⟨h, e⟩
    · obtain ⟨h1, h2⟩ := v.wlt d h
      have := (p.keeps d h1 (held_owed v h1 (by
        have := List.count_pos_iff.mpr h
        unfold held
        omega))).2
      exact ⟨h1, by rw [this, h2]⟩
    · obtain ⟨h1, h2⟩ := Bool.and_eq_true_iff.mp h
      rw [e]
      exact ⟨(v.wen h1).1, by simpa using h2⟩
  rlt := by
    intro d h
    change d < 16 ∧ i.typ d = true
    rcases mem_next h with h | ⟨h, e⟩
    · obtain ⟨h1, h2⟩ := v.rlt d h
      have := (p.keeps d h1 (held_owed v h1 (by
        have := List.count_pos_iff.mpr h
        unfold held
        omega))).2
      exact ⟨h1, by rw [this, h2]⟩
    · obtain ⟨h1, h2⟩ := Bool.and_eq_true_iff.mp h
      rw [e]
      exact ⟨(v.wen h1).1, h2⟩
  wen' := by
    intro h
    change (fetch _ _ _ _).2 = false at h
    change (fetch _ _ _ _).1 = false
    unfold fetch at h ⊢
    split at h
    · rename_i e; rw [if_pos e]
    · rename_i e
      split at h
      · cases h
      · rename_i e'
        rw [if_neg e, if_neg e']
        exact v.wen' (by simpa using e)
  ren' := by
    intro h
    change (fetch _ _ _ _).2 = false at h
    change (fetch _ _ _ _).1 = false
    unfold fetch at h ⊢
    split at h
    · rename_i e; rw [if_pos e]
    · rename_i e
      split at h
      · cases h
      · rename_i e'
        rw [if_neg e, if_neg e']
        exact v.ren' (by simpa using e)

theorem inv_run (ins : List In) : ∀ {w : World}, Inv w → AllPolite w ins → Inv (w.run ins) := by
  induction ins with
  | nil => intro w v _; exact v
  | cons i t ih => intro w v p; exact ih (inv_next v p.1) p.2

/-- **Once for every time it is given**, whatever is given when: a descriptor
is never handed out more often than its ownership was given, at most one is
still to come, and if one is then the descriptor waits or is in one of the
FIFOs, once. -/
theorem handed_out_once_partial (ins : List In) (h : AllPolite World.start ins) (d : Nat) (hd : d < 16) :
    let w := World.start.run ins
    w.b.out d ≤ w.b.given d ∧ w.b.given d ≤ w.b.out d + 1 ∧
      w.b.given d = w.b.out d + w.s.wq.items.count d + w.s.rq.items.count d + bit (w.b.waits d) := by
  have v := inv_run ins inv_start h
  have h1 := v.books d hd
  have h2 := v.small d hd
  unfold held at h1
  dsimp only
  omega

/-- **On the channel of its type**: what is handed out for a write is a
descriptor of a write, and the same of reads. -/
theorem handed_out_right (ins : List In) (i : In) (h : AllPolite World.start ins) (p : Polite (World.start.run ins) i) (d : Nat) :
    (outW (World.start.run ins).s = some d → d < 16 ∧ i.typ d = false) ∧
      (outR (World.start.run ins).s = some d → d < 16 ∧ i.typ d = true) := by
  have v := inv_run ins inv_start h
  generalize World.start.run ins = w at v p
  constructor
  · intro e
    unfold outW at e
    split at e
    · have hm := List.mem_of_mem_head? (Option.mem_def.mpr e)
      obtain ⟨h1, h2⟩ := v.wlt d hm
      refine ⟨h1, ?_⟩
      rw [(p.keeps d h1 (held_owed v h1 (by
        have := List.count_pos_iff.mpr hm
        unfold held
        omega))).2, h2]
    · cases e
  · intro e
    unfold outR at e
    split at e
    · have hm := List.mem_of_mem_head? (Option.mem_def.mpr e)
      obtain ⟨h1, h2⟩ := v.rlt d hm
      refine ⟨h1, ?_⟩
      rw [(p.keeps d h1 (held_owed v h1 (by
        have := List.count_pos_iff.mpr hm
        unfold held
        omega))).2, h2]
    · cases e

end Verif.RtlDesc
