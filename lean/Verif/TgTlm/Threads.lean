import Verif.TgTlm.Model
/-! # The traffic generator: sets of transfers, threads and callbacks -/

namespace Verif.TgTlm

theorem Reach.runs : ∀ (ms : List Move) {s s' : Thr}, Reach s → s.runs ms = some s' → Reach s'
  | [], s, s', h, e => by cases e; exact h
  | m :: ms, s, s', h, e => by
    unfold Thr.runs at e
    cases hm : s.move m with
    | none => rw [hm] at e; cases e
    | some s1 => rw [hm] at e; exact Reach.runs ms (h.move m hm) e

/-- What is always true of a thread. -/
structure Inv (s : Thr) : Prop where
  wait : s.at_ = .waiting → s.pending = none
  taken : s.taken = s.done ++ (match s.at_ with | .running id => [id] | _ => [])
  sub : (s.taken ++ s.pending.toList).Sublist (s.added.map Prod.fst)
  last : ∀ id, s.pending = some id → (s.added.getLast?).map Prod.fst = some id

theorem inv_move {s s' : Thr} {m : Move} (h : Inv s) (hm : s.move m = some s') : Inv s' := by
  obtain ⟨h1, h2, h3, h4⟩ := h
  cases m with
  | add id cb =>
    simp only [Thr.move, Option.some.injEq] at hm
    subst hm
    refine { wait := ?_, taken := ?_, sub := ?_, last := ?_ }
    · intro hw
      by_cases hw' : s.at_ = .waiting
      · simp only [if_pos hw'] at hw; cases hw
      · simp only [if_neg hw'] at hw; exact absurd hw hw'
    · by_cases hw' : s.at_ = .waiting
      · simp only [if_pos hw']
        rw [hw'] at h2
        exact h2
      · simp only [if_neg hw']
        exact h2
    · show (s.taken ++ [id]).Sublist ((s.added ++ [(id, cb)]).map Prod.fst)
      rw [List.map_append]
      refine List.Sublist.append ?_ (List.Sublist.refl _)
      exact (List.sublist_append_left _ _).trans h3
    · intro j hj
      cases hj
      show ((s.added ++ [(id, cb)]).getLast?).map Prod.fst = some id
      rw [List.getLast?_append]
      rfl
  | spawn =>
    simp only [Thr.move] at hm
    by_cases hb : s.at_ = .before
    · rw [if_pos hb] at hm
      cases hm
      rw [hb] at h2
      exact { wait := fun h => by (cases h), taken := h2, sub := h3, last := h4 }
    · rw [if_neg hb] at hm; cases hm
  | take =>
    simp only [Thr.move] at hm
    by_cases hb : s.at_ = .top
    · rw [if_pos hb] at hm
      cases hp : s.pending with
      | none =>
        rw [hp] at hm
        cases hm
        rw [hb] at h2
        exact { wait := fun h => by (cases h), taken := h2, sub := by rw [hp] at h3; exact h3, last := fun id h => by (cases h) }
      | some id =>
        rw [hp] at hm
        cases hm
        rw [hb] at h2
        refine { wait := fun h => by (cases h), taken := ?_, sub := ?_, last := fun id h => by (cases h) }
        · show s.taken ++ [id] = s.done ++ [id]
          rw [h2]; simp
        · show ((s.taken ++ [id]) ++ []).Sublist _
          rw [List.append_nil]
          rw [hp] at h3
          exact h3
    · rw [if_neg hb] at hm; cases hm
  | finish =>
    simp only [Thr.move] at hm
    split at hm
    · rename_i id hr
      cases hm
      rw [hr] at h2
      refine { wait := fun h => by (cases h), taken := ?_, sub := h3, last := h4 }
      show s.taken = (s.done ++ [id]) ++ []
      rw [h2, List.append_nil]
    · cases hm
  | back =>
    simp only [Thr.move] at hm
    by_cases hb : s.at_ = .calling
    · rw [if_pos hb] at hm
      cases hm
      rw [hb] at h2
      refine { wait := ?_, taken := ?_, sub := h3, last := h4 }
      · intro hw
        by_cases hp : s.pending = none
        · exact hp
        · simp only [if_neg hp] at hw; cases hw
      · by_cases hp : s.pending = none
        · simp only [if_pos hp]; exact h2
        · simp only [if_neg hp]; exact h2
    · rw [if_neg hb] at hm; cases hm

theorem inv {s : Thr} (h : Reach s) : Inv s := by
  induction h with
  | init => exact { wait := fun h => by (cases h), taken := rfl, sub := List.Sublist.refl _, last := fun id h => by (cases h) }
  | move m _ hm ih => exact inv_move ih hm

/-- **Sets are run in the order added, none twice.** -/
theorem run_in_order (s : Thr) (h : Reach s) : s.done.Sublist (s.added.map Prod.fst) := by
  have hi := inv h
  refine List.Sublist.trans ?_ hi.sub
  rw [hi.taken, List.append_assoc]
  exact List.sublist_append_left _ _

/-- The moves the thread makes by itself. -/
def Move.Own : Move → Prop
  | .add _ _ => False
  | _ => True

/-- **The last set added is never forgotten**: while it is not taken, the thread, left to
itself, takes and runs it, whatever it is doing now. -/
theorem last_set_runs (s : Thr) (h : Reach s) (id : Nat) (hp : s.pending = some id) :
    ∃ ms s', (∀ m ∈ ms, Move.Own m) ∧ s.runs ms = some s' ∧ s'.done.getLast? = some id := by
  have hi := inv h
  have fin : ∀ s : Thr, s.at_ = .top → s.pending = some id →
      ∃ s', s.runs [.take, .finish] = some s' ∧ s'.done.getLast? = some id := by
    intro s ht hp
    refine ⟨{ s with pending := none, taken := s.taken ++ [id], done := s.done ++ [id], calls := s.calls ++ s.cb.toList, at_ := .calling },
      by simp only [Thr.runs, Thr.move, ht, hp, if_true], ?_⟩
    simp
  have top : ∀ (pre : List Move) (s1 : Thr), (∀ m ∈ pre, Move.Own m) → s.runs pre = some s1 → s1.at_ = .top → s1.pending = some id →
      ∃ ms s', (∀ m ∈ ms, Move.Own m) ∧ s.runs ms = some s' ∧ s'.done.getLast? = some id := by
    intro pre s1 hown hr ht hp1
    obtain ⟨s', e1, e2⟩ := fin s1 ht hp1
    have app : ∀ (a b : List Move) (s s1 : Thr), s.runs a = some s1 → s.runs (a ++ b) = s1.runs b := by
      intro a
      induction a with
      | nil => intro b s s1 h; cases h; rfl
      | cons m a ih =>
        intro b s s1 h
        unfold Thr.runs at h
        rw [List.cons_append]
        conv => lhs; unfold Thr.runs
        cases hm : s.move m with
        | none => rw [hm] at h; cases h
        | some s2 => rw [hm] at h; exact ih b s2 s1 h
    refine ⟨pre ++ [.take, .finish], s', ?_, by rw [app _ _ _ _ hr, e1], e2⟩
    intro m hm
    rcases List.mem_append.1 hm with h | h
    · exact hown m h
    · simp only [List.mem_cons, List.not_mem_nil, or_false] at h
      rcases h with h | h <;> subst h <;> trivial
  cases ha : s.at_ with
  | before =>
    refine top [.spawn] { s with at_ := .top } (fun m hm => ?_) (by simp only [Thr.runs, Thr.move, ha, if_true]) rfl hp
    rw [List.mem_singleton] at hm; subst hm; trivial
  | top => exact top [] s (fun m hm => by (cases hm)) rfl ha hp
  | running j =>
    refine top [.finish, .back] { s with done := s.done ++ [j], calls := s.calls ++ s.cb.toList, at_ := .top } (fun m hm => ?_)
      (by simp only [Thr.runs, Thr.move, ha, hp, if_true]; rfl) rfl hp
    simp only [List.mem_cons, List.not_mem_nil, or_false] at hm
    rcases hm with h | h <;> subst h <;> trivial
  | calling =>
    refine top [.back] { s with at_ := .top } (fun m hm => ?_) (by simp only [Thr.runs, Thr.move, ha, hp, if_true]; rfl) rfl hp
    rw [List.mem_singleton] at hm; subst hm; trivial
  | waiting => exact absurd (hi.wait ha) (by rw [hp]; simp)

/-! ## Callbacks -/

/-- The thread has nothing to do that was not told already: no set pending, none running. -/
def Thr.Free (s : Thr) : Prop := s.pending = none ∧ ∀ id, s.at_ ≠ .running id

/-- Reached with sets added only to a free thread (from its own callback, for instance). -/
inductive Polite : Thr → Prop where
  | init : Polite {}
  | move {s s' : Thr} (m : Move) : Polite s → ((∃ id cb, m = .add id cb) → s.Free) → s.move m = some s' → Polite s'

structure PInv (s : Thr) : Prop where
  order : s.done ++ (match s.at_ with | .running id => [id] | _ => []) ++ s.pending.toList = s.added.map Prod.fst
  calls : s.calls = (s.added.take s.done.length).filterMap Prod.snd
  cb : ∀ p, s.added.getLast? = some p → s.cb = p.2
  fresh : s.added = [] → s.cb = none
  start : s.at_ = .top → s.pending = none → s.added = []
  excl : ∀ id, s.at_ = .running id → s.pending = none
  unborn : s.at_ = .before → s.done = []

theorem pinv_move {s s' : Thr} {m : Move} (h : PInv s) (hf : (∃ id cb, m = .add id cb) → s.Free) (hm : s.move m = some s') : PInv s' := by
  obtain ⟨h1, h2, h3, h4, h5, h6, h7⟩ := h
  cases m with
  | add id cb =>
    obtain ⟨hp, hr⟩ := hf ⟨id, cb, rfl⟩
    simp only [Thr.move, Option.some.injEq] at hm
    subst hm
    have hm0 : (match s.at_ with | .running id => [id] | _ => ([] : List Nat)) = [] := by
      cases ha : s.at_ with
      | running j => exact absurd ha (hr j)
      | _ => rfl
    rw [hm0, hp] at h1
    simp only [Option.toList_none, List.append_nil] at h1
    have hlen : s.done.length = s.added.length := by rw [h1, List.length_map]
    have hm1 : (match (if s.at_ = .waiting then At.top else s.at_) with | .running id => [id] | _ => ([] : List Nat)) = [] := by
      by_cases hw : s.at_ = .waiting
      · rw [if_pos hw]
      · rw [if_neg hw]; exact hm0
    refine { order := ?_, calls := ?_, cb := ?_, fresh := ?_, start := ?_, excl := ?_, unborn := ?_ }
    · show s.done ++ (match (if s.at_ = .waiting then At.top else s.at_) with | .running id => [id] | _ => ([] : List Nat)) ++ [id] = (s.added ++ [(id, cb)]).map Prod.fst
      rw [hm1, h1]
      simp
    · show s.calls = ((s.added ++ [(id, cb)]).take s.done.length).filterMap Prod.snd
      rw [h2, hlen, List.take_append_of_le_length (Nat.le_refl _)]
    · intro p hpp
      replace hpp : (s.added ++ [(id, cb)]).getLast? = some p := hpp
      rw [List.getLast?_append] at hpp
      cases hpp
      rfl
    · intro he
      replace he : s.added ++ [(id, cb)] = [] := he
      simp at he
    · intro _ hpn
      cases hpn
    · intro j hj
      replace hj : (if s.at_ = .waiting then At.top else s.at_) = .running j := hj
      by_cases hw : s.at_ = .waiting
      · rw [if_pos hw] at hj; cases hj
      · rw [if_neg hw] at hj; exact absurd hj (hr j)
    · intro hj
      replace hj : (if s.at_ = .waiting then At.top else s.at_) = .before := hj
      by_cases hw : s.at_ = .waiting
      · rw [if_pos hw] at hj; cases hj
      · rw [if_neg hw] at hj; exact h7 hj
  | spawn =>
    simp only [Thr.move] at hm
    by_cases hb : s.at_ = .before
    · rw [if_pos hb] at hm
      cases hm
      rw [hb] at h1
      refine { order := h1, calls := h2, cb := h3, fresh := h4, start := ?_, excl := fun id h => by (cases h), unborn := fun h => by (cases h) }
      intro _ hpn
      replace hpn : s.pending = none := hpn
      rw [hpn, h7 hb] at h1
      exact List.map_eq_nil_iff.1 h1.symm
    · rw [if_neg hb] at hm; cases hm
  | take =>
    simp only [Thr.move] at hm
    by_cases hb : s.at_ = .top
    · rw [if_pos hb] at hm
      rw [hb] at h1
      cases hp : s.pending with
      | none =>
        rw [hp] at hm h1
        cases hm
        have hnil := h5 hb hp
        refine { order := h1, calls := ?_, cb := h3, fresh := h4, start := fun h => by (cases h), excl := fun id h => by (cases h), unborn := fun h => by (cases h) }
        show s.calls ++ s.cb.toList = _
        rw [h4 hnil, h2]
        exact List.append_nil _
      | some id =>
        rw [hp] at hm h1
        cases hm
        refine { order := ?_, calls := h2, cb := h3, fresh := h4, start := fun h => by (cases h), excl := fun _ _ => rfl, unborn := fun h => by (cases h) }
        show s.done ++ [id] ++ [] = _
        rw [← h1]
        simp
    · rw [if_neg hb] at hm; cases hm
  | finish =>
    simp only [Thr.move] at hm
    split at hm
    · rename_i id hr
      cases hm
      have hpn := h6 id hr
      rw [hr, hpn] at h1
      replace h1 : s.done ++ [id] ++ [] = s.added.map Prod.fst := h1
      rw [List.append_nil] at h1
      refine { order := ?_, calls := ?_, cb := h3, fresh := h4, start := fun h => by (cases h), excl := fun _ h => by (cases h), unborn := fun h => by (cases h) }
      · show (s.done ++ [id]) ++ [] ++ s.pending.toList = _
        rw [hpn, ← h1]
        simp
      · show s.calls ++ s.cb.toList = (s.added.take (s.done ++ [id]).length).filterMap Prod.snd
        have hlen : (s.done ++ [id]).length = s.added.length := by rw [h1, List.length_map]
        rcases List.eq_nil_or_concat s.added with hn | ⟨l, p, hl⟩
        · rw [hn] at hlen; simp at hlen
        · have hcb := h3 p (by rw [hl]; simp)
          rw [hlen, List.take_length, h2, hcb, hl]
          have : s.done.length = l.length := by
            rw [hl] at hlen
            simp only [List.length_append, List.length_singleton, List.concat_eq_append] at hlen
            omega
          rw [this, List.concat_eq_append, List.take_append_of_le_length (Nat.le_refl _), List.take_length, List.filterMap_append]
          cases hp2 : p.2 <;> simp [hp2]
    · cases hm
  | back =>
    simp only [Thr.move] at hm
    by_cases hb : s.at_ = .calling
    · rw [if_pos hb] at hm
      cases hm
      rw [hb] at h1
      by_cases hp : s.pending = none
      · refine { order := ?_, calls := h2, cb := h3, fresh := h4, start := ?_, excl := ?_, unborn := ?_ }
        · simp only [if_pos hp]; exact h1
        · intro h; simp only [if_pos hp] at h; cases h
        · intro _ h; simp only [if_pos hp] at h; cases h
        · intro h; simp only [if_pos hp] at h; cases h
      · refine { order := ?_, calls := h2, cb := h3, fresh := h4, start := ?_, excl := ?_, unborn := ?_ }
        · simp only [if_neg hp]; exact h1
        · intro _ h; exact absurd h hp
        · intro _ h; simp only [if_neg hp] at h; cases h
        · intro h; simp only [if_neg hp] at h; cases h
    · rw [if_neg hb] at hm; cases hm

/-- **Everything added to a free thread is run once, in order, and answered by its own
callback.** -/
theorem polite_complete_partial (s : Thr) (h : Polite s) :
    s.done ++ (match s.at_ with | .running id => [id] | _ => []) ++ s.pending.toList = s.added.map Prod.fst ∧
    s.calls = (s.added.take s.done.length).filterMap Prod.snd := by
  have : PInv s := by
    induction h with
    | init =>
      exact { order := rfl, calls := rfl, cb := fun p h => by (cases h), fresh := fun _ => rfl, start := fun _ _ => rfl,
              excl := fun _ h => by (cases h), unborn := fun _ => rfl }
    | move m _ hf hm ih => exact pinv_move ih hf hm
  exact ⟨this.order, this.calls⟩

/-- **A set added before the previous one was taken replaces it**: it is never run, and
its callback never made. -/
theorem overwritten_set_lost :
    ∃ s, Thr.runs {} [.add 1 (some 10), .add 2 (some 20), .spawn, .take, .finish, .back] = some s ∧
      s.at_ = .waiting ∧ s.done = [2] ∧ s.calls = [20] := by
  exact ⟨_, rfl, rfl, rfl, rfl⟩

/-- **A set added while another runs takes over its callback**: the end of the first set is
told to the second's callback, which is called twice, and the first's never. -/
theorem callback_taken_over :
    ∃ s, Thr.runs {} [.spawn, .take, .back, .add 1 (some 10), .take, .add 2 (some 20), .finish, .back, .take, .finish, .back] = some s ∧
      s.at_ = .waiting ∧ s.done = [1, 2] ∧ s.calls = [20, 20] := by
  exact ⟨_, rfl, rfl, rfl, rfl⟩

/-- Sets added from the callback of the one before. -/
example : ∃ s, Polite s ∧ s.done = [1, 2] ∧ s.calls = [10, 20] := by
  let a1 : Thr := { pending := some 1, cb := some 10, added := [(1, some 10)] }
  let a2 : Thr := { a1 with at_ := .top }
  let a3 : Thr := { a2 with pending := none, taken := [1], at_ := .running 1 }
  let a4 : Thr := { a3 with done := [1], calls := [10], at_ := .calling }
  let a5 : Thr := { a4 with pending := some 2, cb := some 20, added := [(1, some 10), (2, some 20)] }
  let a6 : Thr := { a5 with at_ := .top }
  let a7 : Thr := { a6 with pending := none, taken := [1, 2], at_ := .running 2 }
  let a8 : Thr := { a7 with done := [1, 2], calls := [10, 20], at_ := .calling }
  have no : ∀ {m : Move} {s : Thr}, (∀ i c, m ≠ .add i c) → ((∃ i c, m = .add i c) → s.Free) :=
    fun h ⟨i, c, e⟩ => absurd e (h i c)
  have p1 : Polite a1 := Polite.init.move (.add 1 (some 10)) (fun _ => ⟨rfl, fun _ h => by (cases h)⟩) rfl
  have p2 : Polite a2 := p1.move .spawn (no (fun _ _ h => by (cases h))) rfl
  have p3 : Polite a3 := p2.move .take (no (fun _ _ h => by (cases h))) rfl
  have p4 : Polite a4 := p3.move .finish (no (fun _ _ h => by (cases h))) rfl
  have p5 : Polite a5 := p4.move (.add 2 (some 20)) (fun _ => ⟨rfl, fun _ h => by (cases h)⟩) rfl
  have p6 : Polite a6 := p5.move .back (no (fun _ _ h => by (cases h))) rfl
  have p7 : Polite a7 := p6.move .take (no (fun _ _ h => by (cases h))) rfl
  have p8 : Polite a8 := p7.move .finish (no (fun _ _ h => by (cases h))) rfl
  exact ⟨a8, p8, rfl, rfl⟩

end Verif.TgTlm
