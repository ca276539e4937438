import Verif.ChiIds.Model
/-!
C31: a CHI transaction id is handed out to one user at a time.
-/
namespace Verif.ChiIds

/-- Every id is either free or held, and only once. -/
def Exact (s : St) : Prop := (s.free ++ s.held.map (·.2)).Perm (List.range 256)

theorem eraseP_map_perm {l : List (Thread × Nat)} {x : Nat} (h : x ∈ l.map (·.2)) :
    (x :: (l.eraseP fun p => p.2 == x).map (·.2)).Perm (l.map (·.2)) := by
  induction l with
  | nil => simp at h
  | cons p l ih =>
    by_cases hp : p.2 = x
    · rw [List.eraseP_cons_of_pos (by simp [hp])]
      simp [hp]
    · rw [List.eraseP_cons_of_neg (by simp [hp])]
      have : x ∈ l.map (·.2) := by
        simp only [List.map_cons, List.mem_cons] at h
        rcases h with h | h
        · exact absurd h.symm hp
        · exact h
      simp only [List.map_cons]
      exact (List.Perm.swap _ _ _).trans ((ih this).cons _)

theorem take_exact {s s' : St} {t : Thread} (h : Exact s) (e : take s t = some s') : Exact s' := by
  unfold take at e
  split at e
  · exact absurd e (by simp)
  · rename_i id rest hf
    simp only [Option.some.injEq] at e
    subst e
    unfold Exact at *
    rw [hf] at h
    simp only [List.map_cons]
    exact List.perm_middle.trans h

theorem step_exact {s s' : St} {o : Op} (h : Exact s) (e : step s o = some s')
    (hf : retOk s o = true) : Exact s' := by
  cases o with
  | get t =>
    simp only [step] at e
    split at e
    · simp only [Option.some.injEq] at e; subst e; exact h
    · split at e
      · simp only [Option.some.injEq] at e; subst e; exact h
      · exact take_exact h e
  | run t =>
    simp only [step] at e
    split at e
    · exact take_exact (s := { s with ready := s.ready.erase t }) h e
    · simp only [Option.some.injEq] at e; subst e; exact h
  | ret id =>
    simp only [step, Option.some.injEq] at e
    subst e
    unfold Exact at *
    simp only [retOk, decide_eq_true_eq] at hf
    simp only
    rw [List.append_assoc]
    exact ((eraseP_map_perm hf).append_left _).trans h

theorem exec_exact : ∀ {os : List Op} {s s' : St}, Exact s → Fair s os = true → exec s os = some s' → Exact s'
  | [], s, s', h, _, e => by
    simp only [exec, Option.some.injEq] at e; subst e; exact h
  | o :: os, s, s', h, hf, e => by
    simp only [exec] at e
    cases hs : step s o with
    | none => simp [hs] at e
    | some s1 =>
      simp only [hs] at e
      simp only [Fair, hs, Bool.and_eq_true] at hf
      exact exec_exact (step_exact h hs hf.1) hf.2 e

/-- In every history without undefined behaviour in which only ids in use are
returned, whatever the number of processes and however the waiting ones are
scheduled: no id is held twice, no held id is in the pool, all ids are below
256, and at most 256 are held. Missing from the full property: the absence of
undefined behaviour, which fails (`two_waiters_one_id`). -/
theorem ids_unique_partial {os : List Op} {s : St} (hf : Fair init os = true) (e : exec init os = some s) :
    (s.held.map (·.2)).Nodup ∧ (∀ id ∈ s.held.map (·.2), id < 256 ∧ id ∉ s.free) ∧
    s.held.length ≤ 256 ∧ s.held.length + s.free.length = 256 := by
  have h : Exact s := exec_exact (by simp [Exact, init]) hf e
  have nd := h.nodup_iff.2 List.nodup_range
  have hl := h.length_eq
  simp only [List.length_append, List.length_map, List.length_range] at hl
  rw [List.nodup_append] at nd
  refine ⟨nd.2.1, fun id hid => ⟨?_, fun hfr => nd.2.2 id hfr id hid rfl⟩, by omega, by omega⟩
  exact List.mem_range.1 (h.subset (List.mem_append.2 (Or.inr hid)))

/-- An id that is handed out was not in use before. -/
theorem fresh_id {os : List Op} {s s' : St} {o : Op} (hf : Fair init os = true) (e : exec init os = some s)
    (hs : step s o = some s') {t : Thread} {id : Nat} (hn : s'.held = (t, id) :: s.held) :
    id ∉ s.held.map (·.2) ∧ id ∈ s.free := by
  have h : Exact s := exec_exact (by simp [Exact, init]) hf e
  have nd := h.nodup_iff.2 List.nodup_range
  rw [List.nodup_append] at nd
  have key : id ∈ s.free := by
    have tk : ∀ {r : St} {u : Thread}, r.free = s.free → r.held = s.held →
        take r u = some s' → id ∈ s.free := by
      intro r u h1 h2 h3
      unfold take at h3
      split at h3
      · exact absurd h3 (by simp)
      · rename_i x rest hx
        simp only [Option.some.injEq] at h3
        subst h3
        simp only [List.cons.injEq, Prod.mk.injEq] at hn
        rw [← h1, hx, ← hn.1.2]
        simp
    have len : s'.held.length = s.held.length + 1 := by rw [hn]; simp
    cases o with
    | get u =>
      simp only [step] at hs
      split at hs
      · simp only [Option.some.injEq] at hs; subst hs; omega
      · split at hs
        · simp only [Option.some.injEq] at hs; subst hs; simp at len
        · exact tk rfl rfl hs
    | run u =>
      simp only [step] at hs
      split at hs
      · exact tk (r := { s with ready := s.ready.erase u }) rfl rfl hs
      · simp only [Option.some.injEq] at hs; subst hs; omega
    | ret i =>
      simp only [step, Option.some.injEq] at hs
      subst hs
      simp only at len
      have := List.length_eraseP_le (l := s.held) (p := fun p => p.2 == i % 256)
      omega
  exact ⟨fun hm => nd.2.2 id key id hm rfl, key⟩

/-- Only process `t` calls `GetID`. -/
def OneGetter (t : Thread) (os : List Op) : Prop := ∀ o ∈ os, ∀ u, o = .get u → u = t

/-- With a single process obtaining ids (any number returning them) the pool
never misbehaves. -/
theorem single_getter_safe {t : Thread} {os : List Op} (h : OneGetter t os) :
    ∃ s, exec init os = some s := by
  have gen : ∀ (os : List Op) (s : St), OneGetter t os →
      (s.waiting = [] ∧ s.ready = [] ∨ s.waiting = [t] ∧ s.ready = [] ∨
        s.waiting = [] ∧ s.ready = [t] ∧ s.free ≠ []) → ∃ s', exec s os = some s' := by
    intro os
    induction os with
    | nil => intro s _ _; exact ⟨s, rfl⟩
    | cons o os ih =>
      intro s hg hs
      have hg' : OneGetter t os := fun o ho => hg o (List.mem_cons_of_mem _ ho)
      cases o with
      | get u =>
        have : u = t := hg _ List.mem_cons_self u rfl
        subst this
        simp only [exec, step]
        rcases hs with ⟨h1, h2⟩ | ⟨h1, h2⟩ | ⟨h1, h2, h3⟩
        · rw [if_neg (by simp [h1, h2])]
          by_cases hf : s.free = []
          · rw [if_pos hf]
            exact ih _ hg' (Or.inr (Or.inl ⟨by simp [h1], h2⟩))
          · rw [if_neg hf]
            obtain ⟨x, rest, hx⟩ := List.exists_cons_of_ne_nil hf
            simp only [take, hx]
            exact ih _ hg' (Or.inl ⟨h1, h2⟩)
        · rw [if_pos (by simp [h1])]
          exact ih _ hg' (Or.inr (Or.inl ⟨h1, h2⟩))
        · rw [if_pos (by simp [h2])]
          exact ih _ hg' (Or.inr (Or.inr ⟨h1, h2, h3⟩))
      | run u =>
        simp only [exec, step]
        rcases hs with ⟨h1, h2⟩ | ⟨h1, h2⟩ | ⟨h1, h2, h3⟩
        · rw [if_neg (by simp [h2])]
          exact ih _ hg' (Or.inl ⟨h1, h2⟩)
        · rw [if_neg (by simp [h2])]
          exact ih _ hg' (Or.inr (Or.inl ⟨h1, h2⟩))
        · by_cases hu : u = t
          · rw [if_pos (by simp [h2, hu])]
            obtain ⟨x, rest, hx⟩ := List.exists_cons_of_ne_nil h3
            simp only [take, hx]
            exact ih _ hg' (Or.inl ⟨h1, by simp [h2, hu]⟩)
          · rw [if_neg (by simp [h2, hu])]
            exact ih _ hg' (Or.inr (Or.inr ⟨h1, h2, h3⟩))
      | ret id =>
        simp only [exec, step]
        rcases hs with ⟨h1, h2⟩ | ⟨h1, h2⟩ | ⟨h1, h2, h3⟩
        · exact ih _ hg' (Or.inl ⟨rfl, by simp [h1, h2]⟩)
        · exact ih _ hg' (Or.inr (Or.inr ⟨rfl, by simp [h1, h2], by simp⟩))
        · exact ih _ hg' (Or.inr (Or.inr ⟨rfl, by simp [h1, h2], by simp⟩))
  exact gen os init h (Or.inl ⟨rfl, rfl⟩)

/-- A waiter is served after an id is returned. -/
theorem waiter_served {s : St} {t : Thread} (hw : s.waiting = [t]) (hr : s.ready = [])
    (hf : s.free = []) (id : Nat) :
    ∃ s1 s2, step s (.ret id) = some s1 ∧ step s1 (.run t) = some s2 ∧
      s2.held.head? = some (t, id % 256) ∧ s2.waiting = [] ∧ s2.ready = [] := by
  refine ⟨_, ⟨[], [], [], (t, id % 256) :: s.held.eraseP fun p => p.2 == id % 256⟩, rfl, ?_, ?_, ?_, ?_⟩
  · simp [step, hw, hr, hf, take]
  · rfl
  · rfl
  · rfl

/-- All 256 ids taken by process 0. -/
def drain : List Op := List.replicate 256 (.get 0)

example : Fair init (drain ++ [.get 1, .ret 7, .run 1]) = true ∧
    (exec init (drain ++ [.get 1, .ret 7, .run 1])).map (fun s => s.held.take 2)
      = some [(1, 7), (0, 255)] := by decide +kernel

/-- FINDING. Two processes wait for an id and one is returned: both are woken and
the second one takes from an empty list. -/
theorem two_waiters_one_id :
    exec init (drain ++ [.get 1, .get 2, .ret 7, .run 1, .run 2]) = none := by decide +kernel

/-- FINDING. A process that asks for an id between the return and the moment the
waiter runs takes it, and the waiter takes from an empty list. -/
theorem barging_getter :
    exec init (drain ++ [.get 1, .ret 7, .get 2, .run 1]) = none := by decide +kernel

/-- FINDING. An id returned twice is handed out twice (nothing checks for it). -/
theorem double_return_duplicates :
    (exec init (.get 0 :: .ret 0 :: .ret 0 :: List.replicate 257 (.get 1))).map
      (fun s => (s.held.map (·.2)).count 0) = some 2 := by decide +kernel

end Verif.ChiIds
