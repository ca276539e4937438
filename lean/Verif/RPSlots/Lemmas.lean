import Verif.RPSlots.Spec

namespace Verif.RPSlots
open Verif

/-- The relation between table and map.  `k` is the number of ids allocated so
far, `c0` the first id. -/
structure Rel (c0 : BitVec 32) (k : Nat) (s : State) (a : Spec.State) : Prop where
  next : s.next = a.next
  cnt : a.cnt = (List.range N).countP (fun i => (s.slots i).used)
  /-- an outstanding id has its waiter's slot -/
  slot : ∀ id r, a.out id = some r → ∃ i, i < N ∧ s.waiting id = some i ∧ (s.slots i).used = true ∧
    (s.slots i).id = id ∧
    (match r with
     | none => (s.slots i).valid = false
     | some p => (s.slots i).valid = true ∧ (s.slots i).pkt = p ∧ p.id = id)
  absent : ∀ id, a.out id = none → s.waiting id = none
  /-- a used slot belongs to an outstanding id -/
  used : ∀ i, i < N → (s.slots i).used = true → s.waiting (s.slots i).id = some i
  /-- free slots carry no stale answer -/
  freeInvalid : ∀ i, i < N → (s.slots i).used = false → (s.slots i).valid = false
  nextEq : s.next = c0 + BitVec.ofNat 32 k
  ids : ∀ id, a.out id ≠ none → ∃ j, j < k ∧ id = c0 + BitVec.ofNat 32 j

theorem countP_upd {n : Nat} {f : Nat → Slot} {i : Nat} {v : Slot} (hi : i < n) :
    (List.range n).countP (fun j => (upd f i v j).used) + (if (f i).used then 1 else 0)
      = (List.range n).countP (fun j => (f j).used) + (if v.used then 1 else 0) := by
  have agree : ∀ m, m ≤ i → (List.range m).countP (fun j => (upd f i v j).used)
      = (List.range m).countP (fun j => (f j).used) := by
    intro m hm
    apply List.countP_congr
    intro j hj
    have hj := List.mem_range.mp hj
    have : j ≠ i := by omega
    simp [upd, this]
  induction n with
  | zero => omega
  | succ n ih =>
    rw [List.range_succ, List.countP_append, List.countP_append]
    by_cases h : i = n
    · subst h
      rw [agree i (Nat.le_refl _)]
      simp [upd]
      cases (f i).used <;> cases v.used <;> simp <;> omega
    · have := ih (by omega)
      have hne : n ≠ i := fun e => h e.symm
      simp only [List.countP_cons, List.countP_nil, upd, hne, if_false] at *
      omega

theorem countP_upd' {n : Nat} {f : Nat → Slot} {i m : Nat} {v : Slot} (hi : i < n)
    (h : m + (if (f i).used then 1 else 0)
      = (List.range n).countP (fun j => (f j).used) + (if v.used then 1 else 0)) :
    m = (List.range n).countP (fun j => (upd f i v j).used) := by
  have := countP_upd (f := f) (v := v) hi
  omega

theorem free_some {s : State} {i : Nat} (h : free s = some i) : i < N ∧ (s.slots i).used = false := by
  unfold free at h
  have h1 := List.mem_of_find?_eq_some h
  have h2 := List.find?_some h
  exact ⟨List.mem_range.mp h1, by simpa using h2⟩

theorem free_none_iff (s : State) : free s = none ↔ (List.range N).countP (fun i => (s.slots i).used) = N := by
  unfold free
  rw [List.find?_eq_none]
  have : (List.range N).countP (fun i => (s.slots i).used) = N ↔
      (List.range N).countP (fun i => (s.slots i).used) = (List.range N).length := by
    rw [List.length_range]
  rw [this, List.countP_eq_length]
  simp

theorem lookup_some {s : State} {id : BitVec 32} {i : Nat} (h : lookup s id = some i) :
    i < N ∧ (s.slots i).used = true ∧ (s.slots i).id = id := by
  unfold lookup at h
  have h1 := List.mem_of_find?_eq_some h
  have h2 := List.find?_some h
  simp at h2
  exact ⟨List.mem_range.mp h1, h2.1, h2.2⟩

theorem lookup_none {s : State} {id : BitVec 32} (h : lookup s id = none) (i : Nat) (hi : i < N)
    (hu : (s.slots i).used = true) : (s.slots i).id ≠ id := by
  unfold lookup at h
  rw [List.find?_eq_none] at h
  have := h i (List.mem_range.mpr hi)
  simpa [hu] using this

theorem upd_same {α β : Type} [DecidableEq α] (f : α → β) (a : α) (b : β) : upd f a b a = b := by simp [upd]
theorem upd_ne {α β : Type} [DecidableEq α] (f : α → β) {a x : α} (b : β) (h : x ≠ a) : upd f a b x = f x := by
  simp [upd, h]

theorem rel_init (c0 : BitVec 32) : Rel c0 0 (init c0) (Spec.init c0) := by
  constructor <;> simp [init, Spec.init]

theorem fresh {c0 : BitVec 32} {k : Nat} {s : State} {a : Spec.State} (h : Rel c0 k s a) (hk : k < 2 ^ 32) :
    a.out s.next = none := by
  by_cases e : a.out s.next = none
  · exact e
  · obtain ⟨j, hj, he⟩ := h.ids _ e
    rw [h.nextEq] at he
    have := congrArg BitVec.toNat he
    simp only [BitVec.toNat_add, BitVec.toNat_ofNat] at this
    omega

/-- Simulation step. -/
theorem rel_step {c0 : BitVec 32} {k : Nat} {s : State} {a : Spec.State} (h : Rel c0 k s a) (hk : k < 2 ^ 32)
    (o : Op) :
    (step s o = none ∧ Spec.step a o = none) ∨
    ∃ s' a' out k', step s o = some (s', out) ∧ Spec.step a o = some (a', out) ∧ Rel c0 k' s' a' ∧ k' ≤ k + 1 := by
  cases o with
  | issue =>
    cases hf : free s with
    | none =>
      left
      have := (free_none_iff s).mp hf
      have hc : ¬ a.cnt < 256 := by rw [h.cnt, this]; decide
      simp [step, hf, Spec.step, hc]
    | some i =>
      right
      obtain ⟨hi, hu⟩ := free_some hf
      have hlt : a.cnt < 256 := by
        have h1 : (List.range N).countP (fun i => (s.slots i).used) ≠ N := by
          intro e; rw [(free_none_iff s).mpr e] at hf; cases hf
        have h2 : (List.range N).countP (fun i => (s.slots i).used) ≤ (List.range N).length :=
          List.countP_le_length
        rw [List.length_range] at h2
        rw [h.cnt]; show _ < N; omega
      have hfr := fresh h hk
      refine ⟨_, _, .issued a.next, k + 1, by simp only [step, hf, h.next]; rfl,
        by simp only [Spec.step, hlt, if_true]; rfl, ?_, Nat.le_refl _⟩
      rw [h.next] at hfr
      constructor
      · rfl
      · apply countP_upd' hi
        simp [hu, h.cnt]
      · intro id r hr
        by_cases e : id = a.next
        · subst e
          simp only [upd_same] at hr
          injection hr with hr
          subst hr
          refine ⟨i, hi, ?_, ?_, ?_, ?_⟩
          · simp [h.next, upd_same]
          · simp [upd_same]
          · simp [upd_same, h.next]
          · simp [upd_same]; exact h.freeInvalid i hi hu
        · simp only [upd_ne _ _ e] at hr
          obtain ⟨j, hj, hw, hju, hjid, hm⟩ := h.slot id r hr
          have hji : j ≠ i := by intro e; subst e; rw [hu] at hju; cases hju
          refine ⟨j, hj, ?_, ?_, ?_, ?_⟩
          · simp only [h.next, upd_ne _ _ e, hw]
          · simp only [upd_ne _ _ hji, hju]
          · simp only [upd_ne _ _ hji, hjid]
          · simp only [upd_ne _ _ hji]; exact hm
      · intro id hid
        by_cases e : id = a.next
        · subst e; simp [upd_same] at hid
        · simp only [upd_ne _ _ e] at hid
          simp only [h.next, upd_ne _ _ e]; exact h.absent id hid
      · intro j hj hju
        by_cases e : j = i
        · subst e; simp [upd_same]
        · simp only [upd_ne _ _ e] at hju ⊢
          have hw := h.used j hj hju
          by_cases e2 : (s.slots j).id = a.next
          · exfalso
            rw [e2] at hw
            rw [h.absent _ hfr] at hw
            cases hw
          · simp only [upd_ne _ _ e2]; exact hw
      · intro j hj hju
        by_cases e : j = i
        · subst e; simp [upd_same] at hju
        · simp only [upd_ne _ _ e] at hju ⊢
          exact h.freeInvalid j hj hju
      · show a.next + 1 = _
        rw [← h.next, h.nextEq, BitVec.add_assoc]
        congr 1
        apply BitVec.eq_of_toNat_eq
        simp
      · intro id hid
        by_cases e : id = a.next
        · exact ⟨k, by omega, by rw [e, ← h.next, h.nextEq]⟩
        · simp only [upd_ne _ _ e] at hid
          obtain ⟨j, hj, he⟩ := h.ids id hid
          exact ⟨j, by omega, he⟩
  | arrive posted p =>
    cases posted with
    | true => right; exact ⟨s, a, .nothing, k, rfl, rfl, h, by omega⟩
    | false =>
      cases hl : lookup s p.id with
      | none =>
        left
        have hn : a.out p.id = none := by
          cases e : a.out p.id with
          | none => rfl
          | some r =>
            obtain ⟨i, hi, -, hu, hid, -⟩ := h.slot _ _ e
            exact absurd hid (lookup_none hl i hi hu)
        simp [step, hl, Spec.step, hn]
      | some i =>
        right
        obtain ⟨hi, hu, hid⟩ := lookup_some hl
        have hw := h.used i hi hu
        rw [hid] at hw
        cases ho : a.out p.id with
        | none => rw [h.absent _ ho] at hw; cases hw
        | some r0 =>
          refine ⟨_, _, _, k, by simp only [step, hl]; rfl, by simp only [Spec.step, ho]; rfl, ?_, by omega⟩
          constructor
          · exact h.next
          · apply countP_upd' hi
            simp [hu, h.cnt]
          · intro id r hr
            by_cases e : id = p.id
            · subst e
              simp only [upd_same] at hr
              injection hr with hr
              subst hr
              exact ⟨i, hi, hw, by simp [upd_same, hu], by simp [upd_same, hid], by simp [upd_same]⟩
            · simp only [upd_ne _ _ e] at hr
              obtain ⟨j, hj, hjw, hju, hjid, hm⟩ := h.slot id r hr
              have hji : j ≠ i := by intro e2; subst e2; exact e (hjid.symm.trans hid)
              refine ⟨j, hj, hjw, ?_, ?_, ?_⟩ <;> simp only [upd_ne _ _ hji]
              · exact hju
              · exact hjid
              · exact hm
          · intro id hidn
            by_cases e : id = p.id
            · subst e; simp [upd_same] at hidn
            · simp only [upd_ne _ _ e] at hidn
              exact h.absent id hidn
          · intro j hj hju
            by_cases e : j = i
            · subst e; simp only [upd_same]; rw [hid]; exact hw
            · simp only [upd_ne _ _ e] at hju ⊢
              exact h.used j hj hju
          · intro j hj hju
            by_cases e : j = i
            · subst e; simp only [upd_same] at hju; rw [hu] at hju; cases hju
            · simp only [upd_ne _ _ e] at hju ⊢
              exact h.freeInvalid j hj hju
          · exact h.nextEq
          · intro id hidn
            by_cases e : id = p.id
            · exact h.ids id (by rw [e, ho]; simp)
            · simp only [upd_ne _ _ e] at hidn
              exact h.ids id hidn
  | poll id =>
    right
    cases ho : a.out id with
    | none =>
      exact ⟨s, a, .nothing, k, by simp [step, h.absent id ho], by simp [Spec.step, ho], h, by omega⟩
    | some r =>
      obtain ⟨i, hi, hw, hu, hid, hm⟩ := h.slot id r ho
      cases r with
      | none =>
        simp only at hm
        exact ⟨s, a, .nothing, k, by simp [step, hw, hm], by simp [Spec.step, ho], h, by omega⟩
      | some p =>
        simp only at hm
        obtain ⟨hv, hp, hpid⟩ := hm
        refine ⟨_, _, .got p, k, by simp only [step, hw, hv, hp, hpid]; rfl, by simp only [Spec.step, ho]; rfl, ?_, by omega⟩
        constructor
        · exact h.next
        · apply countP_upd' hi
          have hpos : 0 < (List.range N).countP (fun j => (s.slots j).used) :=
            List.countP_pos_iff.mpr ⟨i, List.mem_range.mpr hi, hu⟩
          simp only [hu, h.cnt, if_true]
          simp
          omega
        · intro id' r hr
          by_cases e : id' = id
          · subst e; simp [upd_same] at hr
          · simp only [upd_ne _ _ e] at hr
            obtain ⟨j, hj, hjw, hju, hjid, hjm⟩ := h.slot id' r hr
            have hji : j ≠ i := by intro e2; subst e2; exact e (hjid.symm.trans hid)
            refine ⟨j, hj, ?_, ?_, ?_, ?_⟩
            · simp only [upd_ne _ _ e]; exact hjw
            · simp only [upd_ne _ _ hji]; exact hju
            · simp only [upd_ne _ _ hji]; exact hjid
            · simp only [upd_ne _ _ hji]; exact hjm
        · intro id' hn
          by_cases e : id' = id
          · subst e; simp [upd_same]
          · simp only [upd_ne _ _ e] at hn ⊢
            exact h.absent id' hn
        · intro j hj hju
          by_cases e : j = i
          · subst e; simp [upd_same] at hju
          · simp only [upd_ne _ _ e] at hju ⊢
            have hjw := h.used j hj hju
            have : (s.slots j).id ≠ id := by
              intro e2; rw [e2, hw] at hjw; injection hjw with hjw; exact e hjw.symm
            simp only [upd_ne _ _ this]; exact hjw
        · intro j hj hju
          by_cases e : j = i
          · subst e; simp [upd_same]
          · simp only [upd_ne _ _ e] at hju ⊢
            exact h.freeInvalid j hj hju
        · exact h.nextEq
        · intro id' hn
          by_cases e : id' = id
          · subst e; simp [upd_same] at hn
          · simp only [upd_ne _ _ e] at hn
            exact h.ids id' hn

end Verif.RPSlots
