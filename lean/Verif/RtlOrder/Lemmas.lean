import Verif.RtlOrder.Spec

/-! # The descriptors held, as lists -/

namespace Verif.RtlOrder

def upd {α : Type} (f : Nat → α) (k : Nat) (v : α) : Nat → α := fun j => if j = k then v else f j

@[simp] theorem upd_same {α : Type} (f : Nat → α) (k : Nat) (v : α) : upd f k v k = v := by simp [upd]

theorem upd_ne {α : Type} (f : Nat → α) {k j : Nat} (v : α) (h : j ≠ k) : upd f k v j = f j := by simp [upd, h]

section
variable {ι : Type} [DecidableEq ι]

/-- The request accepted but not yet in its FIFO: the FIFO, the descriptor, the ID. -/
abbrev Flight (ι : Type) := Option (Nat × Nat × ι)

def flightOf (f : Flight ι) (x : ι) : List (Nat × ι) :=
  match f with
  | some (_, d, y) => if y = x then [(d, y)] else []
  | none => []

def lastOf (acc : List (Nat × ι)) (d : Nat) : Option (Nat × ι) := acc.reverse.find? fun a => decide (a.1 = d)

structure Held (Q : Nat → List Nat) (ids : Nat → Option ι) (acc sent : List (Nat × ι)) (f : Flight ι) : Prop where
  lt : ∀ j, Q j ≠ [] → j < 16
  el : ∀ j d, d ∈ Q j → d < 16
  nodup : ∀ j, (Q j).Nodup
  disj : ∀ j k d, d ∈ Q j → d ∈ Q k → j = k
  idne : ∀ j k, Q j ≠ [] → Q k ≠ [] → ids j = ids k → j = k
  idsome : ∀ j, Q j ≠ [] → ∃ x, ids j = some x
  inside : ∀ j d, d ∈ Q j → uses acc d = uses sent d + 1
  outside : ∀ d, (∀ j, d ∉ Q j) → (∀ t x, f ≠ some (t, d, x)) → uses acc d = uses sent d
  ordQ : ∀ j x, Q j ≠ [] → ids j = some x → ofId x acc = ofId x sent ++ (Q j).map (fun d => (d, x)) ++ flightOf f x
  ordE : ∀ x, (∀ j, Q j ≠ [] → ids j ≠ some x) → ofId x acc = ofId x sent ++ flightOf f x
  lab : ∀ j d x, d ∈ Q j → ids j = some x → lastOf acc d = some (d, x)
  fly : ∀ t d x, f = some (t, d, x) → t < 16 ∧ ids t = some x ∧ (∀ k, k ≠ t → Q k ≠ [] → ids k ≠ some x) ∧ d < 16 ∧
    (∀ j, d ∉ Q j) ∧ lastOf acc d = some (d, x) ∧ uses acc d = uses sent d + 1

theorem held_start : Held (fun _ => []) (fun _ => (none : Option ι)) [] [] none where
  lt := by simp
  el := by simp
  nodup := by simp
  disj := by simp
  idne := by simp
  idsome := by simp
  inside := by simp
  outside := by simp
  ordQ := by simp
  ordE := by simp [flightOf, ofId]
  lab := by simp
  fly := by simp

omit [DecidableEq ι] in
theorem uses_append (a b : List (Nat × ι)) (d : Nat) : uses (a ++ b) d = uses a d + uses b d := by simp [uses]

theorem ofId_append (x : ι) (a b : List (Nat × ι)) : ofId x (a ++ b) = ofId x a ++ ofId x b := by simp [ofId]

omit [DecidableEq ι] in
theorem uses_one (d e : Nat) (x : ι) : uses [(d, x)] e = if d = e then 1 else 0 := by
  simp only [uses, List.countP_cons, List.countP_nil]
  split <;> simp_all

/-- The head of a list leaves. -/
theorem Held.pop {Q : Nat → List Nat} {ids : Nat → Option ι} {acc sent : List (Nat × ι)} {f : Flight ι} (v : Held Q ids acc sent f)
    {j d : Nat} {r : List Nat} (hq : Q j = d :: r) {x : ι} (hx : ids j = some x) :
    Held (upd Q j r) ids acc (sent ++ [(d, x)]) f := by
  have hj : Q j ≠ [] := by rw [hq]; simp
  have hd : d ∈ Q j := by rw [hq]; simp
  have hn := v.nodup j
  rw [hq, List.nodup_cons] at hn
  have sub : ∀ {k e}, e ∈ upd Q j r k → e ∈ Q k := by
    intro k e h
    by_cases hk : k = j
    · subst hk; rw [upd_same] at h; rw [hq]; exact List.mem_cons_of_mem _ h
    · rwa [upd_ne _ _ hk] at h
  have ne : ∀ {k}, upd Q j r k ≠ [] → Q k ≠ [] := by
    intro k h
    by_cases hk : k = j
    · subst hk; exact hj
    · rwa [upd_ne _ _ hk] at h
  have gone : ∀ k, d ∉ upd Q j r k := by
    intro k h
    by_cases hk : k = j
    · subst hk; rw [upd_same] at h; exact hn.1 h
    · exact hk (v.disj _ _ _ (sub h) hd)
  refine ⟨fun k h => v.lt k (ne h), fun k e h => v.el k e (sub h), ?_, fun k l e h h' => v.disj k l e (sub h) (sub h'),
    fun k l h h' => v.idne k l (ne h) (ne h'), fun k h => v.idsome k (ne h), ?_, ?_, ?_, ?_, fun k e y h => v.lab k e y (sub h), ?_⟩
  · intro k
    by_cases hk : k = j
    · subst hk; rw [upd_same]; exact hn.2
    · rw [upd_ne _ _ hk]; exact v.nodup k
  · intro k e h
    have hne : d ≠ e := fun he => gone k (he ▸ h)
    rw [uses_append, uses_one, if_neg hne]
    exact v.inside k e (sub h)
  · intro e h h'
    rw [uses_append, uses_one]
    by_cases he : d = e
    · subst he
      rw [if_pos rfl]
      exact v.inside j d hd
    · rw [if_neg he]
      refine v.outside e (fun k hk => ?_) h'
      refine h k ?_
      by_cases hkj : k = j
      · subst hkj
        rw [upd_same]
        rw [hq] at hk
        rcases List.mem_cons.1 hk with rfl | hk
        · exact absurd rfl he
        · exact hk
      · rwa [upd_ne _ _ hkj]
  · intro k y h hy
    rw [ofId_append]
    by_cases hk : k = j
    · subst hk
      rw [hx] at hy
      cases hy
      rw [v.ordQ k x hj hx, hq, upd_same]
      simp [ofId]
    · have hxy : x ≠ y := by
        rintro rfl
        exact hk (v.idne k j (ne h) hj (by rw [hx, hy]))
      rw [v.ordQ k y (ne h) hy, upd_ne _ _ hk]
      simp [ofId, hxy]
  · intro y h
    rw [ofId_append]
    by_cases hxy : x = y
    · subst hxy
      have hr : r = [] := by
        have := h j
        rw [upd_same, hx] at this
        exact Classical.byContradiction fun hc => this hc rfl
      rw [v.ordQ j x hj hx, hq, hr]
      simp [ofId]
    · rw [v.ordE y]
      · simp [ofId, hxy]
      · intro k hk
        by_cases hkj : k = j
        · subst hkj
          rw [hx]
          exact fun hc => hxy (Option.some.inj hc)
        · exact h k (by rwa [upd_ne _ _ hkj])
  · intro t e y hf
    obtain ⟨a, b, c, g, h, l, u⟩ := v.fly t e y hf
    refine ⟨a, b, fun k hk h' => c k hk (ne h'), g, fun k hk => h k (sub hk), l, ?_⟩
    have hne : d ≠ e := by
      rintro rfl
      exact h j hd
    rw [uses_append, uses_one, if_neg hne]
    exact u

/-- The request under way comes to its FIFO. -/
theorem Held.push {Q : Nat → List Nat} {ids : Nat → Option ι} {acc sent : List (Nat × ι)} {t d : Nat} {x : ι}
    (v : Held Q ids acc sent (some (t, d, x))) : Held (upd Q t (Q t ++ [d])) ids acc sent none := by
  obtain ⟨ht, hid, hoth, hd, hout, hlab, hu⟩ := v.fly t d x rfl
  have cases : ∀ {k e}, e ∈ upd Q t (Q t ++ [d]) k → e ∈ Q k ∨ (k = t ∧ e = d) := by
    intro k e h
    by_cases hk : k = t
    · subst hk
      rw [upd_same] at h
      rcases List.mem_append.1 h with h | h
      · exact .inl h
      · exact .inr ⟨rfl, List.mem_singleton.1 h⟩
    · rw [upd_ne _ _ hk] at h
      exact .inl h
  have same : ∀ {k}, k ≠ t → upd Q t (Q t ++ [d]) k = Q k := fun hk => upd_ne _ _ hk
  refine ⟨?_, ?_, ?_, ?_, ?_, ?_, ?_, ?_, ?_, ?_, ?_, by simp⟩
  · intro k h
    by_cases hk : k = t
    · subst hk; exact ht
    · rw [same hk] at h; exact v.lt k h
  · intro k e h
    rcases cases h with h | ⟨_, rfl⟩
    · exact v.el k e h
    · exact hd
  · intro k
    by_cases hk : k = t
    · subst hk
      rw [upd_same, List.nodup_append]
      refine ⟨v.nodup k, by simp, ?_⟩
      intro a ha b hb
      rw [List.mem_singleton.1 hb]
      rintro rfl
      exact hout _ ha
    · rw [same hk]; exact v.nodup k
  · intro k l e h h'
    rcases cases h with h1 | ⟨hk, he⟩ <;> rcases cases h' with h2 | ⟨hl, he'⟩
    · exact v.disj k l e h1 h2
    · exact absurd (he' ▸ h1) (hout _)
    · exact absurd (he ▸ h2) (hout _)
    · rw [hk, hl]
  · intro k l h h' hi
    by_cases hk : k = t <;> by_cases hl : l = t
    · rw [hk, hl]
    · subst hk
      rw [same hl] at h'
      exact absurd (hi ▸ hid) (hoth l hl h')
    · subst hl
      rw [same hk] at h
      exact absurd (hi.symm ▸ hid) (hoth k hk h)
    · rw [same hk] at h
      rw [same hl] at h'
      exact v.idne k l h h' hi
  · intro k h
    by_cases hk : k = t
    · subst hk; exact ⟨x, hid⟩
    · rw [same hk] at h; exact v.idsome k h
  · intro k e h
    rcases cases h with h | ⟨_, rfl⟩
    · exact v.inside k e h
    · exact hu
  · intro e h _
    refine v.outside e (fun k hk => ?_) ?_
    · refine h k ?_
      by_cases hkt : k = t
      · subst hkt; rw [upd_same]; exact List.mem_append_left _ hk
      · rwa [same hkt]
    · rintro t' y hc
      cases hc
      exact h t (by rw [upd_same]; simp)
  · intro k y h hy
    by_cases hk : k = t
    · subst hk
      rw [hid] at hy
      cases hy
      rw [upd_same]
      by_cases hq : Q k = []
      · rw [v.ordE x ?_, hq]
        · simp [flightOf]
        · intro l hl
          by_cases hlk : l = k
          · subst hlk; exact absurd hq hl
          · exact hoth l hlk hl
      · rw [v.ordQ k x hq hid]
        simp [flightOf]
    · rw [same hk] at h ⊢
      have hxy : x ≠ y := by
        rintro rfl
        exact hoth k hk h hy
      rw [v.ordQ k y h hy]
      simp [flightOf, hxy]
  · intro y h
    have hxy : x ≠ y := by
      rintro rfl
      exact h t (by rw [upd_same]; simp) hid
    rw [v.ordE y]
    · simp [flightOf, hxy]
    · intro k hk
      refine h k ?_
      by_cases hkt : k = t
      · subst hkt; rw [upd_same]; simp
      · rwa [same hkt]
  · intro k e y h hy
    rcases cases h with h | ⟨rfl, rfl⟩
    · exact v.lab k e y h hy
    · rw [hid] at hy
      cases hy
      exact hlab

omit [DecidableEq ι] in
theorem lastOf_append (acc : List (Nat × ι)) (d e : Nat) (x : ι) :
    lastOf (acc ++ [(d, x)]) e = if d = e then some (d, x) else lastOf acc e := by
  unfold lastOf
  rw [List.reverse_append]
  simp only [List.reverse_cons, List.reverse_nil, List.nil_append, List.cons_append, List.find?_cons]
  by_cases h : d = e <;> simp [h]

/-- A request is accepted. -/
theorem Held.accept {Q : Nat → List Nat} {ids ids' : Nat → Option ι} {acc sent : List (Nat × ι)}
    (v : Held Q ids acc sent none) {t d : Nat} {x : ι} (ht : t < 16) (hd : d < 16) (hout : ∀ j, d ∉ Q j)
    (hids : (ids t = some x ∧ ids' = ids) ∨ (Q t = [] ∧ ids' = upd ids t (some x)))
    (hoth : ∀ k, k ≠ t → Q k ≠ [] → ids k ≠ some x) :
    Held Q ids' (acc ++ [(d, x)]) sent (some (t, d, x)) := by
  have same : ∀ {k}, Q k ≠ [] → ids' k = ids k := by
    intro k hk
    rcases hids with ⟨_, rfl⟩ | ⟨h, rfl⟩
    · rfl
    · exact upd_ne _ _ (fun hc => hk (hc ▸ h))
  have hid : ids' t = some x := by
    rcases hids with ⟨h, rfl⟩ | ⟨_, rfl⟩
    · exact h
    · simp
  have hu : uses acc d = uses sent d := v.outside d hout (by simp)
  have flies : ∀ y, ofId y [(d, x)] = flightOf (some (t, d, x)) y := by
    intro y
    by_cases hxy : x = y <;> simp [ofId, flightOf, hxy]
  refine ⟨v.lt, v.el, v.nodup, v.disj, ?_, ?_, ?_, ?_, ?_, ?_, ?_, ?_⟩
  · intro k l h h' hi
    rw [same h, same h'] at hi
    exact v.idne k l h h' hi
  · intro k h
    rw [same h]; exact v.idsome k h
  · intro k e h
    have hne : d ≠ e := by rintro rfl; exact hout k h
    rw [uses_append, uses_one, if_neg hne]
    exact v.inside k e h
  · intro e h h'
    have hne : d ≠ e := by rintro rfl; exact h' t x rfl
    rw [uses_append, uses_one, if_neg hne]
    exact v.outside e h (by simp)
  · intro k y h hy
    rw [same h] at hy
    rw [ofId_append, v.ordQ k y h hy, flies]
    simp [flightOf]
  · intro y h
    rw [ofId_append, v.ordE y, flies]
    · simp [flightOf]
    · intro k hk
      rw [← same hk]
      exact h k hk
  · intro k e y h hy
    have hk : Q k ≠ [] := List.ne_nil_of_mem h
    have hne : d ≠ e := by rintro rfl; exact hout k h
    rw [lastOf_append, if_neg hne]
    rw [same hk] at hy
    exact v.lab k e y h hy
  · intro t' e y h
    cases h
    refine ⟨ht, hid, ?_, hd, hout, ?_, ?_⟩
    · intro k hk h
      rw [same h]
      exact hoth k hk h
    · rw [lastOf_append, if_pos rfl]
    · rw [uses_append, uses_one, if_pos rfl, hu]

end

end Verif.RtlOrder
