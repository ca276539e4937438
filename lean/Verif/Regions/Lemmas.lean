import Verif.Regions.Spec

namespace Verif.Regions

theorem inRegion_iff (r : Region) (h : r.Fits) (a : Nat) : inRegion r a = true ↔ r.Holds a := by
  obtain ⟨h1, h2⟩ := h
  have e : r.stop = r.start + r.len := by
    unfold Region.stop
    rw [Nat.mod_eq_of_lt h1, Nat.mod_eq_of_lt h2]
  simp [inRegion, Region.Holds, e]

theorem inNonShareable_iff (rs : List Region) (h : ∀ r ∈ rs, r.Fits) (a : Nat) :
    inNonShareable rs a = true ↔ Private rs a := by
  simp only [inNonShareable, List.any_eq_true, Private]
  constructor
  · rintro ⟨r, hr, e⟩; exact ⟨r, hr, (inRegion_iff r (h r hr) a).1 e⟩
  · rintro ⟨r, hr, e⟩; exact ⟨r, hr, (inRegion_iff r (h r hr) a).2 e⟩

theorem iterate_none (rs : List Region) (a : Nat) (h : ∀ r ∈ rs, inRegion r a = false) (t : Nat) :
    iterateMaps rs a t = t := by
  induction rs generalizing t with
  | nil => rfl
  | cons r rs ih =>
    have := h r (by simp)
    simp only [iterateMaps, this, Bool.false_eq_true, if_false]
    exact ih (fun r hr => h r (by simp [hr])) t

theorem iterate_append (xs ys : List Region) (a t : Nat) :
    iterateMaps (xs ++ ys) a t = iterateMaps ys a (iterateMaps xs a t) := by
  induction xs generalizing t with
  | nil => rfl
  | cons x xs ih => simp only [List.cons_append, iterateMaps]; exact ih _

theorem mem_linesOf (a n l : Nat) :
    l ∈ linesOf a n ↔ ∃ i, i < n ∧ lineOf (a + i) = l := by
  unfold linesOf lineOf
  by_cases h : n = 0
  · subst h; simp
  · simp only [h, if_false, List.mem_range'_1]
    constructor
    · rintro ⟨h1, h2⟩
      by_cases e : l = a / 64
      · exact ⟨0, by omega, by simp [e]⟩
      · exact ⟨64 * l - a, by omega, by omega⟩
    · rintro ⟨i, h1, h2⟩
      omega

/-- No line held has a private address in it. -/
def Inv (rs : List Region) (held : List Nat) : Prop :=
  ∀ a, lineOf a ∈ held → ¬ Private rs a

theorem private_line (rs : List Region) (h : ∀ r ∈ rs, r.Aligned) (a b : Nat)
    (e : lineOf a = lineOf b) (p : Private rs a) : Private rs b := by
  obtain ⟨r, hr, h1, h2⟩ := p
  obtain ⟨g1, g2⟩ := h r hr
  unfold lineOf at e
  exact ⟨r, hr, by omega, by omega⟩

theorem inv_access (rs : List Region) (hf : ∀ r ∈ rs, r.Fits) (ha : ∀ r ∈ rs, r.Aligned)
    (held : List Nat) (a n : Nat) (hc : (Op.acc a n).Clear rs) (hi : Inv rs held) :
    (access rs held a n).1 ≠ .abort ∧ Inv rs (access rs held a n).2 := by
  unfold access
  by_cases hp : Private rs a
  · have e := (inNonShareable_iff rs hf a).2 hp
    have hn : lineOf a ∉ held := fun h => hi a h hp
    simp only [e, if_true, hn, if_false]
    exact ⟨by decide, hi⟩
  · have e : inNonShareable rs a = false := by
      cases h : inNonShareable rs a
      · rfl
      · exact absurd ((inNonShareable_iff rs hf a).1 h) hp
    simp only [e, Bool.false_eq_true, if_false]
    refine ⟨by decide, fun b hb pb => ?_⟩
    rcases List.mem_append.1 hb with hb | hb
    · obtain ⟨i, h1, h2⟩ := (mem_linesOf a n _).1 hb
      exact hc hp i h1 (private_line rs ha b (a + i) h2.symm pb)
    · exact hi b hb pb

theorem inv_run (rs : List Region) (hf : ∀ r ∈ rs, r.Fits) (ha : ∀ r ∈ rs, r.Aligned)
    (ops : List Op) (hc : ∀ o ∈ ops, o.Clear rs) (held : List Nat) (hi : Inv rs held) :
    ∃ held', run rs held ops = some held' ∧ Inv rs held' := by
  induction ops generalizing held with
  | nil => exact ⟨held, rfl, hi⟩
  | cons o ops ih =>
    have hc' : ∀ o ∈ ops, o.Clear rs := fun o ho => hc o (by simp [ho])
    cases o with
    | acc a n =>
      have := inv_access rs hf ha held a n (hc _ (by simp)) hi
      simp only [run, this.1, if_false]
      exact ih hc' _ this.2
    | leave l =>
      simp only [run]
      exact ih hc' _ (fun b hb => hi b (List.mem_filter.1 hb).1)

end Verif.Regions
