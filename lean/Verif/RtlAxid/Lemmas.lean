import Verif.RtlAxid.Spec

/-!
The FIFOs and the requests in flight which reached them.
-/

namespace Verif.RtlAxid

/-- The FIFOs hold the requests `land`: each with something in it all those of
its ID. -/
structure Core (n : Nat) (q : Nat → List Nat) (id : Nat → Nat) (land : List (Nat × Nat)) : Prop where
  holds : ∀ k < n, q k ≠ [] → q k = ofId land (id k)
  found : ∀ x, ofId land x ≠ [] → ∃ k < n, id k = x ∧ q k ≠ []
  uniq : ∀ k < n, ∀ j < n, q k ≠ [] → q j ≠ [] → id k = id j → k = j

theorem ofId_append (a b : List (Nat × Nat)) (x : Nat) : ofId (a ++ b) x = ofId a x ++ ofId b x := by
  simp [ofId]

theorem ofId_one (x d y : Nat) : ofId [(x, d)] y = if x = y then [d] else [] := by
  unfold ofId
  by_cases e : x = y <;> simp [e]

theorem ofId_drop (l : List (Nat × Nat)) (x y : Nat) :
    ofId (drop l x) y = if x = y then (ofId l y).tail else ofId l y := by
  induction l with
  | nil => simp [drop, ofId]
  | cons p l ih =>
    unfold drop at ih ⊢
    by_cases h : p.1 = x
    · rw [List.eraseP_cons_of_pos (by simpa using h)]
      by_cases e : x = y
      · subst e; simp [ofId, h]
      · rw [if_neg e]
        unfold ofId
        rw [List.filter_cons_of_neg (by simp; omega)]
    · rw [List.eraseP_cons_of_neg (by simpa using h)]
      by_cases hy : p.1 = y
      · have e : ¬x = y := by omega
        rw [if_neg e] at ih ⊢
        unfold ofId at ih ⊢
        rw [List.filter_cons_of_pos (by simpa using hy), List.filter_cons_of_pos (by simpa using hy), List.map_cons,
          List.map_cons, ih]
      · unfold ofId at ih ⊢
        rw [List.filter_cons_of_neg (by simpa using hy), List.filter_cons_of_neg (by simpa using hy), ih]

theorem drop_append (a b : List (Nat × Nat)) (x : Nat) (h : ofId a x ≠ []) : drop (a ++ b) x = drop a x ++ b := by
  unfold drop
  have : ∃ p ∈ a, p.1 = x := by
    cases e : ofId a x with
    | nil => exact absurd e h
    | cons d t =>
      have : d ∈ ofId a x := by rw [e]; simp
      unfold ofId at this
      simp only [List.mem_map, List.mem_filter, decide_eq_true_eq] at this
      obtain ⟨p, hp, _⟩ := this
      exact ⟨p, hp.1, hp.2⟩
  obtain ⟨p, hp, hx⟩ := this
  exact List.eraseP_append_left (by simpa using hx) b hp

theorem ofId_length (l : List (Nat × Nat)) (x : Nat) : (ofId l x).length ≤ l.length := by
  unfold ofId
  rw [List.length_map]
  exact List.length_filter_le _ _

theorem drop_length (l : List (Nat × Nat)) (x : Nat) : (drop l x).length ≤ l.length :=
  List.length_eraseP_le

/-- Reading a FIFO with something in it. -/
theorem Core.pop {n : Nat} {q : Nat → List Nat} {id : Nat → Nat} {land : List (Nat × Nat)} (h : Core n q id land)
    {k : Nat} (hk : k < n) (hq : q k ≠ []) :
    Core n (fun j => if k = j then (q j).tail else q j) id (drop land (id k)) := by
  refine ⟨?_, ?_, ?_⟩
  · intro j hj hn
    rw [ofId_drop]
    by_cases e : k = j
    · subst e
      rw [if_pos rfl, if_pos rfl, ← h.holds k hk hq]
    · rw [if_neg e] at hn ⊢
      have : ¬id k = id j := fun x => e (h.uniq k hk j hj hq hn x)
      rw [if_neg this]
      exact h.holds j hj hn
  · intro x hx
    rw [ofId_drop] at hx
    by_cases e : id k = x
    · subst e
      rw [if_pos rfl, ← h.holds k hk hq] at hx
      exact ⟨k, hk, rfl, by simpa using hx⟩
    · rw [if_neg e] at hx
      obtain ⟨j, hj, h1, h2⟩ := h.found x hx
      refine ⟨j, hj, h1, ?_⟩
      have : ¬k = j := by rintro rfl; exact e h1
      rw [if_neg this]; exact h2
  · intro a ha b hb h1 h2 h3
    refine h.uniq a ha b hb ?_ ?_ h3
    · intro e; rw [e] at h1; simp at h1
    · intro e; rw [e] at h2; simp at h2

/-- Writing the FIFO of the ID. -/
theorem Core.push {n : Nat} {q : Nat → List Nat} {id : Nat → Nat} {land : List (Nat × Nat)} (h : Core n q id land)
    {k : Nat} (hk : k < n) (d : Nat) (hu : ∀ j < n, q j ≠ [] → id j = id k → j = k) :
    Core n (fun j => if j = k then q j ++ [d] else q j) id (land ++ [(id k, d)]) := by
  have hq : q k = ofId land (id k) := by
    by_cases e : q k = []
    · rw [e]
      apply Eq.symm
      refine Classical.byContradiction fun hn => ?_
      obtain ⟨j, hj, h1, h2⟩ := h.found _ hn
      have := hu j hj h2 h1
      subst this
      exact h2 e
    · exact h.holds k hk e
  refine ⟨?_, ?_, ?_⟩
  · intro j hj hn
    rw [ofId_append, ofId_one]
    by_cases e : j = k
    · subst e; rw [if_pos rfl, if_pos rfl, ← hq]
    · rw [if_neg e] at hn ⊢
      have : ¬id k = id j := fun x => e (hu j hj hn x.symm)
      rw [if_neg this, List.append_nil]
      exact h.holds j hj hn
  · intro x hx
    rw [ofId_append, ofId_one] at hx
    by_cases e : id k = x
    · exact ⟨k, hk, e, by simp⟩
    · rw [if_neg e, List.append_nil] at hx
      obtain ⟨j, hj, h1, h2⟩ := h.found x hx
      exact ⟨j, hj, h1, by split <;> simp [h2]⟩
  · intro a ha b hb h1 h2 h3
    by_cases ea : a = k <;> by_cases eb : b = k
    · omega
    · subst ea
      rw [if_neg eb] at h2
      exact (hu b hb h2 h3.symm).symm
    · subst eb
      rw [if_neg ea] at h1
      exact hu a ha h1 h3
    · rw [if_neg ea] at h1
      rw [if_neg eb] at h2
      exact h.uniq a ha b hb h1 h2 h3

/-- Giving an empty FIFO another ID. -/
theorem Core.rename {n : Nat} {q : Nat → List Nat} {id id' : Nat → Nat} {land : List (Nat × Nat)} (h : Core n q id land)
    (hi : ∀ k < n, q k ≠ [] → id' k = id k) : Core n q id' land := by
  refine ⟨?_, ?_, ?_⟩
  · intro k hk hq; rw [hi k hk hq]; exact h.holds k hk hq
  · intro x hx
    obtain ⟨k, hk, h1, h2⟩ := h.found x hx
    exact ⟨k, hk, by rw [hi k hk h2, h1], h2⟩
  · intro a ha b hb h1 h2 h3
    rw [hi a ha h1, hi b hb h2] at h3
    exact h.uniq a ha b hb h1 h2 h3

theorem Core.congr {n : Nat} {q q' : Nat → List Nat} {id : Nat → Nat} {land : List (Nat × Nat)} (h : Core n q id land)
    (hi : ∀ k < n, q' k = q k) : Core n q' id land := by
  refine ⟨?_, ?_, ?_⟩
  · intro k hk hq; rw [hi k hk] at hq ⊢; exact h.holds k hk hq
  · intro x hx
    obtain ⟨k, hk, h1, h2⟩ := h.found x hx
    exact ⟨k, hk, h1, by rw [hi k hk]; exact h2⟩
  · intro a ha b hb h1 h2 h3
    rw [hi a ha] at h1
    rw [hi b hb] at h2
    exact h.uniq a ha b hb h1 h2 h3

/-- There is an empty FIFO as long as a descriptor is to spare. -/
theorem Core.spare {n : Nat} {q : Nat → List Nat} {id : Nat → Nat} {land : List (Nat × Nat)} (h : Core n q id land)
    (hl : land.length < n) : ∃ k < n, q k = [] := by
  refine Classical.byContradiction fun hn => ?_
  have all : ∀ k < n, q k ≠ [] := fun k hk e => hn ⟨k, hk, e⟩
  have nd : ((List.range n).map id).Nodup := by
    rw [List.nodup_iff_pairwise_ne, List.pairwise_map]
    refine List.Pairwise.imp_of_mem ?_ (List.nodup_iff_pairwise_ne.1 List.nodup_range)
    intro a b ha hb hne e
    rw [List.mem_range] at ha hb
    exact hne (h.uniq a ha b hb (all a ha) (all b hb) e)
  have sub : (List.range n).map id ⊆ land.map (·.1) := by
    intro x hx
    rw [List.mem_map] at hx
    obtain ⟨k, hk, rfl⟩ := hx
    rw [List.mem_range] at hk
    have := all k hk
    rw [h.holds k hk this] at this
    cases e : ofId land (id k) with
    | nil => exact absurd e this
    | cons d t =>
      have : d ∈ ofId land (id k) := by rw [e]; simp
      unfold ofId at this
      simp only [List.mem_map, List.mem_filter, decide_eq_true_eq] at this
      obtain ⟨p, hp, _⟩ := this
      exact List.mem_map.2 ⟨p, hp.1, hp.2⟩
  have := nd.length_le_of_subset sub
  simp at this
  omega

end Verif.RtlAxid
