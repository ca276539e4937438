import Verif.Dvm.Spec

/-!
# DVM syncs of the ACE interconnect: lemmas
-/

namespace Verif.Dvm

abbrev Entry := Nat × (Nat → Bool)

theorem done_pend (c : Conf) (p : Nat) (w : Nat → Bool) : done c w = !pend c (p, w) := by
  simp [done, pend, List.not_any_eq_all_not]

theorem matching_snoc (c : Conf) (h : Nat → Nat) (l : List Nat) (p : Nat) :
    matching c h (l ++ [p]) = matching c h l ++
      [(p, fun q => decide (q < c.n) && c.part q && decide (q ≠ p) && decide (h q - l.countP (fun x => x != q) = 0))] := by
  induction l generalizing h with
  | nil => simp [matching]; rfl
  | cons a t ih =>
    simp only [List.cons_append, matching]
    rw [ih]
    congr 2
    simp only [List.cons.injEq, Prod.mk.injEq, true_and, and_true]
    funext q
    congr 2
    by_cases hq : q = a
    · subst hq; simp [List.countP_cons]
    · have : (a != q) = true := by simpa using fun h => hq h.symm
      simp only [hq, if_false, List.countP_cons, this, if_true]
      simp only [eq_iff_iff]; omega

def clear (q : Nat) (e : Entry) : Entry := (e.1, fun x => if x = q then false else e.2 x)

def clearFirst (q : Nat) : List Entry → List Entry
  | [] => []
  | e :: t => if e.2 q then clear q e :: t else e :: clearFirst q t

theorem matching_inc (c : Conf) (h h' : Nat → Nat) (q : Nat) (hn : q < c.n) (hp : c.part q = true)
    (hh : ∀ x, h' x = if x = q then h x + 1 else h x) (l : List Nat) : matching c h' l = clearFirst q (matching c h l) := by
  induction l generalizing h h' with
  | nil => rfl
  | cons p t ih =>
    simp only [matching, clearFirst]
    by_cases hq : q = p
    · rw [if_neg (by simp [hq])]
      congr 1
      · simp only [Prod.mk.injEq, true_and]
        funext x; rw [hh]
        by_cases hx : x = q
        · simp [hx, hq]
        · simp [hx]
      · apply ih
        intro x; rw [hh]
        by_cases hx : x = q
        · simp [hx, hq]
        · simp [hx]
    · by_cases h0 : h q = 0
      · rw [if_pos (by simp [hn, hp, hq, h0])]
        simp only [clear]
        congr 1
        · simp only [Prod.mk.injEq, true_and]
          funext x; rw [hh]
          by_cases hx : x = q
          · simp [hx]
          · simp [hx]
        · congr 1
          funext x; rw [hh]
          by_cases hx : x = q
          · simp [hx, hq, h0]
          · simp [hx]
      · rw [if_neg (by simp [h0])]
        congr 1
        · simp only [Prod.mk.injEq, true_and]
          funext x; rw [hh]
          by_cases hx : x = q
          · simp [hx, h0]
          · simp [hx]
        · apply ih
          intro x; rw [hh]
          by_cases hx : x = q
          · simp only [hx, if_true, hq, if_false]; omega
          · simp [hx]

theorem matching_some (c : Conf) (h : Nat → Nat) (q : Nat) (hn : q < c.n) (hp : c.part q = true) (l : List Nat)
    (hl : h q < l.countP (fun x => x != q)) : ∃ e ∈ matching c h l, e.2 q = true := by
  induction l generalizing h with
  | nil => simp at hl
  | cons p t ih =>
    by_cases hq : q = p
    · have := ih (fun x => if x = p then h x else h x - 1) (by simpa [hq, List.countP_cons] using hl)
      obtain ⟨e, he, h1⟩ := this
      exact ⟨e, List.mem_cons_of_mem _ he, h1⟩
    · by_cases h0 : h q = 0
      · exact ⟨_, List.mem_cons_self, by simp [hn, hp, hq, h0]⟩
      · have h1 : (p != q) = true := by simpa using fun h => hq h.symm
        obtain ⟨e, he, h2⟩ := ih (fun x => if x = p then h x else h x - 1) (by
          simp only [hq, if_false]; simp only [List.countP_cons, h1, if_true] at hl; omega)
        exact ⟨e, List.mem_cons_of_mem _ he, h2⟩

theorem matching_out (c : Conf) (h : Nat → Nat) (l : List Nat) (e : Entry) (he : e ∈ matching c h l) (y : Nat) (hy : ¬y < c.n) : e.2 y = false := by
  induction l generalizing h with
  | nil => cases he
  | cons p t ih =>
    rcases List.mem_cons.mp he with h1 | h1
    · subst h1; simp [hy]
    · exact ih _ h1

/-- Where the first entry is which waits for a port. -/
theorem first_split (q : Nat) (E : List Entry) (h : ∃ e ∈ E, e.2 q = true) :
    ∃ E1 e E2, E = E1 ++ e :: E2 ∧ e.2 q = true ∧ (∀ x ∈ E1, x.2 q = false) ∧ clearFirst q E = E1 ++ clear q e :: E2 := by
  induction E with
  | nil => obtain ⟨_, h, _⟩ := h; cases h
  | cons a t ih =>
    by_cases ha : a.2 q = true
    · exact ⟨[], a, t, rfl, ha, (fun _ h => nomatch h), by simp [clearFirst, ha]⟩
    · obtain ⟨e, he, hq⟩ := h
      have ht : ∃ e ∈ t, e.2 q = true := by
        rcases List.mem_cons.mp he with h1 | h1
        · subst h1; exact absurd hq ha
        · exact ⟨e, h1, hq⟩
      obtain ⟨E1, e', E2, h1, h2, h3, h4⟩ := ih ht
      refine ⟨a :: E1, e', E2, by rw [h1]; rfl, h2, ?_, ?_⟩
      · intro x hx
        rcases List.mem_cons.mp hx with h5 | h5
        · subst h5; simpa using ha
        · exact h3 x h5
      · simp [clearFirst, ha, h4]

abbrev entries (c : Conf) (w : World) : List Entry := matching c (fun q => w.comps.count q) w.syncs

structure Inv (c : Conf) (w : World) : Prop where
  pl : w.s.list.filter (fun x => !w.s.execs.contains x) = ((entries c w).filter (pend c)).map Prod.fst
  wt : ∀ e ∈ (entries c w).filter (pend c), w.s.wait e.1 = e.2
  nd : w.s.list.Nodup
  sub : ∀ x ∈ w.s.execs, x ∈ w.s.list
  fr : ∀ p, (p ∉ w.s.list ∨ p ∈ w.s.execs) → ∀ q, w.s.wait p q = false
  se : ∀ p, w.s.sent.count p = answered c w.syncs w.comps p
  le : ∀ q, w.comps.count q ≤ w.syncs.countP (fun x => x != q)
  ex : w.s.execs.length ≤ 1
  ok : w.s.failed = false

theorem inv_start (c : Conf) : Inv c .start := by
  constructor <;> simp [World.start, start, entries, matching, answered]

theorem inv_sync {c : Conf} {w : World} (h : Inv c w) (hc : ∀ p, p < c.n → ∃ q, q < c.n ∧ c.part q = true ∧ q ≠ p) (p : Nat)
    (hl : Legal c w (.sync p)) (hm : Calm w (.sync p)) : Inv c (w.next c (.sync p)) := by
  obtain ⟨pl, wt, nd, sub, fr, se, le, ex, ok⟩ := h
  have hm' : p ∉ w.s.list := hm
  have hx : w.s.execs.contains p = false := by
    simp only [List.contains_eq_mem, decide_eq_false_iff_not]
    exact fun h1 => hm' (sub p h1)
  let W : Nat → Bool := fun q => decide (q < c.n) && c.part q && decide (q ≠ p)
  have hE : entries c (w.next c (.sync p)) = entries c w ++ [(p, W)] := by
    show matching c (fun q => w.comps.count q) (w.syncs ++ [p]) = _
    rw [matching_snoc]
    congr 2
    simp only [List.cons.injEq, Prod.mk.injEq, true_and, and_true, W]
    funext q
    have := le q
    simp [Nat.sub_eq_zero_of_le this]
  have hp : pend c (p, W) = true := by
    obtain ⟨q, h1, h2, h3⟩ := hc p hl.1
    simp only [pend, List.any_eq_true, List.mem_range]
    exact ⟨q, h1, by simp [W, h1, h2, h3]⟩
  have hs : (w.next c (.sync p)).s = sync c w.s p := by simp [World.next, step, ok]
  have hP : (entries c (w.next c (.sync p))).filter (pend c) = (entries c w).filter (pend c) ++ [(p, W)] := by
    rw [hE, List.filter_append, List.filter_cons_of_pos hp, List.filter_nil]
  have hnot : ∀ e ∈ (entries c w).filter (pend c), e.1 ≠ p := by
    intro e he h1
    have : e.1 ∈ w.s.list.filter (fun x => !w.s.execs.contains x) := by rw [pl]; exact List.mem_map_of_mem he
    exact hm' (h1 ▸ (List.mem_filter.mp this).1)
  constructor
  · rw [hP, hs, sync, List.filter_append, List.map_append, pl, List.filter_cons_of_pos (by simpa using hx)]
    rfl
  · rw [hP, hs]
    intro e he
    rcases List.mem_append.mp he with h1 | h1
    · have := hnot e h1
      funext q
      simp only [sync, this, false_and, if_false]
      rw [wt e h1]
    · have := List.mem_singleton.mp h1
      subst this
      funext q
      have := fr p (Or.inl hm') q
      simp only [sync, W, this, true_and]
      by_cases h1 : q < c.n <;> by_cases h2 : c.part q = true <;> by_cases h3 : p = q <;> simp [h1, h2, h3]
      exact fun h => absurd h.symm h3
  · rw [hs]
    simp only [sync]
    rw [List.nodup_append]
    refine ⟨nd, by simp, ?_⟩
    intro a ha b hb hab
    rw [List.mem_singleton.mp hb] at hab
    exact hm' (hab ▸ ha)
  · rw [hs]
    intro x hx
    exact List.mem_append_left _ (sub x hx)
  · rw [hs]
    intro x hx q
    have hxp : x ≠ p := by
      rintro rfl
      rcases hx with h1 | h1
      · exact h1 (by simp [sync])
      · exact hm' (sub _ h1)
    simp only [sync, hxp, false_and, if_false]
    refine fr x ?_ q
    rcases hx with h1 | h1
    · exact Or.inl fun h2 => h1 (List.mem_append_left _ h2)
    · exact Or.inr h1
  · intro x
    rw [hs]
    show w.s.sent.count x = (entries c (w.next c (.sync p))).countP _
    rw [hE, List.countP_append, se x]
    simp [hp, answered, List.countP_cons]
  · intro q
    show w.comps.count q ≤ (w.syncs ++ [p]).countP _
    rw [List.countP_append]
    have := le q
    omega
  · rw [hs]; exact ex
  · rw [hs]; exact ok

theorem find_at {α : Type} (p : α → Bool) (a : List α) (x : α) (b : List α) (ha : ∀ y ∈ a, p y = false) (hx : p x = true) :
    (a ++ x :: b).find? p = some x := by
  rw [List.find?_append, List.find?_eq_none.mpr (by intro y hy; simp [ha y hy]), List.find?_cons_of_pos hx]
  rfl

theorem inv_complete {c : Conf} {w : World} (h : Inv c w) (q : Nat) (hl : Legal c w (.complete q)) (hm : Calm w (.complete q)) :
    Inv c (w.next c (.complete q)) := by
  obtain ⟨pl, wt, nd, sub, fr, se, le, ex, ok⟩ := h
  obtain ⟨hn, hp, hlt⟩ := hl
  have hm' : w.s.execs = [] := hm
  have pl' : w.s.list = ((entries c w).filter (pend c)).map Prod.fst := by
    rw [← pl, hm']; exact (List.filter_eq_self.mpr fun _ _ => rfl).symm
  obtain ⟨E1, e, E2, hE, heq, hE1, hcl⟩ := first_split q (entries c w) (matching_some c _ q hn hp _ hlt)
  have hE' : entries c (w.next c (.complete q)) = E1 ++ clear q e :: E2 := by
    rw [← hcl]
    refine matching_inc c _ _ q hn hp ?_ _
    intro x
    show (w.comps ++ [q]).count x = _
    rw [List.count_append]
    by_cases hx : x = q
    · subst hx; simp
    · rw [if_neg hx, List.count_eq_zero_of_not_mem (l := [q]) (by simpa using hx)]; rfl
  have hpe : pend c e = true := by
    simp only [pend, List.any_eq_true, List.mem_range]; exact ⟨q, hn, heq⟩
  have hP : (entries c w).filter (pend c) = E1.filter (pend c) ++ e :: E2.filter (pend c) := by
    rw [hE, List.filter_append, List.filter_cons_of_pos hpe]
  have hL : w.s.list = (E1.filter (pend c)).map Prod.fst ++ e.1 :: (E2.filter (pend c)).map Prod.fst := by
    rw [pl', hP, List.map_append, List.map_cons]
  rw [hP] at wt
  have wtE : w.s.wait e.1 = e.2 := wt e (by simp)
  have nd' := nd
  rw [hL] at nd'
  have n1 : ∀ x ∈ E1.filter (pend c), x.1 ≠ e.1 := by
    intro x hx h1
    rw [List.nodup_append] at nd'
    exact nd'.2.2 _ (List.mem_map_of_mem hx) _ List.mem_cons_self h1
  have n2 : ∀ x ∈ E2.filter (pend c), x.1 ≠ e.1 := by
    intro x hx h1
    rw [List.nodup_append, List.nodup_cons] at nd'
    exact nd'.2.1.1 (h1 ▸ List.mem_map_of_mem hx)
  have f1 : w.s.list.find? (fun p => w.s.wait p q) = some e.1 := by
    rw [hL]
    refine find_at _ _ _ _ ?_ (by rw [wtE]; exact heq)
    intro y hy
    obtain ⟨x, hx, rfl⟩ := List.mem_map.mp hy
    rw [wt x (List.mem_append_left _ hx)]
    exact hE1 x (List.mem_filter.mp hx).1
  let W : Nat → Nat → Bool := fun x y => if x = e.1 ∧ y = q then false else w.s.wait x y
  have W1 : ∀ x ∈ E1.filter (pend c) ++ E2.filter (pend c), W x.1 = x.2 := by
    intro x hx
    have : x.1 ≠ e.1 := by
      rcases List.mem_append.mp hx with h1 | h1
      · exact n1 x h1
      · exact n2 x h1
    funext y
    simp only [W, this, false_and, if_false]
    rw [wt x (by
      rcases List.mem_append.mp hx with h1 | h1
      · exact List.mem_append_left _ h1
      · exact List.mem_append_right _ (List.mem_cons_of_mem _ h1))]
  have W2 : W e.1 = (clear q e).2 := by
    funext y
    simp only [W, clear, true_and, wtE]
  have D1 : ∀ x ∈ E1.filter (pend c) ++ E2.filter (pend c), done c (W x.1) = false := by
    intro x hx
    rw [W1 x hx, done_pend c x.1]
    have : pend c x = true := by
      rcases List.mem_append.mp hx with h1 | h1 <;> exact (List.mem_filter.mp h1).2
    show (!pend c x) = false
    rw [this]; rfl
  have D2 : done c (W e.1) = !pend c (clear q e) := by
    rw [W2, done_pend c e.1]; rfl
  have hle : ∀ x, (w.comps ++ [q]).count x ≤ w.syncs.countP (fun y => y != x) := by
    intro x
    rw [List.count_append]
    by_cases hx : x = q
    · subst hx; simp; omega
    · rw [List.count_eq_zero_of_not_mem (l := [q]) (by simpa using hx)]; exact le x
  have hse : ∀ x, answered c w.syncs (w.comps ++ [q]) x =
      w.s.sent.count x + (if pend c (clear q e) = false ∧ e.1 = x then 1 else 0) := by
    intro x
    rw [se x]
    show (entries c (w.next c (.complete q))).countP _ = (entries c w).countP _ + _
    rw [hE', hE]
    simp only [List.countP_append, List.countP_cons, hpe, clear]
    by_cases h1 : pend c (e.1, fun x => if x = q then false else e.2 x) = true <;> by_cases h2 : e.1 = x <;> simp [h1, h2] <;> omega
  have hfr : ∀ p, p ∉ w.s.list → ∀ y, W p y = false := by
    intro p h1 y
    simp only [W]
    split
    · rfl
    · exact fr p (Or.inl h1) y
  by_cases hpd : pend c (clear q e) = true
  · have f2 : w.s.list.find? (fun x => done c (W x)) = none := by
      rw [List.find?_eq_none, hL]
      intro y hy
      rcases List.mem_append.mp hy with h1 | h1
      · obtain ⟨x, hx, rfl⟩ := List.mem_map.mp h1
        rw [D1 x (List.mem_append_left _ hx)]; decide
      · rcases List.mem_cons.mp h1 with h2 | h2
        · subst h2; rw [D2, hpd]; decide
        · obtain ⟨x, hx, rfl⟩ := List.mem_map.mp h2
          rw [D1 x (List.mem_append_right _ hx)]; decide
    have hs : (w.next c (.complete q)).s = { w.s with wait := W } := by
      simp only [World.next, step, ok, complete, f1]
      rw [show (w.s.list.find? fun x => done c (fun y => if x = e.1 ∧ y = q then false else w.s.wait x y)) = none from f2]
      rfl
    have hP' : (entries c (w.next c (.complete q))).filter (pend c) = E1.filter (pend c) ++ clear q e :: E2.filter (pend c) := by
      rw [hE', List.filter_append, List.filter_cons_of_pos hpd]
    constructor
    · rw [hP', hs]
      simp only [hm', List.map_append, List.map_cons]
      rw [← show (clear q e).1 = e.1 from rfl] at hL
      rw [← hL]; simp
    · rw [hP', hs]
      intro x hx
      rcases List.mem_append.mp hx with h1 | h1
      · exact W1 x (List.mem_append_left _ h1)
      · rcases List.mem_cons.mp h1 with h2 | h2
        · subst h2; exact W2
        · exact W1 x (List.mem_append_right _ h2)
    · rw [hs]; exact nd
    · rw [hs]; exact sub
    · rw [hs]
      intro p h1
      rcases h1 with h1 | h1
      · exact hfr p h1
      · rw [hm'] at h1; cases h1
    · intro x
      rw [hs]
      show w.s.sent.count x = answered c w.syncs (w.comps ++ [q]) x
      rw [hse x, if_neg (by simp [hpd])]; rfl
    · exact hle
    · rw [hs]; exact ex
    · rw [hs]; exact ok
  · have hpd' : pend c (clear q e) = false := by simpa using hpd
    have f2 : w.s.list.find? (fun x => done c (W x)) = some e.1 := by
      rw [hL]
      refine find_at _ _ _ _ ?_ (by rw [D2, hpd']; rfl)
      intro y hy
      obtain ⟨x, hx, rfl⟩ := List.mem_map.mp hy
      exact D1 x (List.mem_append_left _ hx)
    have hs : (w.next c (.complete q)).s = { w.s with wait := W, execs := w.s.execs ++ [e.1], sent := w.s.sent ++ [e.1] } := by
      simp only [World.next, step, ok, complete, f1]
      rw [show (w.s.list.find? fun x => done c (fun y => if x = e.1 ∧ y = q then false else w.s.wait x y)) = some e.1 from f2]
      rfl
    have hP' : (entries c (w.next c (.complete q))).filter (pend c) = E1.filter (pend c) ++ E2.filter (pend c) := by
      rw [hE', List.filter_append, List.filter_cons_of_neg (by simp [hpd'])]
    constructor
    · rw [hP', hs]
      simp only [hm', List.nil_append, List.map_append]
      rw [hL, List.filter_append, List.filter_cons_of_neg (by simp)]
      congr 1
      · apply List.filter_eq_self.mpr
        intro y hy
        obtain ⟨x, hx, rfl⟩ := List.mem_map.mp hy
        simpa using n1 x hx
      · apply List.filter_eq_self.mpr
        intro y hy
        obtain ⟨x, hx, rfl⟩ := List.mem_map.mp hy
        simpa using n2 x hx
    · rw [hP', hs]; exact W1
    · rw [hs]; exact nd
    · rw [hs]
      intro x hx
      simp only [hm', List.nil_append, List.mem_singleton] at hx
      subst hx; simp [hL]
    · rw [hs]
      intro p h1
      rcases h1 with h1 | h1
      · exact hfr p h1
      · simp only [hm', List.nil_append, List.mem_singleton] at h1
        subst h1
        intro y
        show W e.1 y = false
        rw [W2]
        by_cases hy : y < c.n
        · have : ∀ i ∈ List.range c.n, ¬(clear q e).2 i = true := by
            simpa [pend, List.any_eq_false] using hpd'
          simpa using this y (List.mem_range.mpr hy)
        · have h3 : e.2 y = false := by
            have he : e ∈ entries c w := by rw [hE]; simp
            exact matching_out c _ _ e he y hy
          simp [clear, h3]
    · intro x
      rw [hs]
      show (w.s.sent ++ [e.1]).count x = answered c w.syncs (w.comps ++ [q]) x
      rw [hse x, List.count_append, hpd']
      by_cases h2 : e.1 = x
      · simp [h2]
      · rw [List.count_eq_zero_of_not_mem (l := [e.1]) (by simpa using fun h => h2 h.symm)]; simp [h2]
    · exact hle
    · rw [hs]; simp [hm']
    · rw [hs]; exact ok

theorem inv_finish {c : Conf} {w : World} (h : Inv c w) (k : Nat) : Inv c (w.next c (.finish k)) := by
  obtain ⟨pl, wt, nd, sub, fr, se, le, ex, ok⟩ := h
  have hs : (w.next c (.finish k)).s = finish w.s k := by simp [World.next, step, ok]
  match hx : w.s.execs, ex with
  | [], _ =>
    have hs' : (w.next c (.finish k)).s = w.s := by rw [hs]; simp [finish, hx]
    have hw : w.next c (.finish k) = w := by
      show (⟨(w.next c (.finish k)).s, w.syncs, w.comps⟩ : World) = w
      rw [hs']
    rw [hw]; exact ⟨pl, wt, nd, sub, fr, se, le, by rw [hx]; simp, ok⟩
  | [x], _ =>
    match k with
    | k + 1 =>
      have hs' : (w.next c (.finish (k + 1))).s = w.s := by rw [hs]; simp [finish, hx]
      have hw : w.next c (.finish (k + 1)) = w := by
        show (⟨(w.next c (.finish (k + 1))).s, w.syncs, w.comps⟩ : World) = w
        rw [hs']
      rw [hw]; exact ⟨pl, wt, nd, sub, fr, se, le, by rw [hx]; simp, ok⟩
    | 0 =>
      have hs' : (w.next c (.finish 0)).s = { w.s with list := w.s.list.filter (fun y => y != x), execs := [] } := by
        rw [hs]; simp [finish, hx]
      constructor
      · rw [hs']
        show (w.s.list.filter (fun y => y != x)).filter _ = ((entries c w).filter (pend c)).map Prod.fst
        rw [← pl, hx]
        simp only [List.filter_filter]
        apply List.filter_congr
        intro y _
        by_cases hy : y = x <;> simp [bne, hy]
      · rw [hs']; exact wt
      · rw [hs']; exact nd.filter _
      · rw [hs']; intro y hy; cases hy
      · rw [hs']
        intro p h1 q
        rcases h1 with h1 | h1
        · refine fr p ?_ q
          by_cases hp : p = x
          · subst hp; exact Or.inr (by simp [hx])
          · exact Or.inl fun h2 => h1 (List.mem_filter.mpr ⟨h2, by simpa using hp⟩)
        · cases h1
      · intro p; rw [hs']; exact se p
      · exact le
      · rw [hs']; simp
      · rw [hs']; exact ok
  | _ :: _ :: _, h => simp at h

theorem inv_run {c : Conf} (hc : ∀ p, p < c.n → ∃ q, q < c.n ∧ c.part q = true ∧ q ≠ p) {w : World} (h : Inv c w) (evs : List Ev)
    (hl : All (Legal c) c w evs) (hm : All Calm c w evs) : Inv c (w.run c evs) := by
  induction evs generalizing w with
  | nil => exact h
  | cons e t ih =>
    refine ih ?_ hl.2 hm.2
    cases e with
    | sync p => exact inv_sync h hc p hl.1 hm.1
    | complete q => exact inv_complete h q hl.1 hm.1
    | finish k => exact inv_finish h k

end Verif.Dvm
