import Verif.Barrier.Spec

/-!
# The invariant of the processor of barriers
-/

namespace Verif.Barrier

theorem merge_both (a b : St) : merge a b = both a b := by
  cases b <;> simp [merge, both]
  exact fun h => h.symm

theorem erase_perm (l : List Call) (k : Nat) (c : Call) (h : l[k]? = some c) : (c :: l.eraseIdx k).Perm l := by
  induction l generalizing k with
  | nil => simp at h
  | cons a t ih =>
    cases k with
    | zero =>
      have : a = c := by simpa using h
      subst this
      exact List.Perm.refl _
    | succ k =>
      have h' : t[k]? = some c := by simpa using h
      exact (List.Perm.swap a c _).trans ((ih k h').cons a)

structure Inv (w : World) (E : List (Call × St)) : Prop where
  plainEnds : w.ends.filter (fun p => !barP p) = w.rets.filter (fun p => !barP p)
  plainSent : w.passed.filter (fun c => !barC c) = w.calls.filter (fun c => !barC c)
  perm : (w.rets.map Prod.fst ++ w.s.inside).Perm w.passed
  barEnds : w.ends.filter barP = ((w.calls.filter barC).take 1).map (fun c => (c, St.ok)) ++ E.map (fun p => (p.1, both w.s.resp p.2))
  barRets : w.rets.filter barP = E ++ w.s.waiting
  barSent : w.passed.filter barC = (w.calls.filter barC).drop 1
  early : w.s.spawn ≠ .done → E = []
  idle : w.s.spawn = .none → w.calls.filter barC = [] ∧ w.s.ongoing = false
  busy : w.s.spawn ≠ .none → w.s.ongoing = true ∧ ((w.calls.filter barC).take 1).map Call.attr = [w.s.attr]
  answer : w.firsts = if w.s.spawn = .back ∨ w.s.spawn = .done then [w.s.resp] else []
  one : w.first = if w.s.spawn = .none ∨ w.s.spawn = .ready then [] else [w.s.attr]

theorem inv_start : Inv World.start [] := by
  constructor <;> simp [World.start, start]

theorem inside_plain {w : World} {E} (h : Inv w E) (hs : w.s.spawn = .none) : ∀ c ∈ w.s.inside, c.bar = false := by
  intro c hc
  have h1 : c ∈ w.passed := h.perm.subset (by simp [hc])
  cases hb : c.bar with
  | false => rfl
  | true =>
    have h2 : c ∈ w.passed.filter barC := List.mem_filter.mpr ⟨h1, hb⟩
    rw [h.barSent, (h.idle hs).1] at h2
    exact absurd h2 (by simp)

theorem inv_next {w : World} {E} (h : Inv w E) (e : Ev) : ∃ E', Inv (w.next e) E' := by
  have hpl := @inside_plain w E h
  obtain ⟨⟨ongoing, attr, resp, spawn, inside, waiting⟩, calls, rets, firsts, ends, passed, first⟩ := w
  obtain ⟨h1, h2, h3, h4, h5, h6, h7, h8, h9, h10, h11⟩ := h
  simp only at h1 h2 h3 h4 h5 h6 h7 h8 h9 h10 h11 hpl
  cases e with
  | call c =>
    cases hb : c.bar with
    | false =>
      refine ⟨E, ?_⟩
      constructor <;>
        (try simp only [World.next, step, ended, sent, sentFirst, called, returned, firstAnswer, hb, Bool.false_and, if_false, Bool.false_eq_true, List.append_nil, List.filter_append]) <;>
        first | assumption | skip
      · rw [h2]
      · rw [← List.append_assoc]; exact h3.append_right _
      · simpa [barC, hb] using h4
      · simpa [barC, hb] using h6
      · simpa [barC, hb] using h8
      · simpa [barC, hb] using h9
    | true =>
      cases ho : ongoing with
      | false =>
        have hs : spawn = .none := by
          cases spawn <;> first | rfl | (have := (h9 (by decide)).1; rw [ho] at this; exact absurd this (by decide))
        subst hs ho
        have hE := h7 (by decide)
        subst hE
        obtain ⟨hc, _⟩ := h8 rfl
        refine ⟨[], ?_⟩
        constructor <;>
          (try simp only [World.next, step, ended, sent, sentFirst, called, returned, firstAnswer, hb, Bool.true_and, Bool.not_false, if_true, List.append_nil, List.filter_append]) <;>
          first | assumption | skip
        · rw [h1]; simp [barP, hb]
        · rw [h2]; simp [barC, hb]
        · rw [h4, hc]; simp [barP, barC, hb]
        · rw [h6, hc]; simp [barC, hb]
        all_goals first | (intro h; cases h; done) | exact fun _ => trivial | (intro _; rw [hc]; simp [barC, hb]; done) | (rw [h10]; simp; done) | (rw [h11]; simp; done)
      | true =>
        subst ho
        have hn : spawn ≠ .none := by
          rintro rfl
          exact absurd (h8 rfl).2 (by decide)
        have h9' := h9 hn
        have hne : calls.filter barC ≠ [] := by
          intro h0
          rw [h0] at h9'
          simp at h9'
        obtain ⟨b, t, ht⟩ := List.exists_cons_of_ne_nil hne
        refine ⟨E, ?_⟩
        constructor <;>
          (try simp only [World.next, step, ended, sent, sentFirst, called, returned, firstAnswer, hb, Bool.true_and, Bool.not_true, if_false, Bool.false_eq_true, List.append_nil, List.filter_append]) <;>
          first | assumption | skip
        · rw [h2]
        · rw [← List.append_assoc]; exact h3.append_right _
        · rw [ht] at h4 ⊢; simpa [barC, hb] using h4
        · rw [ht] at h6 ⊢; rw [h6]; simp [barC, hb]
        · intro h0; exact absurd h0 hn
        · intro _; rw [ht] at h9' ⊢; simpa using h9'
  | enter =>
    refine ⟨E, ?_⟩
    by_cases hs : spawn = .ready
    · subst hs
      constructor <;>
        (try simp only [World.next, step, ended, sent, sentFirst, called, returned, firstAnswer, if_true, List.append_nil]) <;>
        first | assumption | skip
      all_goals first | exact fun _ => h7 (by decide) | (intro h; cases h; done) | exact fun _ => h9 (by decide) | (rw [h10]; simp; done) | (rw [h11]; simp; done)
    · constructor <;>
        (try simp only [World.next, step, ended, sent, sentFirst, called, returned, firstAnswer, hs, if_false, List.append_nil]) <;>
        first | assumption | (rw [h10]; simp [hs]; done) | (rw [h11]; simp [hs]; done)
  | barRet st =>
    refine ⟨E, ?_⟩
    by_cases hs : spawn = .down
    · subst hs
      have hE := h7 (by decide)
      subst hE
      constructor <;>
        (try simp only [World.next, step, ended, sent, sentFirst, called, returned, firstAnswer, if_true, List.append_nil]) <;>
        first | assumption | skip
      all_goals first | exact fun _ => trivial | (intro h; cases h; done) | exact fun _ => h9 (by decide) | (rw [h10]; simp; done) | (rw [h11]; simp; done)
    · constructor <;>
        (try simp only [World.next, step, ended, sent, sentFirst, called, returned, firstAnswer, hs, if_false, List.append_nil]) <;>
        first | assumption | (rw [h10]; simp [hs]; done) | (rw [h11]; simp [hs]; done)
  | notify =>
    by_cases hs : spawn = .back
    · subst hs
      have hE := h7 (by decide)
      subst hE
      refine ⟨waiting, ?_⟩
      have hw : ∀ p ∈ waiting, barP p = true := by
        intro p hp
        have : p ∈ rets.filter barP := by rw [h5]; simpa using hp
        exact (List.mem_filter.mp this).2
      constructor <;>
        (try simp only [World.next, step, ended, sent, sentFirst, called, returned, firstAnswer, if_true, List.append_nil, List.filter_append]) <;>
        first | assumption | skip
      · rw [h1]
        have : (waiting.map fun p => (p.1, merge resp p.2)).filter (fun p => !barP p) = [] := by
          rw [List.filter_eq_nil_iff]
          intro a ha
          obtain ⟨p, hp, rfl⟩ := List.mem_map.mp ha
          have := hw p hp
          simpa [barP] using this
        rw [this, List.append_nil]
      · rw [h4]
        have : (waiting.map fun p => (p.1, merge resp p.2)).filter barP = waiting.map fun p => (p.1, merge resp p.2) := by
          rw [List.filter_eq_self]
          intro a ha
          obtain ⟨p, hp, rfl⟩ := List.mem_map.mp ha
          exact hw p hp
        rw [this]
        simp [merge_both]
      all_goals first | (simpa using h5) | (intro h; cases h; done) | exact fun _ => h9 (by decide) | (rw [h10]; simp; done) | (rw [h11]; simp; done) | simp
    · refine ⟨E, ?_⟩
      constructor <;>
        (try simp only [World.next, step, ended, sent, sentFirst, called, returned, firstAnswer, hs, if_false, List.append_nil]) <;>
        first | assumption | (rw [h10]; simp [hs]; done) | (rw [h11]; simp [hs]; done)
  | ret k st =>
    cases hk : inside[k]? with
    | none =>
      refine ⟨E, ?_⟩
      constructor <;>
        (try simp only [World.next, step, ended, sent, sentFirst, called, returned, firstAnswer, hk, List.append_nil, Option.toList_none, List.map_nil]) <;> assumption
    | some c =>
      have hkl : k < inside.length := by
        rcases Nat.lt_or_ge k inside.length with h | h
        · exact h
        · rw [List.getElem?_eq_none h] at hk; cases hk
      have hc : inside[k] = c := by
        rw [List.getElem?_eq_getElem hkl] at hk
        exact Option.some.inj hk
      have hper : (c :: inside.eraseIdx k).Perm inside := erase_perm inside k c hk
      have h3' : ((rets ++ [(c, st)]).map Prod.fst ++ inside.eraseIdx k).Perm passed := by
        refine List.Perm.trans ?_ h3
        rw [List.map_append, List.append_assoc]
        exact List.Perm.append_left _ hper
      cases hb : c.bar with
      | false =>
        refine ⟨E, ?_⟩
        constructor <;>
          (try simp only [World.next, step, ended, sent, sentFirst, called, returned, firstAnswer, hk, hb, Bool.false_and, if_false, Bool.false_eq_true, List.append_nil, List.filter_append, Option.toList_some, List.map_cons, List.map_nil]) <;>
          first | assumption | skip
        · rw [h1]
        · simpa [barP, hb] using h4
        · simpa [barP, hb] using h5
      | true =>
        have hn : spawn ≠ .none := fun h0 => by
          have := hpl h0 c (by rw [← hc]; exact List.getElem_mem hkl)
          rw [hb] at this
          exact absurd this (by decide)
        have ho := (h9 hn).1
        subst ho
        refine ⟨E, ?_⟩
        constructor <;>
          (try simp only [World.next, step, ended, sent, sentFirst, called, returned, firstAnswer, hk, hb, Bool.true_and, if_true, List.append_nil, List.filter_append, Option.toList_some, List.map_cons, List.map_nil]) <;>
          first | assumption | skip
        · rw [h1]; simp [barP, hb]
        · rw [h5]; simp [barP, hb]
        · exact fun _ => ⟨trivial, (h9 hn).2⟩

theorem inv_run {w : World} {E} (h : Inv w E) (evs : List Ev) : ∃ E', Inv (w.run evs) E' := by
  induction evs generalizing w E with
  | nil => exact ⟨E, h⟩
  | cons e t ih =>
    obtain ⟨_, h'⟩ := inv_next h e
    exact ih h'

theorem run_append (w : World) (a b : List Ev) : w.run (a ++ b) = (w.run a).run b := by
  induction a generalizing w with
  | nil => rfl
  | cons e t ih => exact ih _

end Verif.Barrier
