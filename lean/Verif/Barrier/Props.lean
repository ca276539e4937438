import Verif.Barrier.Lemmas

/-!
# The processor of barriers: theorems
-/

namespace Verif.Barrier

/-- A transaction which is no barrier is sent on once, in order, and returns when
and as the downstream side answers, whatever the barriers do. -/
theorem others_pass (evs : List Ev) :
    let w := World.start.run evs
    w.passed.filter (fun c => !c.bar) = w.calls.filter (fun c => !c.bar) ∧
      w.ends.filter (fun p => !p.1.bar) = w.rets.filter (fun p => !p.1.bar) ∧ (w.rets.map Prod.fst ++ w.s.inside).Perm w.passed := by
  obtain ⟨E, h⟩ := inv_run inv_start evs
  exact ⟨h.plainSent, h.plainEnds, h.perm⟩

/-- The first barrier returns at once, is sent once, with its own attributes, and
all others are sent on by their callers.  Partial: of later pairs the first
barrier is not so treated (`second_pair_hangs`). -/
theorem first_barrier_partial (evs : List Ev) :
    let w := World.start.run evs
    ((w.ends.filter fun p => p.1.bar).take 1 = ((w.calls.filter fun c => c.bar).take 1).map fun c => (c, St.ok)) ∧
      w.first <+: ((w.calls.filter fun c => c.bar).take 1).map Call.attr ∧ (w.passed.filter fun c => c.bar) = (w.calls.filter fun c => c.bar).drop 1 := by
  intro w
  obtain ⟨E, h⟩ := inv_run inv_start evs
  refine ⟨?_, ?_, h.barSent⟩
  · show ((World.start.run evs).ends.filter barP).take 1 = (((World.start.run evs).calls.filter barC).take 1).map _
    rw [h.barEnds]
    by_cases hs : (World.start.run evs).s.spawn = .none
    · rw [(h.idle hs).1, h.early (by rw [hs]; decide)]; rfl
    · have h1 := congrArg List.length (h.busy hs).2
      rw [List.length_map, List.length_singleton] at h1
      rw [List.take_append_of_le_length (by rw [List.length_map, h1]; exact Nat.le_refl _)]
      exact List.take_of_length_le (by rw [List.length_map, h1]; exact Nat.le_refl _)
  · show (World.start.run evs).first <+: (((World.start.run evs).calls.filter barC).take 1).map Call.attr
    rw [h.one]
    split
    · exact List.nil_prefix
    · rename_i hs
      rw [(h.busy (fun h0 => hs (Or.inl h0))).2]
      exact List.prefix_rfl

/-- A later barrier which returns does so after the first barrier was answered,
and with the status of both.  This holds of every history; that it returns at
all is not so (`second_hangs`). -/
theorem second_barrier_partial (evs : List Ev) :
    let w := World.start.run evs
    ∀ p ∈ (w.ends.filter fun p => p.1.bar).drop 1, ∃ f own, w.firsts = [f] ∧ (p.1, own) ∈ w.rets ∧ p.2 = both f own := by
  intro w p hp
  obtain ⟨E, h⟩ := inv_run inv_start evs
  have hp' : p ∈ ((World.start.run evs).ends.filter barP).drop 1 := hp
  rw [h.barEnds] at hp'
  by_cases hd : (World.start.run evs).s.spawn = .done
  · have h1 := congrArg List.length (h.busy (by rw [hd]; decide)).2
    rw [List.length_map, List.length_singleton] at h1
    rw [List.drop_append_of_le_length (by rw [List.length_map, h1]; exact Nat.le_refl _),
      List.drop_of_length_le (by rw [List.length_map, h1]; exact Nat.le_refl _), List.nil_append] at hp'
    obtain ⟨q, hq, rfl⟩ := List.mem_map.mp hp'
    refine ⟨(World.start.run evs).s.resp, q.2, ?_, ?_, rfl⟩
    · show (World.start.run evs).firsts = _
      rw [h.answer, if_pos (Or.inr hd)]
    · have : q ∈ (World.start.run evs).rets.filter barP := by rw [h.barRets]; simp [hq]
      exact (List.mem_filter.mp this).1
  · rw [h.early hd, List.map_nil, List.append_nil] at hp'
    have : ((((World.start.run evs).calls.filter barC).take 1).map fun c => (c, St.ok)).drop 1 = [] :=
      List.drop_of_length_le (by simp; omega)
    rw [this] at hp'
    exact absurd hp' (by simp)

/-- When the first barrier is done, every later barrier returns which was
answered before: then all is as it should be. -/
theorem pair_ends_partial (evs : List Ev) (h : (World.start.run evs).s.spawn = .back) :
    let w := World.start.run (evs ++ [.notify])
    ∃ c f, (w.calls.filter fun c => c.bar).head? = some c ∧ w.firsts = [f] ∧
      (w.ends.filter fun p => p.1.bar) = (c, St.ok) :: (w.rets.filter fun p => p.1.bar).map fun p => (p.1, both f p.2) := by
  intro w
  obtain ⟨E, hi⟩ := inv_run inv_start (evs ++ [.notify])
  have hw : w = (World.start.run evs).next .notify := run_append _ _ _
  have hs : w.s.spawn = .done ∧ w.s.waiting = [] := by
    rw [hw]
    simp [World.next, step, h]
  have hb := (hi.busy (by rw [show (World.start.run (evs ++ [.notify])).s.spawn = .done from hs.1]; decide)).2
  cases hc : w.calls.filter barC with
  | nil => rw [show (World.start.run (evs ++ [.notify])).calls.filter barC = [] from hc] at hb; simp at hb
  | cons c t =>
    refine ⟨c, w.s.resp, ?_, ?_, ?_⟩
    · show (w.calls.filter barC).head? = _
      rw [hc]; rfl
    · show (World.start.run (evs ++ [.notify])).firsts = _
      rw [hi.answer, if_pos (Or.inr hs.1)]
    · show (World.start.run (evs ++ [.notify])).ends.filter barP = (c, St.ok) :: ((World.start.run (evs ++ [.notify])).rets.filter barP).map _
      rw [hi.barEnds, hi.barRets, show (World.start.run (evs ++ [.notify])).s.waiting = [] from hs.2,
        show (World.start.run (evs ++ [.notify])).calls.filter barC = c :: t from hc, List.append_nil]
      rfl

/-- After that no barrier returns any more, in any continuation: neither a second
barrier answered later, nor any barrier of a later pair. -/
theorem no_more (evs more : List Ev) (h : (World.start.run evs).s.spawn = .done) :
    ((World.start.run (evs ++ more)).ends.filter fun p => p.1.bar) = (World.start.run evs).ends.filter fun p => p.1.bar := by
  have key : ∀ (more : List Ev) (w : World), w.s.spawn = .done → w.s.ongoing = true → (w.run more).ends.filter barP = w.ends.filter barP := by
    intro more
    induction more with
    | nil => intro w _ _; rfl
    | cons e t ih =>
      intro w hs ho
      have hnext : (w.next e).s.spawn = .done ∧ (w.next e).s.ongoing = true ∧ (w.next e).ends.filter barP = w.ends.filter barP := by
        cases e with
        | call c => simp [World.next, step, ended, hs, ho]
        | enter => simp [World.next, step, ended, hs, ho]
        | barRet st => simp [World.next, step, ended, hs, ho]
        | notify => simp [World.next, step, ended, hs, ho]
        | ret k st =>
          cases hk : w.s.inside[k]? with
          | none => simp [World.next, step, ended, hs, ho, hk]
          | some c => cases hb : c.bar <;> simp [World.next, step, ended, hs, ho, hk, hb, barP]
      show ((w.next e).run t).ends.filter barP = _
      rw [ih _ hnext.1 hnext.2.1, hnext.2.2]
  obtain ⟨E, hi⟩ := inv_run inv_start evs
  rw [run_append]
  exact key more _ h (hi.busy (by rw [h]; decide)).1

/-- A pair whose second barrier is answered first; its error goes to the second. -/
def pair : List Ev := [.call ⟨1, true, 7⟩, .enter, .call ⟨2, true, 7⟩, .call ⟨3, false, 0⟩, .ret 0 .ok, .ret 0 (.err 1), .barRet (.err 2), .notify]

example : (World.start.run pair).ends = [(⟨1, true, 7⟩, .ok), (⟨3, false, 0⟩, .err 1), (⟨2, true, 7⟩, .err 2)] := by decide

example : (World.start.run (pair.take 7)).s.spawn = .back := by decide

example : (World.start.run pair).s.spawn = .done := by decide

/-- The first barrier is done before the second is answered: the event which the
second then waits for has passed, and its caller never returns. -/
theorem second_hangs (more : List Ev) :
    let evs := [.call ⟨1, true, 7⟩, .enter, .call ⟨2, true, 7⟩, .barRet .ok, .notify, .ret 0 .ok]
    (World.start.run evs).rets = [(⟨2, true, 7⟩, .ok)] ∧
      ((World.start.run (evs ++ more)).ends.filter fun p => p.1.bar) = [(⟨1, true, 7⟩, .ok)] := by
  intro evs
  refine ⟨by decide, ?_⟩
  rw [no_more evs more (by decide)]
  decide

/-- After a pair which went well, both barriers of the next pair are answered
downstream, and neither caller returns. -/
theorem second_pair_hangs (more : List Ev) :
    let evs := [.call ⟨1, true, 7⟩, .enter, .call ⟨2, true, 7⟩, .ret 0 .ok, .barRet .ok, .notify, .call ⟨3, true, 7⟩, .call ⟨4, true, 7⟩, .ret 0 .ok, .ret 0 .ok]
    (World.start.run evs).rets = [(⟨2, true, 7⟩, .ok), (⟨3, true, 7⟩, .ok), (⟨4, true, 7⟩, .ok)] ∧
      ((World.start.run (evs ++ more)).ends.filter fun p => p.1.bar) = [(⟨1, true, 7⟩, .ok), (⟨2, true, 7⟩, .ok)] := by
  intro evs
  refine ⟨by decide, ?_⟩
  rw [no_more evs more (by decide)]
  decide

end Verif.Barrier
