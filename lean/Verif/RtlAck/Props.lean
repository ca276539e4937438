import Verif.RtlAck.Lemmas

/-! # Each response is completed once, in order, after its acknowledge -/

namespace Verif.RtlAck

open RtlRdata (Ask Beat)

section
variable {δ σ : Type} {words : Nat}

theorem inv_run (ins : List (In δ σ)) : ∀ {w : World δ σ} {f : List (RtlRdata.In δ σ)} {h : List (RtlFifo.In Nat)} {pend : List (Ask δ σ)},
    Inv words w f h pend → AllPolite words w ins → NoRace words w ins → ∃ f' h' pend', Inv words (w.run words ins) f' h' pend' := by
  induction ins with
  | nil => intro w f h pend v _ _; exact ⟨f, h, pend, v⟩
  | cons i t ih =>
    intro w f h pend v p n
    obtain ⟨h', pend', v'⟩ := inv_next v p.1 n.1
    exact ih v' p.2 n.2

/-- **The descriptors are completed in the order in which they were pushed,
none twice and none left out.**  Missing: bursts of more than five words, and
races; see `Verif.RtlAceSend`. -/
theorem completed_in_order_partial (ins : List (In δ σ)) (p : AllPolite words World.start ins) (n : NoRace words World.start ins) :
    (World.start.run words ins).completed <+: (World.start.run words ins).asked.map (·.idx) := by
  obtain ⟨f, h, pend, v⟩ := inv_run ins inv_start p n
  refine List.IsPrefix.trans ?_ (fin_prefix v)
  rw [v.fin]
  exact List.prefix_append _ _

/-- **A descriptor is completed only after the last beat of its response was
taken, and there are never more completions than acknowledges.** -/
theorem completed_after_ack_partial (ins : List (In δ σ)) (p : AllPolite words World.start ins) (n : NoRace words World.start ins) :
    (World.start.run words ins).completed <+: (World.start.run words ins).finished ∧
      (World.start.run words ins).completed.length ≤ (World.start.run words ins).acks := by
  obtain ⟨f, h, pend, v⟩ := inv_run ins inv_start p n
  refine ⟨by rw [v.fin]; exact List.prefix_append _ _, ?_⟩
  have := v.cnt
  omega

theorem run_append (a b : List (In δ σ)) : ∀ w : World δ σ, w.run words (a ++ b) = (w.run words a).run words b := by
  induction a with
  | nil => intro w; rfl
  | cons i t ih => intro w; exact ih _

theorem polite_append (a b : List (In δ σ)) : ∀ {w : World δ σ}, AllPolite words w (a ++ b) → AllPolite words w a ∧ AllPolite words (w.run words a) b := by
  induction a with
  | nil => intro w h; exact ⟨trivial, h⟩
  | cons i t ih =>
    intro w h
    obtain ⟨h1, h2⟩ := ih h.2
    exact ⟨⟨h.1, h1⟩, h2⟩

theorem norace_append (a b : List (In δ σ)) : ∀ {w : World δ σ}, NoRace words w (a ++ b) → NoRace words w a := by
  induction a with
  | nil => intro w h; trivial
  | cons i t ih => intro w h; exact ⟨h.1, ih h.2⟩

/-- **The bit of the status register**: it is set by every completion, one
cycle after the completion is shown, and stays until software raises the bit of
the clear register. -/
theorem status_partial (ins : List (In δ σ)) (i j : In δ σ) (p : AllPolite words World.start (ins ++ [i])) (n : NoRace words World.start (ins ++ [i]))
    (k : Nat) (hk : k < 16) :
    let w := World.start.run words ins
    let w1 := w.next words i
    (w1.next words j).s.status k = true ↔
      w1.completed = w.completed ++ [k] ∨ (w1.s.status k = true ∧ ¬ (j.clear k = true ∧ i.clear k = false)) := by
  intro w w1
  obtain ⟨f, h, pend, v⟩ := inv_run (ins ++ [i]) inv_start p n
  obtain ⟨p1, _⟩ := polite_append _ _ p
  have n1 : NoRace words World.start ins := norace_append _ _ n
  obtain ⟨f0, h0, pend0, v0⟩ := inv_run ins inv_start p1 n1
  have e : World.start.run words (ins ++ [i]) = w1 := by rw [run_append]; rfl
  rw [e] at v
  have e1 : w1.completed = w.completed ++ reported (step words w.s i) := rfl
  have e2 : reported (step words w.s i) = _ := reported_next (i := i) v0
  have hd : w1.completed = w.completed ++ [k] ↔ w1.s.done k = true := by
    have e3 : w1.s.done k = (w.s.rdenFf && decide (w.s.fifo.last.getD 0 = k)) := rfl
    rw [e1, List.append_cancel_left_eq, e2, e3]
    show (if w.s.rdenFf then [w.s.fifo.last.getD 0] else []) = [k] ↔ _
    cases w.s.rdenFf <;> simp
  have hc : w1.s.clearFf k = i.clear k := rfl
  rw [hd]
  show statusNext w1.s j k = true ↔ _
  unfold statusNext
  rw [hc]
  cases h1 : w1.s.done k
  · simp only [Bool.false_and, Bool.false_eq_true, if_false, false_or]
    cases j.clear k <;> cases i.clear k <;> simp
  · rw [v.rise k h1]
    simp

/-! ## Nothing waits for ever -/

def rank (s : Regs δ σ) : Nat :=
  3 * s.fifo.items.length + (if s.wren then 5 else 0) + (if s.rden then 0 else 1) + (if s.rdenFf then 1 else 0)

section
variable {w : World δ σ} {i : In δ σ} {f : List (RtlRdata.In δ σ)} {h : List (RtlFifo.In Nat)} {pend : List (Ask δ σ)}

theorem rank_lt (v : Inv words w f h pend) (ha : i.ack = false) (hw : wrenNext w.s i = false) (hall : w.acks = w.finished.length)
    (hE : onWay w.s ≠ []) : rank (step words w.s i) < rank w.s := by
  have hlen := congrArg List.length (fifo_next (i := i) v)
  have e1 : (step words w.s i).wren = false := hw
  have e2 : (step words w.s i).rdenFf = w.s.rden := rfl
  have e3 : (step words w.s i).rden = rdenNext w.s i := rfl
  have hc := v.cnt
  rw [hall, v.fin] at hc
  unfold rank
  rw [hlen, e1, e2, e3]
  unfold onWay at hE hc
  unfold rdenNext
  rw [ha]
  have hd : (w.s.fifo.items.drop 1).length = w.s.fifo.items.length - 1 := List.length_drop
  have hr0 : w.s.rden = true → 0 < w.s.fifo.items.length := fun h => List.length_pos_iff.2 (v.rden h)
  have hxor := v.once
  cases h1 : w.s.wren <;> cases h2 : w.s.rden <;> cases h3 : w.s.rdenFf <;>
    simp only [h1, h2, h3, if_true, Bool.false_eq_true, if_false, List.length_append, List.length_nil, List.length_singleton, Nat.add_zero, Nat.zero_add,
      hd] at hE hc hr0 hxor ⊢
  · have hne : w.s.fifo.items ≠ [] := by simpa using hE
    have := List.length_pos_iff.2 hne
    have hx : w.s.cntr ≠ 0 ∧ w.s.fifo.items ≠ [] := ⟨by omega, hne⟩
    simp [hx]
  · by_cases hne : w.s.fifo.items = []
    · rw [hne]
      simp
    · have := List.length_pos_iff.2 hne
      have hx : w.s.cntr ≠ 0 ∧ w.s.fifo.items ≠ [] := ⟨by omega, hne⟩
      simp [hx]
      omega
  · have := hr0 trivial
    omega
  · exact absurd (hxor trivial) (by simp)
  · split <;> simp <;> omega
  · split <;> simp <;> omega
  · have := hr0 trivial
    omega
  · exact absurd (hxor trivial) (by simp)

end

/-- Nothing is pushed, and there is no acknowledge. -/
def In.still (i : In δ σ) : Prop := i.chan.push = none ∧ i.ack = false

/-- When all is taken nothing more is taken. -/
theorem nothing_new {w : World δ σ} {i : In δ σ} {f : List (RtlRdata.In δ σ)} {h : List (RtlFifo.In Nat)} {pend : List (Ask δ σ)}
    (v : Inv words w f h pend) (p : Polite words w i) (q : i.chan.push = none) (hall : w.took = w.chan.due) :
    w.chan.takes i.chan = [] ∧ ¬ RtlAceSend.Race w.chan i.chan := by
  have nr : ¬ RtlAceSend.Race w.chan i.chan := fun hr => by
    have := hr.1
    rw [q] at this
    cases this
  obtain ⟨h', pend', v'⟩ := inv_next v p nr
  have h1 : (w.next words i).took <+: (w.next words i).chan.due := by
    have := v'.chan
    have e := RtlRdata.in_order (RtlAceSend.good words) _ this.polite
    have e2 := this.took
    show (w.next words i).chan.took <+: _
    rw [← e2, RtlAceSend.inner_due this]
    exact e.trans (List.prefix_append _ _)
  have h2 : (w.next words i).chan.due = w.chan.due := by
    show (w.asked ++ i.chan.push.toList.map _).flatMap _ = w.asked.flatMap _
    rw [q]
    simp
  have h3 : (w.next words i).took = w.took ++ w.chan.takes i.chan := rfl
  rw [h2, h3, hall] at h1
  have h4 := h1.length_le
  rw [List.length_append] at h4
  exact ⟨List.length_eq_zero_iff.1 (by omega), nr⟩

theorem completes (ins : List (In δ σ)) : ∀ {w : World δ σ} {f : List (RtlRdata.In δ σ)} {h : List (RtlFifo.In Nat)} {pend : List (Ask δ σ)},
    Inv words w f h pend → AllPolite words w ins → (∀ i ∈ ins, i.still) → w.took = w.chan.due → w.acks = w.asked.length →
    (onWay w.s ≠ [] → rank w.s < ins.length) → (w.run words ins).completed = w.asked.map (·.idx) := by
  induction ins with
  | nil =>
    intro w f h pend v _ _ hall _ hr
    have hE : onWay w.s = [] := Classical.byContradiction fun hE => by
      have := hr hE
      simp at this
    have h1 := v.fin
    rw [hE, List.append_nil] at h1
    show w.completed = _
    rw [← h1]
    unfold World.finished
    rw [hall, RtlAceSend.World.due, ends_all _ fun a ha => (v.chan.ne a ha).1]
    rfl
  | cons i t ih =>
    intro w f h pend v p hs hall hacks hr
    obtain ⟨q1, q2⟩ := hs i (List.mem_cons_self ..)
    obtain ⟨n1, nr⟩ := nothing_new v p.1 q1 hall
    obtain ⟨h', pend', v'⟩ := inv_next v p.1 nr
    have ea : (w.next words i).asked = w.asked := by
      show w.asked ++ i.chan.push.toList.map _ = _
      rw [q1]
      simp
    have et : (w.next words i).took = w.took := by
      show w.took ++ w.chan.takes i.chan = _
      rw [n1, List.append_nil]
    have hfin : w.finished.length = w.asked.length := by
      unfold World.finished
      rw [hall, RtlAceSend.World.due, ends_all _ fun a ha => (v.chan.ne a ha).1, List.length_map]
      rfl
    have hwr : wrenNext w.s i = false := by
      have := took_next (i := i) v
      rw [n1] at this
      cases hx : wrenNext w.s i
      · rfl
      · have e : (step words w.s i).wren = true := hx
        rw [e] at this
        simp at this
    have := ih v' p.2 (fun j hj => hs j (List.mem_cons_of_mem _ hj)) (by
      show (w.next words i).took = ((w.next words i).asked).flatMap _
      rw [et, ea, hall]
      rfl) (by
      rw [ea, ← hacks]
      show w.acks + (if i.ack then 1 else 0) = _
      rw [q2]
      simp) (by
      intro hE'
      by_cases hE : onWay w.s = []
      · refine absurd ?_ hE'
        have h1 := v'.fin
        have h2 := v.fin
        have e1 : (w.next words i).finished = w.finished := by
          unfold World.finished
          rw [et]
        rw [hE, List.append_nil] at h2
        rw [e1, h2] at h1
        have h3 := congrArg List.length h1
        have h4 : w.completed.length ≤ (w.next words i).completed.length := by
          show _ ≤ (w.completed ++ _).length
          rw [List.length_append]
          omega
        rw [List.length_append] at h3
        exact List.length_eq_zero_iff.1 (by omega)
      · have h1 := rank_lt v q2 hwr (by rw [hacks, hfin]) hE
        have h2 := hr hE
        simp only [List.length_cons] at h2
        show rank (step words w.s i) < _
        omega)
    show ((w.next words i).run words t).completed = _
    rw [this, ea]

/-- **When all responses are taken and each is acknowledged, all are completed
at most 56 cycles after the last acknowledge.** -/
theorem all_completed_partial (ins rest : List (In δ σ)) (p : AllPolite words World.start (ins ++ rest)) (n : NoRace words World.start ins)
    (hs : ∀ i ∈ rest, i.still) (hall : (World.start.run words ins).took = (World.start.run words ins).chan.due)
    (hacks : (World.start.run words ins).acks = (World.start.run words ins).asked.length) (hn : 56 ≤ rest.length) :
    (World.start.run words (ins ++ rest)).completed = (World.start.run words ins).asked.map (·.idx) := by
  obtain ⟨p1, p2⟩ := polite_append _ _ p
  obtain ⟨f, h, pend, v⟩ := inv_run ins inv_start p1 n
  rw [run_append]
  refine completes rest v p2 hs hall hacks fun _ => ?_
  have h1 := onWay_le v
  unfold onWay at h1
  simp only [List.length_append] at h1
  unfold rank
  split <;> split <;> split <;> simp_all <;> omega

end

end Verif.RtlAck
