import Verif.RtlAck.Spec
import Verif.RtlAceSend.Props

/-! # The state against the history -/

namespace Verif.RtlAck

open RtlRdata (Ask Beat)
open RtlFifo (Queue)

section
variable {δ σ : Type} {words : Nat}

/-! ## The end of the channel -/

/-- The element on the channel is not replaced while it is there. -/
structure Out (s : RtlRdata.Regs δ σ) : Prop where
  idle : s.rst = .idle → s.rvalid = false ∧ s.rRden = false
  strt : s.rst = .strt → s.rvalid = false
  wait : s.rst = .wait → s.rRden = false

theorem out_next {c : RtlRdata.Cfg} {s : RtlRdata.Regs δ σ} (o : Out s) (i : RtlRdata.In δ σ) : Out (RtlRdata.step c s i) := by
  have e1 : (RtlRdata.step c s i).rst = RtlRdata.rstNext s i := rfl
  have e2 : (RtlRdata.step c s i).rvalid = RtlRdata.rvalidNext s i := rfl
  have e3 : (RtlRdata.step c s i).rRden = RtlRdata.rRdenNext s i := rfl
  cases hs : s.rst with
  | idle =>
    obtain ⟨h1, h2⟩ := o.idle hs
    refine ⟨?_, ?_, ?_⟩ <;> rw [e1] <;> simp only [e2, e3, RtlRdata.rstNext, RtlRdata.rvalidNext, RtlRdata.rRdenNext, hs, h1, h2] <;>
      cases s.r.items <;> simp
  | strt =>
    refine ⟨?_, ?_, ?_⟩ <;> rw [e1] <;> simp only [e2, e3, RtlRdata.rstNext, RtlRdata.rvalidNext, RtlRdata.rRdenNext, hs] <;> simp
  | wait =>
    have h1 := o.wait hs
    refine ⟨?_, ?_, ?_⟩ <;> rw [e1] <;> simp only [e2, e3, RtlRdata.rstNext, RtlRdata.rvalidNext, RtlRdata.rRdenNext, hs, h1] <;>
      cases s.r.items <;> cases s.rvalid <;> cases i.rready <;> simp

theorem shown_stays {c : RtlRdata.Cfg} {s : RtlRdata.Regs δ σ} (o : Out s) (i : RtlRdata.In δ σ) {e : Beat δ σ} (h : RtlRdata.shown s = some e) :
    (RtlRdata.step c s i).r.last = some e := by
  unfold RtlRdata.shown at h
  cases hv : s.rvalid
  · rw [hv] at h; cases h
  · rw [hv] at h
    have h : s.r.last = some e := h
    have hr : s.rRden = false := by
      cases hs : s.rst with
      | idle => have := (o.idle hs).1; rw [hv] at this; cases this
      | strt => have := o.strt hs; rw [hv] at this; cases this
      | wait => exact o.wait hs
    show (RtlRdata.rNext s).last = some e
    unfold RtlRdata.rNext
    cases RtlRdata.rDin s with
    | none => simp [hr, h]
    | some x => simp [Queue.next, hr, h]

/-! ## The ends of bursts -/

theorem ends_of (d : Nat) (r : σ) (l : List δ) (h : l ≠ []) : ((RtlRdata.beatsOf d r l).filter (·.last)).map (·.idx) = [d] := by
  induction l with
  | nil => exact absurd rfl h
  | cons x t ih =>
    cases t with
    | nil => simp [RtlRdata.beatsOf]
    | cons y t =>
      have := ih (by simp)
      simpa [RtlRdata.beatsOf] using this

theorem ends_all (l : List (Ask δ σ)) (h : ∀ a ∈ l, a.data ≠ []) : ((l.flatMap Ask.beats).filter (·.last)).map (·.idx) = l.map (·.idx) := by
  induction l with
  | nil => rfl
  | cons a t ih =>
    rw [List.flatMap_cons, List.filter_append, List.map_append, ih fun b hb => h b (List.mem_cons_of_mem _ hb)]
    unfold Ask.beats
    rw [ends_of _ _ _ (h a (List.mem_cons_self ..))]
    rfl

theorem ends_prefix {w : RtlAceSend.World δ σ} {f : List (RtlRdata.In δ σ)} {h : List (RtlFifo.In Nat)} {pend : List (Ask δ σ)}
    (v : RtlAceSend.Inv words w f h pend) : (w.took.filter (·.last)).map (·.idx) <+: w.asked.map (·.idx) := by
  have h1 : w.took <+: w.due := by
    rw [← v.took, RtlAceSend.inner_due v]
    exact (RtlRdata.in_order (RtlAceSend.good words) _ v.polite).trans (List.prefix_append _ _)
  have h2 := (h1.filter (·.last)).map (·.idx)
  rw [RtlAceSend.World.due, ends_all _ fun a ha => (v.ne a ha).1] at h2
  exact h2

/-! ## The invariant -/

/-- What was taken and is not yet reported. -/
def onWay (s : Regs δ σ) : List Nat :=
  (if s.rdenFf then [s.fifo.last.getD 0] else []) ++ (s.fifo.items ++ (if s.wren then [usrIdx s] else []))

structure Inv (words : Nat) (w : World δ σ) (f : List (RtlRdata.In δ σ)) (h : List (RtlFifo.In Nat)) (pend : List (Ask δ σ)) : Prop where
  chan : RtlAceSend.Inv words w.chan f h pend
  out : Out w.s.chan.back
  fin : w.finished = w.completed ++ onWay w.s
  cnt : w.acks = w.s.cntr + (if w.s.rden then 1 else 0) + (if w.s.rdenFf then 1 else 0) + w.completed.length
  acks : w.acks ≤ w.asked.length
  rden : w.s.rden = true → w.s.fifo.items ≠ []
  once : w.s.rden = true → w.s.rdenFf = false
  quiet : w.s.rdenFf = true → ∀ k, w.s.done k = false
  rise : ∀ k, w.s.done k = true → w.s.doneFf k = false
  use : ((w.asked.drop w.completed.length).map (·.idx)).Nodup
  lt : ∀ a ∈ w.asked, a.idx < 16

theorem inv_start : Inv words (World.start : World δ σ) [] [] [] where
  chan := RtlAceSend.inv_start
  out := ⟨fun _ => ⟨rfl, rfl⟩, fun _ => rfl, fun _ => rfl⟩
  fin := rfl
  cnt := rfl
  acks := Nat.le_refl _
  rden := fun h => by cases h
  once := fun h => by cases h
  quiet := fun h => by cases h
  rise := fun _ h => by cases h
  use := by simp [World.start]
  lt := fun a h => by cases h

section
variable {w : World δ σ} {i : In δ σ} {f : List (RtlRdata.In δ σ)} {h : List (RtlFifo.In Nat)} {pend : List (Ask δ σ)}

theorem fin_prefix (v : Inv words w f h pend) : w.finished <+: w.asked.map (·.idx) := ends_prefix v.chan

theorem completed_le (v : Inv words w f h pend) : w.completed.length ≤ w.asked.length := by
  have h1 := (fin_prefix v).length_le
  rw [v.fin] at h1
  simp only [List.length_append, List.length_map] at h1
  omega

/-- What is on the way is in use. -/
theorem onWay_prefix (v : Inv words w f h pend) : onWay w.s <+: (w.asked.drop w.completed.length).map (·.idx) := by
  obtain ⟨t, ht⟩ := fin_prefix v
  refine ⟨t, ?_⟩
  have h1 := congrArg (List.drop w.completed.length) ht
  rw [v.fin, List.append_assoc, List.drop_left, ← List.map_drop] at h1
  exact h1

theorem used_le (v : Inv words w f h pend) : w.asked.length - w.completed.length ≤ 16 := by
  have := List.Nodup.length_le_of_subset v.use (l₂ := List.range 16) (by
    intro a ha
    obtain ⟨b, hb, rfl⟩ := List.mem_map.1 ha
    exact List.mem_range.2 (v.lt b (List.mem_of_mem_drop hb)))
  simpa using this

theorem onWay_le (v : Inv words w f h pend) : (onWay w.s).length ≤ 16 := by
  have h1 := (onWay_prefix v).length_le
  have h2 := used_le v
  simp only [List.length_map, List.length_drop] at h1
  omega

theorem onWay_lt (v : Inv words w f h pend) {k : Nat} (hk : k ∈ onWay w.s) : k < 16 := by
  obtain ⟨b, hb, rfl⟩ := List.mem_map.1 ((onWay_prefix v).subset hk)
  exact v.lt b (List.mem_of_mem_drop hb)

theorem one_of (x : Nat) (hx : x < 16) : (List.range 16).filter (fun k => decide (x = k)) = [x] := by
  have : ∀ x : Fin 16, (List.range 16).filter (fun k => decide (x.1 = k)) = [x.1] := by decide
  exact this ⟨x, hx⟩

/-- What is reported next. -/
theorem reported_next (v : Inv words w f h pend) : reported (step words w.s i) = if w.s.rdenFf then [w.s.fifo.last.getD 0] else [] := by
  show (List.range 16).filter (doneNext w.s) = _
  unfold doneNext
  cases hr : w.s.rdenFf
  · simp
  · simp only [Bool.true_and, if_true]
    exact one_of _ (onWay_lt v (by unfold onWay; rw [hr]; simp))

theorem chan_polite (v : Inv words w f h pend) (p : Polite words w i) : RtlAceSend.Polite 5 words w.chan i.chan where
  fresh := by
    intro d hd
    obtain ⟨h1, h2, h3⟩ := p.fresh d hd
    refine ⟨h1, h2, fun a ha => h3 a ?_⟩
    unfold RtlAceSend.World.isOpen at ha
    have e : w.completed.length ≤ w.chan.took.countP (·.last) := by
      have := congrArg List.length v.fin
      unfold World.finished at this
      rw [List.length_map, List.length_append, ← List.countP_eq_length_filter] at this
      show _ ≤ w.took.countP _
      omega
    have : w.chan.asked.drop (w.chan.took.countP (·.last)) = (w.asked.drop w.completed.length).drop (w.chan.took.countP (·.last) - w.completed.length) := by
      rw [List.drop_drop]
      congr 1
      omega
    rw [this] at ha
    exact List.mem_of_mem_drop ha
  held := p.held

/-- The FIFO of indices takes all. -/
theorem fifo_next (v : Inv words w f h pend) :
    (step words w.s i).fifo.items = (if w.s.rden then w.s.fifo.items.drop 1 else w.s.fifo.items) ++ (if w.s.wren then [usrIdx w.s] else []) := by
  show (if w.s.rden then w.s.fifo.items.drop 1 else w.s.fifo.items) ++
    (if w.s.wren && decide (w.s.fifo.items.length < 16) then [usrIdx w.s] else []) = _
  cases hw : w.s.wren
  · simp
  · have := onWay_le v
    unfold onWay at this
    rw [hw] at this
    simp only [List.length_append, if_true, List.length_singleton] at this
    have : w.s.fifo.items.length < 16 := by omega
    simp [this]

/-- What is taken in this cycle, and the element written in the next. -/
theorem took_next (v : Inv words w f h pend) :
    ((w.chan.takes i.chan).filter (·.last)).map (·.idx) =
      if (step words w.s i).wren then [usrIdx (step words w.s i)] else [] := by
  show _ = if wrenNext w.s i then _ else _
  unfold RtlAceSend.World.takes wrenNext
  show (((if i.chan.ready then (RtlAceSend.shown w.s.chan).toList else []).filter _).map _) = _
  cases hs : RtlAceSend.shown w.s.chan with
  | none => cases i.chan.ready <;> simp
  | some e =>
    have h1 := shown_stays (c := RtlAceSend.back words) v.out (RtlAceSend.feed w.s.chan i.chan) hs
    have h2 : usrIdx (step words w.s i) = e.idx := by
      unfold usrIdx
      have h3 : (step words w.s i).chan.back.r.last = some e := h1
      rw [h3]
    rw [h2]
    cases i.chan.ready <;> cases hl : e.last <;> simp [hl]

theorem inv_next (v : Inv words w f h pend) (p : Polite words w i) (nr : ¬ RtlAceSend.Race w.chan i.chan) :
    ∃ h' pend', Inv words (w.next words i) (f ++ [RtlAceSend.feed w.s.chan i.chan]) h' pend' := by
  have cp := chan_polite v p
  refine ⟨h ++ [RtlAceSend.fin w.s.chan i.chan],
    (if w.s.chan.wren then pend.drop 1 else pend) ++ i.chan.push.toList.map (RtlAceSend.askOf words i.chan), ?_⟩
  have ec : (w.next words i).chan = w.chan.next words i.chan := rfl
  have eC : (w.next words i).completed = w.completed ++ (if w.s.rdenFf then [w.s.fifo.last.getD 0] else []) := by
    show w.completed ++ reported (step words w.s i) = _
    rw [reported_next v]
  have eA : (w.next words i).asked = w.asked ++ i.chan.push.toList.map (RtlAceSend.askOf words i.chan) := rfl
  have hle := completed_le v
  have huse := used_le v
  have e_f : (step words w.s i).rdenFf = w.s.rden := rfl
  have e_r : (step words w.s i).rden = rdenNext w.s i := rfl
  have e_c : (step words w.s i).cntr = cntrNext w.s i := rfl
  refine
    { chan := by rw [ec]; exact RtlAceSend.inv_next v.chan cp nr
      out := out_next v.out _
      fin := ?_, cnt := ?_, acks := ?_, rden := ?_, once := ?_, quiet := ?_, rise := ?_, use := ?_, lt := ?_ }
  · have : (w.next words i).finished = w.finished ++ ((w.chan.takes i.chan).filter (·.last)).map (·.idx) := by
      show ((w.took ++ w.chan.takes i.chan).filter _).map _ = _
      rw [List.filter_append, List.map_append]
      rfl
    rw [this, took_next v, v.fin, eC]
    show _ = _ ++ onWay (step words w.s i)
    unfold onWay
    rw [fifo_next v, e_f]
    simp only [List.append_assoc]
    congr 2
    cases hr : w.s.rden
    · simp
    · have hn := v.rden hr
      cases hi : w.s.fifo.items with
      | nil => exact absurd hi hn
      | cons a t =>
        have : (step words w.s i).fifo.last = some a := by
          show (if w.s.rden && !w.s.fifo.items.isEmpty then w.s.fifo.items.head? else w.s.fifo.last) = _
          rw [hr, hi]
          rfl
        rw [this]
        simp
  · rw [eC]
    show w.acks + (if i.ack then 1 else 0) = (step words w.s i).cntr + (if (step words w.s i).rden then 1 else 0) + (if (step words w.s i).rdenFf then 1 else 0) + _
    rw [e_f, e_r, e_c, List.length_append]
    have h1 := v.cnt
    have h2 : (if w.s.rdenFf then [w.s.fifo.last.getD 0] else []).length = if w.s.rdenFf then 1 else 0 := by cases w.s.rdenFf <;> rfl
    rw [h2, h1]
    have h3 := v.acks
    unfold cntrNext rdenNext
    cases i.ack
    · cases hr : w.s.rden
      · by_cases hx : w.s.cntr ≠ 0 ∧ w.s.fifo.items ≠ []
        · rw [if_pos hx, if_pos hx]
          simp only [Bool.false_eq_true, if_false, if_true]
          omega
        · rw [if_neg hx, if_neg hx]
          simp only [Bool.false_eq_true, if_false]
          omega
      · simp only [Bool.false_eq_true, if_false, if_true]
        omega
    · have : (w.s.cntr + 1) % 32 = w.s.cntr + 1 := Nat.mod_eq_of_lt (by omega)
      rw [if_pos rfl, if_pos rfl, if_pos rfl, this]
      simp only [Bool.false_eq_true, if_false]
      omega
  · rw [eA]
    show w.acks + (if i.ack then 1 else 0) ≤ _
    rw [List.length_append]
    have h3 := v.acks
    cases ha : i.ack
    · simp only [Bool.false_eq_true, if_false]; omega
    · have := p.ack ha
      simp only [if_true]
      omega
  · intro hr
    have hr : rdenNext w.s i = true := hr
    show (step words w.s i).fifo.items ≠ []
    rw [fifo_next v]
    unfold rdenNext at hr
    cases ha : i.ack
    · rw [ha] at hr
      cases hd : w.s.rden
      · rw [hd] at hr
        by_cases hx : w.s.cntr ≠ 0 ∧ w.s.fifo.items ≠ []
        · simp [hx.2]
        · simp [hx] at hr
      · rw [hd] at hr; simp at hr
    · rw [ha] at hr; simp at hr
  · intro hr
    have hr : rdenNext w.s i = true := hr
    show w.s.rden = false
    unfold rdenNext at hr
    cases hd : w.s.rden
    · rfl
    · rw [hd] at hr
      simp at hr
  · intro hr k
    have hr : w.s.rden = true := hr
    show doneNext w.s k = false
    unfold doneNext
    rw [v.once hr]
    rfl
  · intro k hk
    have hk : doneNext w.s k = true := hk
    show w.s.done k = false
    unfold doneNext at hk
    exact v.quiet (Bool.and_eq_true_iff.1 hk).1 k
  · rw [eA, eC]
    have h4 : w.completed.length + (if w.s.rdenFf then [w.s.fifo.last.getD 0] else []).length ≤ w.asked.length := by
      have h1 := (fin_prefix v).length_le
      rw [v.fin] at h1
      unfold onWay at h1
      simp only [List.length_append, List.length_map] at h1
      omega
    rw [List.length_append, List.drop_append_of_le_length h4, ← List.drop_drop, List.map_append, List.nodup_append]
    refine ⟨?_, ?_, ?_⟩
    · exact List.Nodup.sublist ((List.drop_sublist _ _).map _) v.use
    · cases i.chan.push <;> simp
    · intro a' ha' b' hb'
      obtain ⟨a, ha, rfl⟩ := List.mem_map.1 ha'
      obtain ⟨b, hb, rfl⟩ := List.mem_map.1 hb'
      obtain ⟨d, hd, rfl⟩ := List.mem_map.1 hb
      exact (p.fresh d (Option.mem_toList.1 hd)).2.2 a (List.mem_of_mem_drop ha)
  · intro a ha
    rw [eA] at ha
    rcases List.mem_append.1 ha with ha | ha
    · exact v.lt a ha
    · obtain ⟨d, hd, rfl⟩ := List.mem_map.1 ha
      exact (p.fresh d (Option.mem_toList.1 hd)).1

end

end

end Verif.RtlAck
