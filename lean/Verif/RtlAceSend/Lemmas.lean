import Verif.RtlAceSend.Spec
import Verif.RtlRdata.Props

/-! # The two FIFOs of indices in front of the channel -/

namespace Verif.RtlAceSend

open RtlRdata (Ask Beat)
open RtlFifo (Queue)

section
variable {δ σ : Type} {words : Nat}

theorem good (words : Nat) : (back words).Good := ⟨⟨by simp [back], by simp [back]⟩, by simp [back]⟩

theorem limit (words : Nat) : (back words).limit = 5 := rfl

theorem ask_feed (s : Regs δ σ) (i : In δ σ) (d : Nat) : RtlRdata.askOf (back words) (feed s i) d = askOf words i d := by
  simp [RtlRdata.askOf, askOf, feed, back]

theorem ask_len (i : In δ σ) (d : Nat) : (askOf words i d).data.length = i.len d + 1 := by simp [askOf]

/-- Each burst has one last beat. -/
theorem lasts (l : List (Ask δ σ)) (h : ∀ a ∈ l, a.data ≠ []) : (l.flatMap Ask.beats).countP (·.last) = l.length := by
  induction l with
  | nil => rfl
  | cons a t ih =>
    have h1 := ih fun b hb => h b (List.mem_cons_of_mem _ hb)
    have h2 : a.beats.countP (·.last) = 1 := by
      rw [← RtlRdata.items_beats, List.countP_map]
      exact RtlRdata.lasts_from a a.data 0 (by omega) (h a (List.mem_cons_self ..))
    rw [List.flatMap_cons, List.countP_append, h2, h1, List.length_cons]
    omega

theorem allPolite_snoc {c : RtlRdata.Cfg} {i : RtlRdata.In δ σ} (f : List (RtlRdata.In δ σ)) : ∀ {w : RtlRdata.World δ σ}, RtlRdata.AllPolite c w f →
    RtlRdata.Polite c (w.run c f) i → RtlRdata.AllPolite c w (f ++ [i]) := by
  induction f with
  | nil => intro w _ h; exact ⟨h, trivial⟩
  | cons a t ih => intro w h hp; exact ⟨h.1, ih h.2 hp⟩

theorem fifo_run_snoc {α : Type} (c : RtlFifo.Cfg) (i : RtlFifo.In α) (l : List (RtlFifo.In α)) : ∀ s, RtlFifo.run c s (l ++ [i]) = RtlFifo.step c (RtlFifo.run c s l) i := by
  induction l with
  | nil => intro s; rfl
  | cons a t ih => intro s; exact ih _

theorem queue_run_snoc {α : Type} (n : Nat) (i : RtlFifo.In α) (l : List (RtlFifo.In α)) : ∀ q : Queue α, q.run n (l ++ [i]) = (q.run n l).next n i := by
  induction l with
  | nil => intro s; rfl
  | cons a t ih => intro s; exact ih _

/-- What the rest of the channel has seen so far. -/
def inner (words : Nat) (f : List (RtlRdata.In δ σ)) : RtlRdata.World δ σ := RtlRdata.World.start.run (back words) f

/-- The first FIFO after these cycles. -/
def que (h : List (RtlFifo.In Nat)) : Queue Nat := Queue.run 16 ⟨[], none⟩ h

structure Inv (words : Nat) (w : World δ σ) (f : List (RtlRdata.In δ σ)) (h : List (RtlFifo.In Nat)) (pend : List (Ask δ σ)) : Prop where
  s : (inner words f).s = w.s.back
  took : (inner words f).took = w.took
  polite : RtlRdata.AllPolite (back words) RtlRdata.World.start f
  asked : w.asked = (inner words f).asked ++ pend
  ne : ∀ a ∈ w.asked, a.data ≠ [] ∧ a.data.length ≤ 5
  order : w.s.order = RtlFifo.run fc RtlFifo.reset h
  pend : pend.map (·.idx) = (if w.s.wren then [w.s.din] else []) ++ (que h).items
  rden : w.s.rden = true → (que h).items.head? = some w.s.idx
  early : RtlFifo.Early w.s.order (que h)
  nodup : (w.isOpen.map (·.idx)).Nodup
  lt : ∀ a ∈ w.isOpen, a.idx < 16

theorem inv_start : Inv words (World.start : World δ σ) [] [] [] where
  s := rfl
  took := rfl
  polite := trivial
  asked := rfl
  ne := by intro a h; cases h
  order := rfl
  pend := rfl
  rden := by intro h; cases h
  early := by intro h; cases h
  nodup := List.nodup_nil
  lt := by intro a h; cases h

variable {w : World δ σ} {i : In δ σ} {f : List (RtlRdata.In δ σ)} {h : List (RtlFifo.In Nat)} {pend : List (Ask δ σ)}

theorem shows (v : Inv words w f h pend) : RtlFifo.Shows fc w.s.order (que h) := by
  rw [v.order]
  exact RtlFifo.fifo_is_queue fc (by decide) (by decide) h

/-- The bursts finished are among those which reached the second FIFO. -/
theorem finished_le (v : Inv words w f h pend) : w.took.countP (·.last) ≤ (inner words f).asked.length := by
  have h1 := RtlRdata.in_order (good words) f v.polite
  have h2 := lasts (inner words f).asked fun a ha => (v.ne a (by rw [v.asked]; exact List.mem_append_left _ ha)).1
  rw [← h2, ← v.took]
  exact List.Sublist.countP_le h1.sublist

theorem open_eq (v : Inv words w f h pend) : w.isOpen = (inner words f).isOpen ++ pend := by
  unfold World.isOpen RtlRdata.World.isOpen
  rw [v.asked, v.took, List.drop_append_of_le_length (finished_le v)]

theorem pend_open (v : Inv words w f h pend) {a : Ask δ σ} (ha : a ∈ pend) : a ∈ w.isOpen := by
  rw [open_eq v]
  exact List.mem_append_right _ ha

/-- The burst which is handed on. -/
theorem handed (v : Inv words w f h pend) (hw : w.s.wren = true) : ∃ a t, pend = a :: t ∧ a.idx = w.s.din := by
  have := v.pend
  rw [hw] at this
  cases pend with
  | nil => simp at this
  | cons a t =>
    simp only [List.map_cons, if_true, List.singleton_append] at this
    injection this with h1 h2
    exact ⟨a, t, rfl, h1⟩

theorem inner_polite (v : Inv words w f h pend) (p : Polite 5 words w i) : RtlRdata.Polite (back words) (inner words f) (feed w.s i) where
  fresh := by
    intro d hd
    have hd : (if w.s.wren then some w.s.din else none) = some d := hd
    cases hw : w.s.wren
    · rw [hw] at hd; cases hd
    · rw [hw] at hd
      injection hd with hd
      subst hd
      obtain ⟨a, t, h1, h2⟩ := handed v hw
      have ha := pend_open v (a := a) (by rw [h1]; exact List.mem_cons_self ..)
      have h3 := p.held a ha
      have h4 := ask_len (words := words) i a.idx
      have ho : a ∈ w.asked := List.mem_of_mem_drop ha
      refine ⟨?_, ?_, ?_⟩
      · rw [← h2]; exact v.lt a ha
      · rw [limit]
        show i.len w.s.din < 5
        rw [← h2]
        rw [h3] at h4
        have := (v.ne a ho).2
        omega
      · intro b hb he
        have hn := v.nodup
        rw [open_eq v, List.map_append, List.nodup_append] at hn
        refine hn.2.2 b.idx (List.mem_map.2 ⟨b, hb, rfl⟩) a.idx (List.mem_map.2 ⟨a, by rw [h1]; exact List.mem_cons_self .., rfl⟩) ?_
        rw [he, h2]
  held := by
    intro a ha
    rw [ask_feed]
    exact p.held a (by rw [open_eq v]; exact List.mem_append_left _ ha)

/-- There is room in the first FIFO. -/
theorem room (v : Inv words w f h pend) (p : Polite 5 words w i) {d : Nat} (hd : i.push = some d) : (que h).items.length < 16 := by
  obtain ⟨h1, _, h3⟩ := p.fresh d hd
  have hn : (d :: w.isOpen.map (·.idx)).Nodup := List.nodup_cons.2 ⟨by
    intro hm
    obtain ⟨a, ha, he⟩ := List.mem_map.1 hm
    exact h3 a ha he, v.nodup⟩
  have := List.Nodup.length_le_of_subset hn (l₂ := List.range 16) (by
    intro a ha
    rcases List.mem_cons.1 ha with rfl | ha
    · exact List.mem_range.2 h1
    · obtain ⟨b, hb, rfl⟩ := List.mem_map.1 ha
      exact List.mem_range.2 (v.lt b hb))
  have h4 := congrArg List.length v.pend
  rw [open_eq v] at this
  simp only [List.length_cons, List.length_map, List.length_range, List.length_append] at this h4
  omega

/-- What the first FIFO gets. -/
def fin (s : Regs δ σ) (i : In δ σ) : RtlFifo.In Nat := ⟨!s.order.full && i.push.isSome, s.rden, i.push.getD 0⟩

theorem que_next (v : Inv words w f h pend) (p : Polite 5 words w i) :
    (que (h ++ [fin w.s i])).items = (if w.s.rden then (que h).items.drop 1 else (que h).items) ++ i.push.toList := by
  have e : que (h ++ [fin w.s i]) = (que h).next 16 (fin w.s i) := queue_run_snoc ..
  rw [e]
  show (if w.s.rden then (que h).items.drop 1 else (que h).items) ++
    (if (!w.s.order.full && i.push.isSome) && decide ((que h).items.length < 16) then [i.push.getD 0] else []) = _
  cases hp : i.push with
  | none => simp
  | some d =>
    have hr := room v p hp
    have hf : w.s.order.full = false := by
      rw [(shows v).full]
      exact decide_eq_false (by show (que h).items.length ≠ 16; omega)
    simp [hf, hr]

theorem inv_next (v : Inv words w f h pend) (p : Polite 5 words w i) (nr : ¬ Race w i) :
    Inv words (w.next words i) (f ++ [feed w.s i]) (h ++ [fin w.s i])
      ((if w.s.wren then pend.drop 1 else pend) ++ i.push.toList.map (askOf words i)) := by
  have ip := inner_polite v p
  have ein : inner words (f ++ [feed w.s i]) = (inner words f).next (back words) (feed w.s i) := by
    unfold inner
    rw [RtlRdata.run_append]
    rfl
  have pol : RtlRdata.AllPolite (back words) RtlRdata.World.start (f ++ [feed w.s i]) := allPolite_snoc f v.polite ip
  have etook : (inner words (f ++ [feed w.s i])).took = (w.next words i).took := by
    rw [ein]
    show (inner words f).took ++ (inner words f).takes (feed w.s i) = w.took ++ w.takes i
    rw [v.took]
    unfold RtlRdata.World.takes World.takes shown
    rw [v.s]
    rfl
  have easked : (inner words (f ++ [feed w.s i])).asked ++ (if w.s.wren then pend.drop 1 else pend) = w.asked := by
    rw [ein, v.asked]
    show ((inner words f).asked ++ (if w.s.wren then some w.s.din else none).toList.map (RtlRdata.askOf (back words) (feed w.s i))) ++ _ = _
    cases hw : w.s.wren
    · simp
    · obtain ⟨a, t, h1, h2⟩ := handed v hw
      have h3 := p.held a (pend_open v (by rw [h1]; exact List.mem_cons_self ..))
      rw [h1, ← h2]
      simp [ask_feed, h3]
  have hne : ∀ a ∈ (w.next words i).asked, a.data ≠ [] ∧ a.data.length ≤ 5 := by
    intro a ha
    rcases List.mem_append.1 ha with ha | ha
    · exact v.ne a ha
    · obtain ⟨d, hd, rfl⟩ := List.mem_map.1 ha
      have := (p.fresh d (Option.mem_toList.1 hd)).2.1
      have hl := ask_len (words := words) i d
      refine ⟨?_, by omega⟩
      intro h0
      rw [h0] at hl
      simp at hl
  have hsub : (w.next words i).isOpen.Sublist (w.isOpen ++ i.push.toList.map (askOf words i)) := by
    unfold World.isOpen
    show ((w.asked ++ _).drop ((w.took ++ w.takes i).countP _)).Sublist _
    rw [List.countP_append]
    have hle := finished_le v
    have : w.took.countP (·.last) ≤ w.asked.length := by
      rw [v.asked, List.length_append]
      omega
    rw [← List.drop_drop, List.drop_append_of_le_length this]
    exact List.drop_sublist _ _
  refine
    { s := ?_, took := etook, polite := pol, asked := ?_, ne := hne, order := ?_, pend := ?_, rden := ?_, early := ?_, nodup := ?_, lt := ?_ }
  · rw [ein]
    show RtlRdata.step (back words) (inner words f).s (feed w.s i) = _
    rw [v.s]
    rfl
  · show w.asked ++ _ = _
    rw [← List.append_assoc, easked]
  · rw [fifo_run_snoc, ← v.order]
    rfl
  · rw [que_next v p]
    show _ = (if w.s.rden then [w.s.idx] else []) ++ _
    have h1 := v.pend
    have h2 : (if w.s.wren then pend.drop 1 else pend).map (·.idx) = (que h).items := by
      cases hw : w.s.wren
      · rw [hw] at h1; simpa using h1
      · rw [hw] at h1
        obtain ⟨a, t, e, _⟩ := handed v hw
        rw [e] at h1 ⊢
        simp only [List.map_cons, if_true, List.singleton_append] at h1
        injection h1 with _ h1
    rw [List.map_append, h2]
    have h3 : (i.push.toList.map (askOf words i)).map (·.idx) = i.push.toList := by
      cases i.push <;> rfl
    rw [h3]
    cases hr : w.s.rden
    · simp
    · have := v.rden hr
      cases hq : (que h).items with
      | nil => rw [hq] at this; cases this
      | cons a t =>
        rw [hq] at this
        injection this with this
        subst this
        simp
  · intro hr
    have hr : rdenNext w.s = true := hr
    unfold rdenNext at hr
    cases hd : w.s.rden
    · rw [hd] at hr
      cases hp : w.s.order.preValid
      · rw [hp] at hr; simp at hr
      · obtain ⟨x, h1, h2⟩ := v.early hp
        rw [que_next v p, hd]
        show _ = some (idxNext w.s)
        unfold idxNext
        rw [hd, hp, h2]
        simp only [Bool.false_eq_true, if_false, if_true, Option.getD_some]
        cases hq : (que h).items with
        | nil => rw [hq] at h1; cases h1
        | cons a t =>
          rw [hq] at h1
          simpa using h1
    · rw [hd] at hr; simp at hr
  · have e : (w.next words i).s.order = RtlFifo.run fc RtlFifo.reset (h ++ [fin w.s i]) := by
      rw [fifo_run_snoc, ← v.order]
      rfl
    rw [e]
    refine RtlFifo.early_output fc (by decide) (by decide) rfl h (fin w.s i) ?_
    rintro ⟨h1, h2, h3⟩
    have h3 : (!w.s.order.full && i.push.isSome) = true := h3
    refine nr ⟨(Bool.and_eq_true_iff.1 h3).2, h2, ?_⟩
    rw [(shows v).count]
    exact h1
  · refine List.Nodup.sublist (hsub.map _) ?_
    rw [List.map_append, List.nodup_append]
    refine ⟨v.nodup, ?_, ?_⟩
    · cases i.push <;> simp
    · intro a' ha' b' hb'
      obtain ⟨a, ha, rfl⟩ := List.mem_map.1 ha'
      obtain ⟨b, hb, rfl⟩ := List.mem_map.1 hb'
      obtain ⟨d, hd, rfl⟩ := List.mem_map.1 hb
      exact (p.fresh d (Option.mem_toList.1 hd)).2.2 a ha
  · intro a ha
    rcases List.mem_append.1 (hsub.subset ha) with ha | ha
    · exact v.lt a ha
    · obtain ⟨d, hd, rfl⟩ := List.mem_map.1 ha
      exact (p.fresh d (Option.mem_toList.1 hd)).1

end

end Verif.RtlAceSend
