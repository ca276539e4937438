import Verif.RtlAceSend.Lemmas

/-! # What is pushed is sent, whole and in order -/

namespace Verif.RtlAceSend

open RtlRdata (Ask Beat)
open RtlFifo (Queue)

section
variable {δ σ : Type} {words : Nat}

/-- The inputs of the rest of the channel. -/
def feeds (words : Nat) (s : Regs δ σ) : List (In δ σ) → List (RtlRdata.In δ σ)
  | [] => []
  | i :: t => feed s i :: feeds words (step words s i) t

theorem inv_run (ins : List (In δ σ)) : ∀ {w : World δ σ} {f : List (RtlRdata.In δ σ)} {h : List (RtlFifo.In Nat)} {pend : List (Ask δ σ)},
    Inv words w f h pend → AllPolite 5 words w ins → NoRace words w ins →
    ∃ h' pend', Inv words (w.run words ins) (f ++ feeds words w.s ins) h' pend' := by
  induction ins with
  | nil =>
    intro w f h pend v _ _
    exact ⟨h, pend, by rw [feeds, List.append_nil]; exact v⟩
  | cons i t ih =>
    intro w f h pend v p n
    obtain ⟨h', pend', v'⟩ := ih (inv_next v p.1 n.1) p.2 n.2
    refine ⟨h', pend', ?_⟩
    rw [List.append_assoc] at v'
    exact v'

theorem inner_due {w : World δ σ} {f : List (RtlRdata.In δ σ)} {h : List (RtlFifo.In Nat)} {pend : List (Ask δ σ)} (v : Inv words w f h pend) :
    w.due = (inner words f).due ++ pend.flatMap Ask.beats := by
  unfold World.due RtlRdata.World.due
  rw [v.asked, List.flatMap_append]

/-- **The beats taken are the first of those of the bursts pushed, one burst
after the other: each word from its place in the RAM, with the fields of its
descriptor, the last of each burst marked, and no other.**  Missing: bursts of
more than five words, and races; see `long_burst_loses_a_word` and
`race_sends_another`. -/
theorem in_order_partial (ins : List (In δ σ)) (p : AllPolite 5 words World.start ins) (n : NoRace words World.start ins) :
    (World.start.run words ins).took <+: (World.start.run words ins).due := by
  obtain ⟨h, pend, v⟩ := inv_run ins inv_start p n
  rw [← v.took, inner_due v]
  exact (RtlRdata.in_order (good words) _ v.polite).trans (List.prefix_append _ _)

/-- **A beat stays as it is until it is taken.** -/
theorem held_until_taken_partial (ins : List (In δ σ)) (i : In δ σ) (p : AllPolite 5 words World.start ins) (n : NoRace words World.start ins)
    (e : Beat δ σ) (h : shown (World.start.run words ins).s = some e) (hr : i.ready = false) :
    shown ((World.start.run words ins).next words i).s = some e := by
  obtain ⟨h', pend, v⟩ := inv_run ins inv_start p n
  have := RtlRdata.held_until_taken (good words) _ (feed (World.start.run words ins).s i) v.polite e
    (by have := v.s; unfold inner at this; rw [this]; exact h) hr
  have e2 := v.s
  unfold inner at e2
  unfold shown at h ⊢
  rw [← this]
  show RtlRdata.shown (RtlRdata.step (back words) _ _) = RtlRdata.shown (RtlRdata.step (back words) _ _)
  rw [e2]

/-- **A descriptor is reported done in the cycle after the last beat of its
burst is taken, and in no other.** -/
theorem done_when_last (w : World δ σ) (i : In δ σ) (d : Nat) :
    (w.next words i).s.back.done d = true ↔ ∃ e ∈ w.takes i, e.last = true ∧ e.idx = d := by
  show RtlRdata.doneNext w.s.back (feed w.s i) d = true ↔ _
  unfold RtlRdata.doneNext World.takes shown
  have : (feed w.s i).rready = i.ready := rfl
  rw [this]
  cases i.ready
  · cases RtlRdata.shown w.s.back <;> simp
  · cases RtlRdata.shown w.s.back with
    | none => simp
    | some e => simp

/-! ## Nothing waits for ever -/

def phase (s : Regs δ σ) : Nat := if s.rden then 0 else if s.order.preValid then 1 else 2

/-- How far the indices are from the second FIFO. -/
def rank (s : Regs δ σ) (q : Queue Nat) : Nat := 4 * q.items.length + phase s + (if s.wren then 1 else 0)

def Empty (s : Regs δ σ) (q : Queue Nat) : Prop := q.items = [] ∧ s.wren = false

theorem phase_le (s : Regs δ σ) : phase s ≤ 2 := by
  unfold phase
  split
  · omega
  · split <;> omega

section
variable {w : World δ σ} {i : In δ σ} {f : List (RtlRdata.In δ σ)} {h : List (RtlFifo.In Nat)} {pend : List (Ask δ σ)}

theorem rden_empty (v : Inv words w f h pend) (hq : (que h).items = []) : w.s.rden = false := by
  cases hr : w.s.rden
  · rfl
  · have := v.rden hr
    rw [hq] at this
    cases this

theorem pre_empty (v : Inv words w f h pend) (hq : (que h).items = []) : w.s.order.preValid = false := by
  cases hr : w.s.order.preValid
  · rfl
  · obtain ⟨x, h1, _⟩ := v.early hr
    rw [hq] at h1
    cases h1

theorem rank_lt (v : Inv words w f h pend) (p : Polite 5 words w i) (hq : i.push = none) (hE : ¬ Empty w.s (que h)) :
    rank (step words w.s i) (que (h ++ [fin w.s i])) < rank w.s (que h) := by
  have hn := que_next v p
  rw [hq] at hn
  simp only [Option.toList_none, List.append_nil] at hn
  have h1 := phase_le (step words w.s i)
  have ew : (step words w.s i).wren = w.s.rden := rfl
  unfold rank
  rw [hn, ew]
  cases hr : w.s.rden
  · simp only [Bool.false_eq_true, if_false, Nat.add_zero]
    have ep : (step words w.s i).rden = rdenNext w.s := rfl
    cases hp : w.s.order.preValid
    · have e1 : phase w.s = 2 := by simp [phase, hr, hp]
      have e2 : (step words w.s i).rden = false := by rw [ep]; simp [rdenNext, hr, hp]
      by_cases hi : (que h).items = []
      · have : w.s.wren = true := by
          cases hw : w.s.wren
          · exact absurd ⟨hi, hw⟩ hE
          · rfl
        rw [this, e1]
        simp only [if_true]
        omega
      · have e3 : (step words w.s i).order.preValid = true := by
          have he : w.s.order.empty = false := by
            rw [(shows v).empty]
            cases hx : (que h).items with
            | nil => exact absurd hx hi
            | cons a t => rfl
          show (RtlFifo.step fc w.s.order ⟨!w.s.order.full && i.push.isSome, w.s.rden, i.push.getD 0⟩).preValid = true
          simp [RtlFifo.step, hq, hr, he]
        have : phase (step words w.s i) = 1 := by simp [phase, e2, e3]
        rw [this, e1]
        omega
    · have e1 : phase w.s = 1 := by simp [phase, hr, hp]
      have e2 : phase (step words w.s i) = 0 := by simp [phase, ep, rdenNext, hr, hp]
      rw [e1, e2]
      omega
  · have := v.rden hr
    simp only [if_true]
    cases hx : (que h).items with
    | nil => rw [hx] at this; cases this
    | cons a t =>
      simp only [List.drop_succ_cons, List.drop_zero, List.length_cons]
      omega

theorem empty_next (v : Inv words w f h pend) (p : Polite 5 words w i) (hq : i.push = none) (hE : Empty w.s (que h)) :
    Empty (step words w.s i) (que (h ++ [fin w.s i])) := by
  refine ⟨?_, rden_empty v hE.1⟩
  rw [que_next v p, hq, hE.1]
  simp

theorem empties (ins : List (In δ σ)) : ∀ {w : World δ σ} {f : List (RtlRdata.In δ σ)} {h : List (RtlFifo.In Nat)} {pend : List (Ask δ σ)},
    Inv words w f h pend → AllPolite 5 words w ins → (∀ i ∈ ins, i.push = none) → (¬ Empty w.s (que h) → rank w.s (que h) < ins.length) →
    ∃ h' pend', Inv words (w.run words ins) (f ++ feeds words w.s ins) h' pend' ∧ Empty (w.run words ins).s (que h') := by
  induction ins with
  | nil =>
    intro w f h pend v _ _ hn
    refine ⟨h, pend, by rw [feeds, List.append_nil]; exact v, Classical.byContradiction fun hE => ?_⟩
    have := hn hE
    simp at this
  | cons i t ih =>
    intro w f h pend v p hq hn
    have q := hq i (List.mem_cons_self ..)
    have nr : ¬ Race w i := fun hr => by
      have := hr.1
      rw [q] at this
      cases this
    obtain ⟨h', pend', v', e'⟩ := ih (inv_next v p.1 nr) p.2 (fun j hj => hq j (List.mem_cons_of_mem _ hj)) (fun hE => by
      by_cases h0 : Empty w.s (que h)
      · exact absurd (empty_next v p.1 q h0) hE
      · have h1 := rank_lt v p.1 q h0
        have h2 := hn h0
        simp only [List.length_cons] at h2
        show rank (step words w.s i) _ < _
        omega)
    refine ⟨h', pend', ?_, e'⟩
    rw [List.append_assoc] at v'
    exact v'

theorem que_len (v : Inv words w f h pend) : (que h).items.length ≤ 16 := by
  have := List.Nodup.length_le_of_subset v.nodup (l₂ := List.range 16) (by
    intro a ha
    obtain ⟨b, hb, rfl⟩ := List.mem_map.1 ha
    exact List.mem_range.2 (v.lt b hb))
  have h4 := congrArg List.length v.pend
  rw [open_eq v] at this
  simp only [List.length_map, List.length_range, List.length_append] at this h4
  omega

/-- Once the FIFOs of indices are empty they stay so. -/
theorem quiet_feeds (ins : List (In δ σ)) : ∀ {w : World δ σ} {f : List (RtlRdata.In δ σ)} {h : List (RtlFifo.In Nat)} {pend : List (Ask δ σ)},
    Inv words w f h pend → AllPolite 5 words w ins → (∀ i ∈ ins, i.quiet) → Empty w.s (que h) →
    ∀ j ∈ feeds words w.s ins, j.quiet := by
  induction ins with
  | nil => intro w f h pend _ _ _ _ j hj; cases hj
  | cons i t ih =>
    intro w f h pend v p hq hE j hj
    have q := hq i (List.mem_cons_self ..)
    have nr : ¬ Race w i := fun hr => by
      have := hr.1
      rw [q.1] at this
      cases this
    rcases List.mem_cons.1 hj with rfl | hj
    · refine ⟨?_, q.2⟩
      show (if w.s.wren then some w.s.din else none) = none
      rw [hE.2]
      rfl
    · exact ih (inv_next v p.1 nr) p.2 (fun j hj => hq j (List.mem_cons_of_mem _ hj)) (empty_next v p.1 q.1 hE) j hj

end

theorem run_append (a b : List (In δ σ)) : ∀ (w : World δ σ), w.run words (a ++ b) = (w.run words a).run words b := by
  induction a with
  | nil => intro w; rfl
  | cons i t ih => intro w; exact ih _

theorem polite_append (a b : List (In δ σ)) : ∀ {w : World δ σ}, AllPolite 5 words w (a ++ b) → AllPolite 5 words w a ∧ AllPolite 5 words (w.run words a) b := by
  induction a with
  | nil => intro w h; exact ⟨trivial, h⟩
  | cons i t ih =>
    intro w h
    obtain ⟨h1, h2⟩ := ih h.2
    exact ⟨⟨h.1, h1⟩, h2⟩

theorem feeds_length (ins : List (In δ σ)) : ∀ s : Regs δ σ, (feeds words s ins).length = ins.length := by
  induction ins with
  | nil => intro s; rfl
  | cons i t ih => intro s; simp [feeds, ih]

theorem asked_quiet (ins : List (In δ σ)) : ∀ {w : World δ σ}, (∀ i ∈ ins, i.push = none) → (w.run words ins).asked = w.asked := by
  induction ins with
  | nil => intro w _; rfl
  | cons i t ih =>
    intro w h
    have h1 := h i (List.mem_cons_self ..)
    have h2 := ih (w := w.next words i) (fun j hj => h j (List.mem_cons_of_mem _ hj))
    show ((w.next words i).run words t).asked = _
    rw [h2]
    show w.asked ++ i.push.toList.map (askOf words i) = _
    rw [h1]
    simp

theorem took_grows (ins : List (In δ σ)) : ∀ {w : World δ σ}, w.took.length ≤ (w.run words ins).took.length := by
  induction ins with
  | nil => intro w; exact Nat.le_refl _
  | cons i t ih =>
    intro w
    have := ih (w := w.next words i)
    have h2 : (w.next words i).took = w.took ++ w.takes i := rfl
    rw [h2, List.length_append] at this
    show _ ≤ ((w.next words i).run words t).took.length
    omega

/-- **When nothing is pushed and the beats are taken, all is taken after at
most 49 cycles for each beat which was still to come, and 75.** -/
theorem all_given_partial (ins rest : List (In δ σ)) (p : AllPolite 5 words World.start (ins ++ rest)) (n : NoRace words World.start ins)
    (hq : ∀ i ∈ rest, i.quiet)
    (hn : 49 * ((World.start.run words ins).due.length - (World.start.run words ins).took.length) + 75 ≤ rest.length) :
    (World.start.run words (ins ++ rest)).took = (World.start.run words (ins ++ rest)).due := by
  obtain ⟨p1, p2⟩ := polite_append _ _ p
  obtain ⟨h, pend, v⟩ := inv_run ins inv_start p1 n
  rw [run_append]
  generalize World.start.run words ins = w at v p2 hn ⊢
  have hs : rest = rest.take 68 ++ rest.drop 68 := (List.take_append_drop 68 rest).symm
  have hlen : (rest.take 68).length = 68 := by rw [List.length_take]; omega
  have hlen2 : (rest.drop 68).length = rest.length - 68 := List.length_drop
  generalize rest.take 68 = r1 at hs hlen
  generalize rest.drop 68 = r2 at hs hlen2
  subst hs
  obtain ⟨q1, q2⟩ := polite_append _ _ p2
  have k1 : ∀ i ∈ r1, i.quiet := fun i hi => hq i (List.mem_append_left _ hi)
  have k2 : ∀ i ∈ r2, i.quiet := fun i hi => hq i (List.mem_append_right _ hi)
  obtain ⟨h1, pend1, v1, e1⟩ := empties r1 v q1 (fun i hi => (k1 i hi).1) (fun _ => by
    have a := que_len v
    have b := phase_le w.s
    unfold rank
    split <;> omega)
  have hd : (w.run words r1).due = w.due := by
    unfold World.due
    rw [asked_quiet r1 fun i hi => (k1 i hi).1]
  have ht := took_grows (words := words) r1 (w := w)
  rw [run_append]
  generalize w.run words r1 = w1 at v1 e1 hd ht q2 ⊢
  have hp1 : pend1 = [] := by
    have := v1.pend
    rw [e1.1, e1.2] at this
    simpa using this
  obtain ⟨h2, pend2, v2, e2⟩ := empties r2 v1 q2 (fun i hi => (k2 i hi).1) (fun hE => absurd e1 hE)
  have hp2 : pend2 = [] := by
    have := v2.pend
    rw [e2.1, e2.2] at this
    simpa using this
  have := RtlRdata.all_given (good words) _ (feeds words w1.s r2) v2.polite (quiet_feeds r2 v1 q2 k2 e1) (by
    have a1 := inner_due v1
    rw [hp1] at a1
    simp only [List.flatMap_nil, List.append_nil] at a1
    have a2 := v1.took
    unfold inner at a1 a2
    rw [← a1, a2, hd, feeds_length]
    simp only [List.length_append] at hn
    omega)
  have b1 := inner_due v2
  rw [hp2] at b1
  simp only [List.flatMap_nil, List.append_nil] at b1
  rw [b1, ← v2.took]
  exact this

/-! ## Pushes which are not too close -/

/-- How long ago the last push was, as far as it matters. -/
structure Calm (k : Nat) (w : World δ σ) (q : Queue Nat) : Prop where
  len : q.items.length ≤ 1
  zero : k = 0 → q.items = []
  one : k = 1 → q.items = [] ∨ w.s.rden = true
  two : k = 2 → q.items = [] ∨ w.s.rden = true ∨ w.s.order.preValid = true
  three : k ≤ 3

theorem calm_next {w : World δ σ} {i : In δ σ} {f : List (RtlRdata.In δ σ)} {h : List (RtlFifo.In Nat)} {pend : List (Ask δ σ)} {k : Nat}
    (v : Inv words w f h pend) (p : Polite 5 words w i) (c : Calm k w (que h)) (hk : i.push.isSome = true → k = 0) :
    ¬ Race w i ∧ Calm (if i.push.isSome then 3 else k - 1) (w.next words i) (que (h ++ [fin w.s i])) := by
  have hn := que_next v p
  have er : (w.next words i).s.rden = rdenNext w.s := rfl
  cases hp : i.push with
  | some d =>
    have k0 : k = 0 := hk (by rw [hp]; rfl)
    have hq := c.zero k0
    have hr := rden_empty v hq
    refine ⟨?_, ?_⟩
    · rintro ⟨_, h2, _⟩
      rw [hr] at h2
      cases h2
    · rw [hp, hq] at hn
      have hn : (que (h ++ [fin w.s i])).items = [d] := by rw [hn]; simp
      exact ⟨by rw [hn]; simp, by simp, by simp, by simp, by simp⟩
  | none =>
    rw [hp] at hn
    simp only [Option.toList_none, List.append_nil] at hn
    have hle : (que (h ++ [fin w.s i])).items.length ≤ (que h).items.length := by
      rw [hn]
      split
      · simp
      · exact Nat.le_refl _
    have c1 := c.len
    have hempty : (que h).items = [] → (que (h ++ [fin w.s i])).items = [] := by
      intro hx
      rw [hx] at hle
      exact List.length_eq_zero_iff.1 (by simpa using hle)
    have hpop : w.s.rden = true → (que (h ++ [fin w.s i])).items = [] := by
      intro hr
      rw [hn, hr]
      simp only [if_true]
      exact List.drop_eq_nil_iff.2 c1
    refine ⟨?_, ?_⟩
    · rintro ⟨h1, _⟩
      rw [hp] at h1
      cases h1
    · simp only [Option.isSome_none, Bool.false_eq_true, if_false]
      refine ⟨by omega, ?_, ?_, ?_, by have := c.three; omega⟩
      · intro h0
        by_cases k1 : k = 1
        · rcases c.one k1 with hx | hx
          · exact hempty hx
          · exact hpop hx
        · exact hempty (c.zero (by omega))
      · intro h1
        rcases c.two (by omega) with hx | hx | hx
        · exact .inl (hempty hx)
        · exact .inl (hpop hx)
        · cases hr : w.s.rden
          · right
            rw [er]
            simp [rdenNext, hr, hx]
          · exact .inl (hpop hr)
      · intro h2
        by_cases hx : (que h).items = []
        · exact .inl (hempty hx)
        cases hr : w.s.rden
        · right
          right
          have he : w.s.order.empty = false := by
            rw [(shows v).empty]
            cases hy : (que h).items with
            | nil => exact absurd hy hx
            | cons a t => rfl
          show (RtlFifo.step fc w.s.order ⟨!w.s.order.full && i.push.isSome, w.s.rden, i.push.getD 0⟩).preValid = true
          simp [RtlFifo.step, hp, hr, he]
        · exact .inl (hpop hr)

theorem spaced_run (ins : List (In δ σ)) : ∀ {k : Nat} {w : World δ σ} {f : List (RtlRdata.In δ σ)} {h : List (RtlFifo.In Nat)} {pend : List (Ask δ σ)},
    Inv words w f h pend → AllPolite 5 words w ins → Calm k w (que h) → Spaced k ins → NoRace words w ins := by
  induction ins with
  | nil => intros; trivial
  | cons i t ih =>
    intro k w f h pend v p c hs
    unfold Spaced at hs
    have key := calm_next v p.1 c (fun hp => by rw [hp] at hs; exact hs.1)
    refine ⟨key.1, ih (inv_next v p.1 key.1) p.2 key.2 ?_⟩
    cases hp : i.push.isSome
    · rw [hp] at hs; exact hs
    · rw [hp] at hs; exact hs.2

/-- **Pushes with three cycles between them never race.** -/
theorem spaced_no_race (ins : List (In δ σ)) (p : AllPolite 5 words World.start ins) (hs : Spaced 0 ins) : NoRace words World.start ins :=
  spaced_run ins inv_start p ⟨by simp [que, Queue.run], fun _ => rfl, fun _ => .inl rfl, fun _ => .inl rfl, by omega⟩ hs

/-- **So all of them are sent in order.** -/
theorem spaced_in_order_partial (ins : List (In δ σ)) (p : AllPolite 5 words World.start ins) (hs : Spaced 0 ins) :
    (World.start.run words ins).took <+: (World.start.run words ins).due :=
  in_order_partial ins p (spaced_no_race ins p hs)

end

end Verif.RtlAceSend
