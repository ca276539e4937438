import Verif.RtlOrder.Step

/-! # What is kept from cycle to cycle -/

namespace Verif.RtlOrder

open RtlFifo (Queue)

section
variable {ι : Type} [DecidableEq ι]

/-- The early output after a cycle: the head, or a value left over when the
only element has just come. -/
theorem pre_next {s : RtlFifo.Regs Nat} {q : Queue Nat} (v : RtlFifo.Inv fc s q) (w r : Bool) (d : Nat)
    (hne : (q.next 16 ⟨w, r, d⟩).items ≠ []) :
    (RtlFifo.step fc s ⟨w, r, d⟩).pre = (q.next 16 ⟨w, r, d⟩).items.head? ∨ (w = true ∧ (q.next 16 ⟨w, r, d⟩).items = [d]) := by
  have hlt : ∀ k, RtlFifo.slot fc s k < fc.depth := fun k => RtlFifo.slot_lt fc s k
  have hrd : RtlFifo.slot fc s 0 = s.rd := by
    have := v.rd
    exact Nat.mod_eq_of_lt this
  have hem := v.empty
  unfold Queue.next at *
  dsimp only at *
  match hq : q.items with
  | [] =>
    right
    rw [hq] at hne
    cases w
    · simp at hne
    · simp
  | [a] =>
    have h0 := v.items 0 a (by rw [hq]; rfl)
    rw [hq] at hem
    cases r
    · left
      simp only [RtlFifo.step, hem, Bool.and_false, Bool.false_eq_true, if_false, RtlFifo.read]
      rw [hrd] at h0
      have := hlt 0
      rw [hrd] at this
      rw [if_pos this, h0]
      simp
    · right
      rw [hq] at hne
      cases w
      · simp at hne
      · simp
  | a :: b :: t =>
    have h0 := v.items 0 a (by rw [hq]; rfl)
    have h1 := v.items 1 b (by rw [hq]; rfl)
    rw [hq] at hem
    left
    cases r
    · simp only [RtlFifo.step, hem, Bool.and_false, Bool.false_eq_true, if_false, RtlFifo.read]
      rw [hrd] at h0
      have := hlt 0
      rw [hrd] at this
      rw [if_pos this, h0]
      simp
    · have he : s.empty = false := by rw [hem]; simp
      simp only [RtlFifo.step, he, Bool.not_false, Bool.and_true, if_true, RtlFifo.read]
      have : RtlFifo.ahead fc s = RtlFifo.slot fc s 1 := rfl
      rw [this, if_pos (hlt 1), h1]
      simp

theorem empty_iff {w : World ι} {q : Nat → Queue Nat} {f : Flight ι} (v : Inv w q f) (j : Nat) :
    (w.s.fifo j).empty = true ↔ (q j).items = [] := by
  rw [(v.fifo j).empty]
  simp

/-- A match is a head. -/
theorem hit_head {w : World ι} {q : Nat → Queue Nat} {f : Flight ι} (v : Inv w q f) (c : Clean w) {d j : Nat}
    (hl : lowest w.s.proc = some d) (h : hit w.s d j = true) : (q j).items.head? = some d := by
  simp only [hit, Bool.and_eq_true, decide_eq_true_eq, Bool.not_eq_true'] at h
  have hne : (q j).items ≠ [] := fun hc => by
    rw [(empty_iff v j).2 hc] at h
    exact absurd h.2 (by simp)
  rcases v.pre j hne with hp | ⟨hj, y, hy, _⟩
  · rw [← hp, h.1]
  · have hm := c j (v.held.lt j hne) hj d hl h.1
    have h0 := (v.fifo j).items 0 y (by rw [hy]; rfl)
    have hrd : RtlFifo.slot fc (w.s.fifo j) 0 = (w.s.fifo j).rd := Nat.mod_eq_of_lt (v.fifo j).rd
    rw [hrd, hm] at h0
    rw [hy]
    exact h0.symm

/-- A head asked for is a match. -/
theorem head_hit {w : World ι} {q : Nat → Queue Nat} {f : Flight ι} (v : Inv w q f) {d j : Nat}
    (hr : w.s.req d = true) (h : (q j).items.head? = some d) : hit w.s d j = true := by
  have hne : (q j).items ≠ [] := by intro hc; rw [hc] at h; cases h
  have he : (w.s.fifo j).empty = false := by
    cases h' : (w.s.fifo j).empty
    · rfl
    · exact absurd ((empty_iff v j).1 h') hne
  rcases v.pre j hne with hp | ⟨_, y, hy, hy'⟩
  · simp [hit, hp, h, he]
  · rw [hy] at h
    cases h
    rw [hr] at hy'
    cases hy'

/-- What is not responded for stays. -/
theorem stays {w : World ι} {q : Nat → Queue Nat} {f : Flight ι} (v : Inv w q f) {d j : Nat}
    (h : d ∈ (q j).items) (hs : w.s.ser d = false) : d ∈ (qNext w.s q j).items := by
  rw [items_next _ _ _ (room v j)]
  refine List.mem_append_left _ ?_
  split
  · rename_i hr
    rcases v.ser with ⟨_, hr', _⟩ | ⟨e, k, hs', hr', _, hh, _⟩
    · rw [hr'] at hr; cases hr
    · rw [hr'] at hr
      have hjk : j = k := by simpa using hr
      subst hjk
      cases hq : (q j).items with
      | nil => rw [hq] at h; cases h
      | cons a t =>
        rw [hq] at h hh
        cases hh
        rcases List.mem_cons.1 h with rfl | h
        · rw [hs'] at hs; simp at hs
        · simpa using h
  · exact h

/-- A new head is what has come. -/
theorem head_next {w : World ι} {q : Nat → Queue Nat} {f : Flight ι} (v : Inv w q f) (hr : ∀ j, w.s.rden j = false) {d j : Nat}
    (h : (qNext w.s q j).items.head? = some d) : (q j).items.head? = some d ∨ (w.s.wren j = true ∧ d = w.s.din) := by
  rw [items_next _ _ _ (room v j), hr] at h
  cases hq : (q j).items with
  | nil =>
    rw [hq] at h
    cases hw : w.s.wren j
    · rw [hw] at h; simp at h
    · rw [hw] at h
      right
      simp at h
      exact ⟨rfl, h.symm⟩
  | cons a t =>
    rw [hq] at h
    left
    simpa using h

theorem head_stays {w : World ι} {q : Nat → Queue Nat} {f : Flight ι} (v : Inv w q f) (hr : ∀ j, w.s.rden j = false) {d j : Nat}
    (h : (q j).items.head? = some d) : (qNext w.s q j).items.head? = some d := by
  rw [items_next _ _ _ (room v j), hr]
  cases hq : (q j).items with
  | nil => rw [hq] at h; cases h
  | cons a t => rw [hq] at h; simpa using h

theorem not_in_flight {w : World ι} {q : Nat → Queue Nat} {f : Flight ι} (v : Inv w q f) {j k : Nat} (hw : w.s.wren j = true) :
    w.s.din ∉ (q k).items ∧ w.s.din < 16 ∧ w.s.stage = .done := by
  cases hf : f with
  | none => rw [(v.idle hf).1 j] at hw; cases hw
  | some p =>
    obtain ⟨t, d, x⟩ := p
    obtain ⟨hs, hd, _⟩ := v.done t d x hf
    obtain ⟨_, _, _, h, h', _⟩ := v.held.fly t d x hf
    rw [hd]
    exact ⟨h' k, h, hs⟩

/-- Sixteen FIFOs are enough. -/
theorem some_empty {w : World ι} {q : Nat → Queue Nat} {f : Flight ι} (v : Inv w q f) {d : Nat} (hd : d < 16) (hout : ∀ j, d ∉ (q j).items) :
    ∃ t, lowest (fun k => (w.s.fifo k).empty) = some t := by
  cases h : lowest (fun k => (w.s.fifo k).empty) with
  | some t => exact ⟨t, rfl⟩
  | none =>
    exfalso
    have hne : ∀ k, k < 16 → (q k).items ≠ [] := by
      intro k hk hc
      have := lowest_none h k hk
      rw [(empty_iff v k).2 hc] at this
      cases this
    have hm : ∀ k, k < 16 → (q k).items.headD 0 ∈ (q k).items := by
      intro k hk
      have := hne k hk
      cases hq : (q k).items with
      | nil => exact absurd hq this
      | cons a t => simp
    have hn : ((List.range 16).map fun k => (q k).items.headD 0).Nodup := by
      unfold List.Nodup
      rw [List.pairwise_map]
      refine List.Pairwise.imp_of_mem ?_ (List.nodup_range (n := 16))
      intro a b ha hb hab hc
      exact hab (v.held.disj a b _ (hm a (List.mem_range.1 ha)) (hc ▸ hm b (List.mem_range.1 hb)))
    have hn' : (d :: (List.range 16).map fun k => (q k).items.headD 0).Nodup := by
      refine List.nodup_cons.2 ⟨?_, hn⟩
      intro hc
      obtain ⟨k, hk, hk'⟩ := List.mem_map.1 hc
      exact hout k (hk' ▸ hm k (List.mem_range.1 hk))
    have := List.Nodup.length_le_of_subset hn' (l₂ := List.range 16) (by
      intro a ha
      rcases List.mem_cons.1 ha with rfl | ha
      · exact List.mem_range.2 hd
      · obtain ⟨k, hk, rfl⟩ := List.mem_map.1 ha
        exact List.mem_range.2 (v.held.el k _ (hm k (List.mem_range.1 hk))))
    simp at this

/-- The descriptors responded for. -/
theorem sends_uses {w : World ι} {q : Nat → Queue Nat} {f : Flight ι} (v : Inv w q f) (d : Nat) :
    uses w.sends d = if w.s.ser d then 1 else 0 := by
  rcases v.ser with ⟨hs, hr, _⟩ | ⟨e, j, hs, hr, hsig, hh, _⟩
  · unfold World.sends
    rw [if_neg (by simp [any_iff, hr]), hs]
    rfl
  · have hne : (q j).items ≠ [] := by intro hc; rw [hc] at hh; cases hh
    obtain ⟨x, hx⟩ := v.held.idsome j hne
    have hl := v.held.lab j e x (List.mem_of_mem_head? hh) hx
    unfold World.sends
    rw [if_pos (any_iff.2 ⟨j, v.held.lt j hne, by simp [hr]⟩), hsig]
    unfold lastOf at hl
    rw [hl, hs]
    simp only [Option.toList, uses_one]
    by_cases h : e = d
    · simp [h]
    · simp [h, Ne.symm h]

omit [DecidableEq ι] in
theorem req_next {w : World ι} {i : In ι} {d : Nat} (hs : w.s.ser d = false) (h : w.s.req d = true) : reqNext w.s i d = true := by
  unfold reqNext
  rw [hs]
  simp [h]

theorem inv_next {w : World ι} {q : Nat → Queue Nat} {f : Flight ι} (v : Inv w q f) (c : Clean w) {i : In ι} (p : Polite w i) :
    Inv (w.next i) (qNext w.s q) (flightNext w f) where
  fifo := fun j => RtlFifo.inv_step fc (by decide) rfl (v.fifo j) _
  ff := rfl
  held := held_next v
  idle := by
    intro hf
    show (∀ j, wrenNext w.s j = false) ∧ stageNext w.s i ≠ .done
    cases hst : w.s.stage with
    | done => simp [wrenNext, stageNext, hst]
    | idle =>
      have hfn : f = none := by
        cases h : f with
        | none => rfl
        | some t =>
          obtain ⟨a, b, d⟩ := t
          have := (v.done a b d h).1
          rw [hst] at this; cases this
      refine ⟨?_, ?_⟩
      · simp only [wrenNext, hst]
        exact (v.idle hfn).1
      · simp only [stageNext, hst]
        split <;> simp
    | fill d x =>
      obtain ⟨t, _, h, _⟩ := fill_facts v hst
      rw [h] at hf
      cases hf
  fill := by
    intro d x hs
    have hs : stageNext w.s i = .fill d x := hs
    have hst : w.s.stage = .idle := by
      unfold stageNext at hs
      split at hs
      · assumption
      · cases hs
      · cases hs
    have ha : i.alc = some (d, x) := by
      simp only [stageNext, hst] at hs
      split at hs
      · rename_i e y h
        cases hs
        exact h
      · cases hs
    have hfn : f = none := by
      cases h : f with
      | none => rfl
      | some t =>
        obtain ⟨a, b, e⟩ := t
        have := (v.done a b e h).1
        rw [hst] at this; cases this
    obtain ⟨hd, hu⟩ := p.alc d x ha hst
    have hout : ∀ j, d ∉ (q j).items := by
      intro j hj
      have := v.held.inside j d hj
      omega
    have hw := (v.idle hfn).1
    have hq : ∀ j, (qNext w.s q j).items = popped w.s q j := by
      intro j
      rw [items_next _ _ _ (room v j), hw]
      simp [popped]
    refine ⟨by simp [flightNext, hfn, hst], hd, ?_, ?_⟩
    · intro j hj
      dsimp only at hj
      rw [hq] at hj
      exact hout j (mem_popped hj)
    · show ∃ t, t < 16 ∧ (∀ k, k ≠ t → (qNext w.s q k).items ≠ [] → idsNext w.s k ≠ some x) ∧
        ((idsNext w.s t = some x ∧ ∀ k, matchedNext w.s i k = decide (k = t)) ∨
         ((qNext w.s q t).items = [] ∧ (∀ k, matchedNext w.s i k = false) ∧ ∀ k, newNext w.s i k = decide (k = t)))
      have hids : idsNext w.s = w.s.ids := by simp [idsNext, hst]
      have hm : ∀ k, matchedNext w.s i k = (!(w.s.fifo k).empty && decide (w.s.ids k = some x)) := by
        intro k
        simp [matchedNext, hst, ha]
      have hn : ∀ k, newNext w.s i k = decide (lowest (fun k => (w.s.fifo k).empty) = some k) := by
        intro k
        simp [newNext, hst, ha]
      rw [hids]
      by_cases hex : ∃ t, (q t).items ≠ [] ∧ w.s.ids t = some x
      · obtain ⟨t, ht, hx⟩ := hex
        have hoth : ∀ k, k ≠ t → (q k).items ≠ [] → w.s.ids k ≠ some x := fun k hk h hc =>
          hk (v.held.idne k t h ht (by rw [hc, hx]))
        refine ⟨t, v.held.lt t ht, ?_, .inl ⟨hx, ?_⟩⟩
        · intro k hk h
          rw [hq] at h
          exact hoth k hk (popped_ne h)
        · intro k
          rw [hm]
          by_cases hk : k = t
          · subst hk
            have : (w.s.fifo k).empty = false := by
              cases h : (w.s.fifo k).empty
              · rfl
              · exact absurd ((empty_iff v k).1 h) ht
            simp [this, hx]
          · rw [decide_eq_false hk]
            cases h : (w.s.fifo k).empty
            · have hne : (q k).items ≠ [] := fun hc => by
                rw [(empty_iff v k).2 hc] at h; cases h
              simp [hoth k hk hne]
            · simp
      · have hno : ∀ k, (q k).items ≠ [] → w.s.ids k ≠ some x := fun k h hc => hex ⟨k, h, hc⟩
        obtain ⟨t, ht⟩ := some_empty v hd hout
        obtain ⟨ht1, ht2⟩ := lowest_some ht
        have hqt := (empty_iff v t).1 ht2
        refine ⟨t, ht1, ?_, .inr ⟨?_, ?_, ?_⟩⟩
        · intro k _ h
          rw [hq] at h
          exact hno k (popped_ne h)
        · rw [hq]
          exact Classical.byContradiction fun hc => popped_ne hc hqt
        · intro k
          rw [hm]
          cases h : (w.s.fifo k).empty
          · have hne : (q k).items ≠ [] := fun hc => by
              rw [(empty_iff v k).2 hc] at h; cases h
            simp [hno k hne]
          · simp
        · intro k
          rw [hn, ht]
          simp only [Option.some.injEq]
          by_cases hk : k = t
          · simp [hk]
          · simp [hk, Ne.symm hk]
  done := by
    intro t d x h
    show stageNext w.s i = .done ∧ dinNext w.s = d ∧ ∀ j, wrenNext w.s j = decide (j = t)
    have hfn : f = none := by
      cases hf : f with
      | none => rfl
      | some _ => rw [hf] at h; cases h
    cases hst : w.s.stage with
    | done => exact absurd hst (v.idle hfn).2
    | idle => rw [hfn] at h; simp [flightNext, hst] at h
    | fill e y =>
      obtain ⟨t', _, h', hw, _⟩ := fill_facts v hst
      rw [h'] at h
      cases h
      exact ⟨by simp [stageNext, hst], by simp [dinNext, hst], hw⟩
  pre := by
    intro j hne
    show (RtlFifo.step fc (w.s.fifo j) ⟨w.s.wren j, w.s.rden j, w.s.din⟩).pre = (qNext w.s q j).items.head? ∨
      (w.s.wren j = true ∧ ∃ y, (qNext w.s q j).items = [y] ∧ reqNext w.s i y = false)
    rcases pre_next (v.fifo j) (w.s.wren j) (w.s.rden j) w.s.din hne with h | ⟨hw, h⟩
    · exact .inl h
    · refine .inr ⟨hw, w.s.din, h, ?_⟩
      obtain ⟨_, hlt, hst⟩ := not_in_flight v (k := 0) hw
      have hr : w.s.req w.s.din = false := by
        cases hr : w.s.req w.s.din
        · rfl
        · obtain ⟨k, hk⟩ := v.req _ hlt hr
          exact absurd hk (not_in_flight v hw).1
      unfold reqNext
      split
      · rfl
      · split
        · rename_i h1
          simp only [Bool.and_eq_true, Bool.not_eq_true'] at h1
          exact absurd rfl ((p.init _ hlt h1.1 (v.ff ▸ h1.2)).2.2 hst)
        · exact hr
  req := by
    intro d hd h
    have h : reqNext w.s i d = true := h
    have hs : w.s.ser d = false := by
      cases hs : w.s.ser d
      · rfl
      · simp [reqNext, hs] at h
    suffices ∃ j, d ∈ (q j).items by
      obtain ⟨j, hj⟩ := this
      exact ⟨j, stays v hj hs⟩
    simp only [reqNext, hs, Bool.false_eq_true, if_false] at h
    split at h
    · rename_i h1
      simp only [Bool.and_eq_true, Bool.not_eq_true'] at h1
      obtain ⟨_, hu, hfl⟩ := p.init d hd h1.1 (v.ff ▸ h1.2)
      refine Classical.byContradiction fun hc => ?_
      have := v.held.outside d (fun j hj => hc ⟨j, hj⟩) (by
        intro t x hf
        obtain ⟨a, b, _⟩ := v.done t d x hf
        exact hfl a b)
      omega
    · exact v.req d hd h
  proc := by
    intro d h
    have h : procNext w.s d = true := h
    unfold procNext at h
    split at h
    · cases h
    · split at h
      · cases h
      · rename_i hs _
        exact req_next (by simpa using hs) h
  fail := by
    intro d h
    have h : failNext w.s d = true := h
    unfold failNext at h
    split at h
    · cases h
    · rename_i hs
      have hs : ∀ k, w.s.ser k = false := by
        rcases v.ser with ⟨hs', _⟩ | ⟨e, j, hs', _, _, hh, _⟩
        · exact hs'
        · exact absurd (any_iff.2 ⟨e, v.held.el j e (List.mem_of_mem_head? hh), by simp [hs']⟩) hs
      cases he : lowest w.s.proc with
      | none =>
        rw [he] at h
        exact req_next (hs d) (v.fail d h)
      | some e =>
        rw [he] at h
        simp only [Bool.or_eq_true, Bool.and_eq_true, decide_eq_true_eq] at h
        rcases h with h | ⟨rfl, _⟩
        · exact req_next (hs d) (v.fail d h)
        · exact req_next (hs d) (v.proc d (lowest_some he).2)
  ser := by
    show ((∀ k, serNext w.s k = false) ∧ (∀ j, rdenNext w.s j = false) ∧
        (∀ k, failNext w.s k = true → ∀ j, (qNext w.s q j).items.head? ≠ some k)) ∨
      ∃ d j, (∀ k, serNext w.s k = decide (k = d)) ∧ (∀ k, rdenNext w.s k = decide (k = j)) ∧ sigNext w.s = d ∧
        (qNext w.s q j).items.head? = some d ∧ reqNext w.s i d = true
    rcases v.ser with ⟨hs, hr, hf⟩ | ⟨e, j, hs, _, _, hh, _⟩
    · have ha : any w.s.ser = false := any_false.2 fun k _ => hs k
      have new : ∀ {k j}, w.s.req k = true → (q j).items.head? ≠ some k → k < 16 → (qNext w.s q j).items.head? ≠ some k := by
        intro k j hk hn hlt hc
        rcases head_next v hr hc with h | ⟨h, rfl⟩
        · exact hn h
        · obtain ⟨l, hl⟩ := v.req _ hlt hk
          exact (not_in_flight v h).1 hl
      have lt16 : ∀ {k j}, (qNext w.s q j).items.head? = some k → k < 16 := fun h =>
        (held_next v).el _ _ (List.mem_of_mem_head? h)
      cases hl : lowest w.s.proc with
      | none =>
        left
        simp only [serNext, rdenNext, failNext, ha, hl, Bool.false_eq_true, if_false]
        exact ⟨hs, hr, fun k hk j hc => new (v.fail k hk) (hf k hk j) (lt16 hc) hc⟩
      | some d =>
        obtain ⟨hd, hp⟩ := lowest_some hl
        have hreq := v.proc d hp
        have hsome : ∀ {j}, hit w.s d j = true → j < 16 := by
          intro j h
          have := hit_head v c hl h
          exact v.held.lt j (by intro hc; rw [hc] at this; cases this)
        cases hh : any (hit w.s d) with
        | true =>
          right
          obtain ⟨j, hj, hj'⟩ := any_iff.1 hh
          have hhead := hit_head v c hl hj'
          refine ⟨d, j, ?_, ?_, ?_, head_stays v hr hhead, req_next (hs d) hreq⟩
          · intro k
            simp [serNext, ha, hl, hs, hh]
          · intro k
            simp only [rdenNext, ha, hl, hr, Bool.false_eq_true, if_false, Bool.false_or]
            by_cases hk : k = j
            · subst hk; simp [hj']
            · rw [decide_eq_false hk]
              cases h : hit w.s d k
              · rfl
              · exact absurd (v.held.disj k j d (List.mem_of_mem_head? (hit_head v c hl h)) (List.mem_of_mem_head? hhead)) hk
          · simp [sigNext, ha, hl, hh]
        | false =>
          left
          have hno : ∀ j, hit w.s d j = false := by
            intro j
            cases h : hit w.s d j
            · rfl
            · rw [any_false.1 hh j (hsome h)] at h
              cases h
          refine ⟨?_, ?_, ?_⟩
          · intro k
            simp [serNext, ha, hl, hs, hh]
          · intro j
            simp [rdenNext, ha, hl, hr, hno]
          · intro k hk j hc
            simp only [failNext, ha, hl, Bool.false_eq_true, if_false, Bool.or_eq_true, Bool.and_eq_true, decide_eq_true_eq] at hk
            rcases hk with hk | ⟨rfl, _⟩
            · exact new (v.fail k hk) (hf k hk j) (lt16 hc) hc
            · refine new hreq (fun h => ?_) (lt16 hc) hc
              have := head_hit v hreq h
              rw [hno] at this
              cases this
    · left
      have ha : any w.s.ser = true := any_iff.2 ⟨e, v.held.el j e (List.mem_of_mem_head? hh), by simp [hs]⟩
      simp [serNext, rdenNext, failNext, ha]
  asked := by
    intro d hd
    show (w.asked ++ w.asks i).count d = uses (w.sent ++ w.sends) d + if reqNext w.s i d = true then 1 else 0
    have hcount : (w.asks i).count d = if (i.init d && !w.s.initFf d) = true then 1 else 0 := by
      unfold World.asks
      rw [← v.ff]
      split
      · rename_i h
        rw [List.count_filter (by simpa using h), List.count_range]
        simp [hd]
      · rename_i h
        refine List.count_eq_zero.2 fun hc => h ?_
        simpa using (List.mem_filter.1 hc).2
    rw [List.count_append, uses_append, hcount, sends_uses v, v.asked d hd]
    have hreq : w.s.ser d = true → w.s.req d = true := by
      intro h
      rcases v.ser with ⟨hs, _⟩ | ⟨e, j, hs, _, _, _, hr⟩
      · rw [hs] at h; cases h
      · rw [hs] at h
        have : d = e := by simpa using h
        rw [this]; exact hr
    have hpol : (i.init d && !w.s.initFf d) = true → w.s.req d = false := by
      intro h
      simp only [Bool.and_eq_true, Bool.not_eq_true'] at h
      have h1 := (p.init d hd h.1 (v.ff ▸ h.2)).1
      have h2 := v.asked d hd
      cases hr : w.s.req d
      · rfl
      · rw [hr] at h2; simp at h2; omega
    unfold reqNext
    cases hs : w.s.ser d
    · cases hr : w.s.req d <;> cases hi : (i.init d && !w.s.initFf d) <;> simp
      · rw [hpol hi] at hr; cases hr
    · have hr := hreq hs
      cases hi : (i.init d && !w.s.initFf d)
      · simp [hr]
      · rw [hpol hi] at hr; cases hr

end

end Verif.RtlOrder
