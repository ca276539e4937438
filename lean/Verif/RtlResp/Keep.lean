import Verif.RtlResp.Lemmas

/-! # What is kept from cycle to cycle -/

namespace Verif.RtlResp

open RtlFifo (Queue)

section
variable {ρ : Type}

structure Inv (w : World ρ) (q : Queue Nat) (pend : Nat → Option ρ) : Prop where
  fifo : RtlFifo.Inv fc w.s.order q
  ff : w.s.initFf = w.prev
  ctl : Ctl w.s
  ordered : w.ordered = w.took.map (·.1) ++ chain w.s q
  nodup : (chain w.s q).Nodup
  lt : ∀ d, d ∈ chain w.s q → d < 16
  rden : w.s.rden = true → q.items.head? = some w.s.idx ∧ w.s.req w.s.idx = true ∧ ∀ k, w.s.ser k = decide (k = w.s.idx)
  still : w.s.rden = false → ∀ k, w.s.ser k = false
  pre : w.s.order.preValid = true → q.items ≠ [] ∧ (w.s.order.pre = q.items.head? ∨ ∃ y, q.items = [y])
  req : ∀ d, w.s.req d = true → d ∈ q.items
  asked : ∀ d, ofDesc d w.asked = ofDesc d w.took ++ (pend d).toList.map fun r => (d, r)
  pfront : ∀ d, d ∈ front w.s → (pend d).isSome = true
  pq : ∀ d, d ∈ q.items → (pend d).isSome = w.s.req d
  pout : ∀ d, d ∉ chain w.s q → pend d = none
  pay : ∀ d r, (d, r) ∈ (shown w.s).toList ++ w.s.b.items → pend d = some r

theorem inv_start : Inv (World.start : World ρ) ⟨[], none⟩ (fun _ => none) where
  fifo := RtlFifo.inv_reset fc
  ff := rfl
  ctl := ctl_reset
  ordered := rfl
  nodup := List.nodup_nil
  lt := by intro d h; cases h
  rden := by intro h; cases h
  still := fun _ _ => rfl
  pre := by intro h; cases h
  req := by intro d h; cases h
  asked := by intro d; rfl
  pfront := by intro d h; cases h
  pq := by intro d h; cases h
  pout := fun _ _ => rfl
  pay := by intro d r h; cases h

def qNext (s : Regs ρ) (i : In ρ) (q : Queue Nat) : Queue Nat := q.next 16 ⟨push s i, s.rden, i.order.getD 0⟩

/-- The descriptor is answered in this cycle. -/
def rises (w : World ρ) (i : In ρ) (d : Nat) : Bool := i.init d && !w.prev d

def pendNext (w : World ρ) (i : In ρ) (pend : Nat → Option ρ) : Nat → Option ρ := fun d =>
  if rises w i d then some (i.resp d) else if d ∈ (w.takes i).map (·.1) then none else pend d

theorem chain_len {w : World ρ} {q : Queue Nat} {pend : Nat → Option ρ} (v : Inv w q pend) : (chain w.s q).length ≤ 16 := by
  have := List.Nodup.length_le_of_subset v.nodup (l₂ := List.range 16) fun a ha => List.mem_range.2 (v.lt a ha)
  simpa using this

theorem chain_parts (s : Regs ρ) (q : Queue Nat) :
    (chain s q).length = (shown s).toList.length + s.b.items.length + (mid s).length + s.x.items.length + (xw s).length + q.items.length := by
  simp only [chain, front, List.length_append, List.length_map]

theorem room_b {w : World ρ} {q : Queue Nat} {pend : Nat → Option ρ} (v : Inv w q pend) (h : w.s.bWren = true) : w.s.b.items.length < 16 := by
  have h1 := chain_len v
  rw [chain_parts] at h1
  obtain ⟨d, hd⟩ := v.ctl.bWren h
  have : (mid w.s).length = 1 := by simp [mid, h, hd]
  omega

theorem room_x {w : World ρ} {q : Queue Nat} {pend : Nat → Option ρ} (v : Inv w q pend) (h : w.s.xWren = true) : w.s.x.items.length < 16 := by
  have h1 := chain_len v
  rw [chain_parts] at h1
  have : (xw w.s).length = 1 := by simp [xw, h]
  omega

theorem midE_map {s : Regs ρ} (i : In ρ) : (midE s i).map (·.1) = mid s := by
  unfold midE mid bDin
  cases s.bWren
  · rfl
  · cases s.x.last <;> rfl

/-- What happens to the front. -/
theorem front_step {w : World ρ} {q : Queue Nat} {pend : Nat → Option ρ} (v : Inv w q pend) (i : In ρ) :
    (w.takes i).map (·.1) ++ front (step w.s i) = front w.s ++ if w.s.rden then [w.s.idx] else [] := by
  have hb := b_step v.ctl (room_b v) i
  have hx := x_step v.ctl (room_x v) i
  have h3 : xw (step w.s i) = if w.s.rden then [w.s.idx] else [] := rfl
  have hb' := congrArg (List.map (·.1)) hb
  rw [List.map_append, List.map_append (l₂ := midE w.s i), midE_map] at hb'
  unfold front
  have e : (w.takes i).map (·.1) ++ ((((shown (step w.s i)).toList ++ (step w.s i).b.items).map (·.1)) ++ mid (step w.s i) ++ (step w.s i).x.items ++ xw (step w.s i)) =
      ((w.takes i).map (·.1) ++ (((shown (step w.s i)).toList ++ (step w.s i).b.items).map (·.1))) ++ (mid (step w.s i) ++ (step w.s i).x.items) ++ xw (step w.s i) := by
    simp only [List.append_assoc]
  rw [e, hx, h3]
  unfold World.takes
  rw [hb']
  simp only [List.append_assoc]

theorem q_step {w : World ρ} {q : Queue Nat} {pend : Nat → Option ρ} (v : Inv w q pend) {i : In ρ} (p : Polite w i) :
    (if w.s.rden then [w.s.idx] else []) ++ (qNext w.s i q).items = q.items ++ i.order.toList := by
  have hpush : (if (push w.s i && decide (q.items.length < 16)) = true then [i.order.getD 0] else []) = i.order.toList := by
    cases ho : i.order with
    | none => simp [push, ho]
    | some d =>
      have hf := (p.order d ho).2.2
      have hl : q.items.length < 16 := by
        have := v.fifo.cnt
        simp only [free, decide_eq_true_eq] at hf
        omega
      simp [push, ho, hf, hl]
  unfold qNext Queue.next
  dsimp only
  rw [hpush]
  cases hr : w.s.rden
  · simp
  · have := (v.rden hr).1
    cases hq : q.items with
    | nil => rw [hq] at this; cases this
    | cons a t =>
      rw [hq] at this
      cases this
      simp

theorem chain_step {w : World ρ} {q : Queue Nat} {pend : Nat → Option ρ} (v : Inv w q pend) {i : In ρ} (p : Polite w i) :
    (w.takes i).map (·.1) ++ chain (step w.s i) (qNext w.s i q) = chain w.s q ++ i.order.toList := by
  unfold chain
  rw [← List.append_assoc, front_step v i, List.append_assoc, q_step v p, List.append_assoc]

/-- A descriptor is in the chain if it was written once more than responded for. -/
theorem mem_chain {w : World ρ} {q : Queue Nat} {pend : Nat → Option ρ} (v : Inv w q pend) (d : Nat) :
    w.ordered.count d = (ofDesc d w.took).length + (chain w.s q).count d := by
  rw [v.ordered, List.count_append, count_ofDesc]

theorem whole_nodup {w : World ρ} {q : Queue Nat} {pend : Nat → Option ρ} (v : Inv w q pend) {i : In ρ} (p : Polite w i) :
    ((w.takes i).map (·.1) ++ chain (step w.s i) (qNext w.s i q)).Nodup := by
  rw [chain_step v p, List.nodup_append]
  refine ⟨v.nodup, ?_, ?_⟩
  · cases i.order <;> simp
  · intro a ha b hb
    rintro rfl
    cases ho : i.order with
    | none => rw [ho] at hb; cases hb
    | some d =>
      rw [ho] at hb
      have hd : a = d := by simpa using hb
      subst hd
      have := (p.order a ho).2.1
      have h2 := mem_chain v a
      have h3 := List.count_pos_iff.2 ha
      omega

theorem rises_facts {w : World ρ} {q : Queue Nat} {pend : Nat → Option ρ} (v : Inv w q pend) {i : In ρ} (p : Polite w i) {d : Nat}
    (h : rises w i d = true) : d ∈ q.items ∧ pend d = none ∧ w.s.req d = false ∧ d < 16 ∧ d ∉ (w.takes i).map (·.1) := by
  simp only [rises, Bool.and_eq_true, Bool.not_eq_true'] at h
  obtain ⟨h1, h2⟩ := p.init d h.1 h.2
  have hp : pend d = none := by
    have := v.asked d
    cases hp : pend d with
    | none => rfl
    | some r =>
      rw [hp] at this
      have := congrArg List.length this
      simp at this
      omega
  have hm := mem_chain v d
  have hc : d ∈ chain w.s q := List.count_pos_iff.1 (by omega)
  have hnf : d ∉ front w.s := by
    intro hf
    have := v.pfront d hf
    rw [hp] at this
    cases this
  have hq : d ∈ q.items := by
    rcases List.mem_append.1 hc with h | h
    · exact absurd h hnf
    · exact h
  refine ⟨hq, hp, ?_, v.lt d hc, ?_⟩
  · rw [← v.pq d hq, hp]; rfl
  · intro ht
    refine hnf ?_
    unfold front
    refine List.mem_append_left _ (List.mem_append_left _ (List.mem_append_left _ ?_))
    rw [List.map_append]
    refine List.mem_append_left _ ?_
    unfold World.takes at ht
    split at ht
    · exact ht
    · cases ht

theorem ser_iff {w : World ρ} {q : Queue Nat} {pend : Nat → Option ρ} (v : Inv w q pend) (k : Nat) :
    w.s.ser k = true ↔ w.s.rden = true ∧ k = w.s.idx := by
  cases hr : w.s.rden
  · rw [v.still hr]; simp
  · rw [(v.rden hr).2.2]; simp

/-- What is not popped stays. -/
theorem q_stays {w : World ρ} {q : Queue Nat} {pend : Nat → Option ρ} (v : Inv w q pend) {i : In ρ} (p : Polite w i) {d : Nat}
    (h : d ∈ q.items) (hs : w.s.ser d = false) : d ∈ (qNext w.s i q).items := by
  have : d ∈ (if w.s.rden then [w.s.idx] else []) ++ (qNext w.s i q).items := by
    rw [q_step v p]; exact List.mem_append_left _ h
  rcases List.mem_append.1 this with h | h
  · exfalso
    cases hr : w.s.rden
    · rw [hr] at h; cases h
    · rw [hr] at h
      have : d = w.s.idx := by simpa using h
      rw [(ser_iff v d).2 ⟨hr, this⟩] at hs
      cases hs
  · exact h

theorem takes_pend {w : World ρ} {q : Queue Nat} {pend : Nat → Option ρ} (v : Inv w q pend) (i : In ρ) {d : Nat} {r : ρ}
    (h : (d, r) ∈ w.takes i) : pend d = some r := by
  refine v.pay d r (List.mem_append_left _ ?_)
  unfold World.takes at h
  split at h
  · exact h
  · cases h

theorem serve_head {w : World ρ} {q : Queue Nat} {pend : Nat → Option ρ} (v : Inv w q pend) {d : Nat} (h : serve w.s = some d) :
    q.items.head? = some d ∧ w.s.req d = true := by
  unfold serve at h
  split at h
  · rename_i hv
    split at h
    · rename_i e he
      split at h
      · rename_i hr
        cases h
        refine ⟨?_, hr⟩
        obtain ⟨_, h' | ⟨y, hy⟩⟩ := v.pre hv
        · rw [← h', he]
        · have := v.req d hr
          rw [hy] at this ⊢
          rw [List.mem_singleton.1 this]
          rfl
      · cases h
    · cases h
  · cases h

theorem inv_next {w : World ρ} {q : Queue Nat} {pend : Nat → Option ρ} (v : Inv w q pend) {i : In ρ} (p : Polite w i) :
    Inv (w.next i) (qNext w.s i q) (pendNext w i pend) := by
  have hc := chain_step v p
  have hn := whole_nodup v p
  have hn2 := (List.nodup_append.1 hn)
  have notTaken : ∀ {d}, d ∈ chain (step w.s i) (qNext w.s i q) → d ∉ (w.takes i).map (·.1) := by
    intro d hd ht
    exact hn2.2.2 d ht d hd rfl
  have hf := front_step v i
  have hq := q_step v p
  have fromFront : ∀ {d}, d ∈ front (step w.s i) → d ∈ front w.s ∨ (w.s.rden = true ∧ d = w.s.idx) := by
    intro d hd
    have : d ∈ front w.s ++ if w.s.rden then [w.s.idx] else [] := by
      rw [← hf]; exact List.mem_append_right _ hd
    rcases List.mem_append.1 this with h | h
    · exact .inl h
    · cases hr : w.s.rden
      · rw [hr] at h; cases h
      · rw [hr] at h; exact .inr ⟨rfl, by simpa using h⟩
  have serOut : ∀ {d}, d ∈ (qNext w.s i q).items → w.s.ser d = false := by
    intro d hd
    cases hs : w.s.ser d
    · rfl
    · exfalso
      obtain ⟨hr, rfl⟩ := (ser_iff v d).1 hs
      have h2 := (List.nodup_append.1 (v.nodup)).2.1
      have h3 : (q.items ++ i.order.toList).Nodup := by
        have := hn
        rw [hc] at this
        unfold chain at this
        rw [List.append_assoc] at this
        exact (List.nodup_append.1 this).2.1
      rw [← hq, hr] at h3
      exact (List.nodup_append.1 h3).2.2 _ (by simp) _ hd rfl
  refine ⟨RtlFifo.inv_step fc (by decide) rfl v.fifo _, rfl, ctl_step v.ctl (room_b v) i, ?_, hn2.2.1, ?_, ?_, ?_, ?_, ?_, ?_, ?_, ?_, ?_, ?_⟩
  · show w.ordered ++ i.order.toList = (w.took ++ w.takes i).map (·.1) ++ chain (step w.s i) (qNext w.s i q)
    rw [List.map_append, List.append_assoc, hc, v.ordered, List.append_assoc]
  · intro d hd
    have : d ∈ chain w.s q ++ i.order.toList := by
      rw [← hc]; exact List.mem_append_right _ hd
    rcases List.mem_append.1 this with h | h
    · exact v.lt d h
    · cases ho : i.order with
      | none => rw [ho] at h; cases h
      | some e =>
        rw [ho] at h
        have : d = e := by simpa using h
        rw [this]
        exact (p.order e ho).1
  · intro hr
    have hr : rdenNext w.s = true := hr
    have hr0 : w.s.rden = false := by
      cases h : w.s.rden
      · rfl
      · simp [rdenNext, h] at hr
    cases hs : serve w.s with
    | none => simp [rdenNext, hr0, hs] at hr
    | some d =>
      obtain ⟨h1, h2⟩ := serve_head v hs
      show (qNext w.s i q).items.head? = some (idxNext w.s) ∧ reqNext w.s i (idxNext w.s) = true ∧ ∀ k, serNext w.s k = decide (k = idxNext w.s)
      have e1 : idxNext w.s = d := by simp [idxNext, hr0, hs]
      rw [e1]
      refine ⟨?_, ?_, ?_⟩
      · rw [hr0] at hq
        simp only [Bool.false_eq_true, if_false, List.nil_append] at hq
        rw [hq]
        cases hqi : q.items with
        | nil => rw [hqi] at h1; cases h1
        | cons a t => rw [hqi] at h1; exact h1
      · simp [reqNext, v.still hr0, h2]
      · intro k
        simp [serNext, hr0, hs]
  · intro hr k
    have hr : rdenNext w.s = false := hr
    show serNext w.s k = false
    cases hr0 : w.s.rden
    · cases hs : serve w.s with
      | none => simp [serNext, hr0, hs, v.still hr0]
      | some d => simp [rdenNext, hr0, hs] at hr
    · simp [serNext, hr0]
  · intro hv
    have hv : (RtlFifo.step fc w.s.order ⟨push w.s i, w.s.rden, i.order.getD 0⟩).preValid = true := hv
    rw [valid_next v.fifo] at hv
    simp only [Bool.and_eq_true, Bool.not_eq_true', List.isEmpty_eq_false_iff] at hv
    refine ⟨hv.2, ?_⟩
    rcases pre_next v.fifo (push w.s i) w.s.rden (i.order.getD 0) hv.2 with h | ⟨_, h⟩
    · exact .inl h
    · exact .inr ⟨_, h⟩
  · intro d hr
    have hr : reqNext w.s i d = true := hr
    have hs : w.s.ser d = false := by
      cases h : w.s.ser d
      · rfl
      · simp [reqNext, h] at hr
    refine q_stays v p ?_ hs
    cases hri : rises w i d
    · simp only [rises, ← v.ff] at hri
      simp [reqNext, hs, hri] at hr
      exact v.req d hr
    · exact (rises_facts v p hri).1
  · intro d
    show ofDesc d (w.asked ++ w.asks i) = ofDesc d (w.took ++ w.takes i) ++ (pendNext w i pend d).toList.map fun r => (d, r)
    rw [ofDesc_append, ofDesc_append]
    have ha : ofDesc d (w.asks i) = if rises w i d = true ∧ d < 16 then [(d, i.resp d)] else [] := by
      have hfil : ofDesc d (w.asks i) = (((List.range 16).filter fun k => rises w i k).filter fun k => decide (k = d)).map fun k => (k, i.resp k) := by
        unfold ofDesc World.asks
        rw [List.filter_map]
        rfl
      rw [hfil, List.filter_filter]
      by_cases h : rises w i d = true ∧ d < 16
      · rw [if_pos h]
        have : (List.range 16).filter (fun k => decide (k = d) && rises w i k) = [d] := by
          have h1 : (List.range 16).filter (fun k => decide (k = d) && rises w i k) = (List.range 16).filter (fun k => k == d) := by
            refine List.filter_congr fun a _ => ?_
            by_cases had : a = d
            · subst had; simp [h.1]
            · simp [had]
          rw [h1, List.filter_beq, List.count_range]
          simp [h.2]
        rw [this]
        rfl
      · rw [if_neg h]
        have : (List.range 16).filter (fun k => decide (k = d) && rises w i k) = [] := by
          refine List.filter_eq_nil_iff.2 fun a ha hc => h ?_
          simp only [Bool.and_eq_true, decide_eq_true_eq] at hc
          exact ⟨hc.1 ▸ hc.2, hc.1 ▸ List.mem_range.1 ha⟩
        rw [this]
        rfl
    have ht : ofDesc d (w.takes i) = if d ∈ (w.takes i).map (·.1) then (pend d).toList.map fun r => (d, r) else [] := by
      have hone : w.takes i = [] ∨ ∃ e, w.takes i = [e] := by
        unfold World.takes
        split
        · cases shown w.s with
          | none => exact .inl rfl
          | some e => exact .inr ⟨e, rfl⟩
        · exact .inl rfl
      rcases hone with h | ⟨⟨e, r⟩, h⟩
      · rw [h]; rfl
      · have hp := takes_pend v i (d := e) (r := r) (by rw [h]; simp)
        rw [h, ofDesc_one]
        by_cases hed : e = d
        · subst hed
          simp [hp]
        · simp [hed, Ne.symm hed]
    rw [ha, ht, v.asked d]
    unfold pendNext
    cases hri : rises w i d
    · simp only [Bool.false_eq_true, false_and, if_false, List.append_nil]
      split
      · simp
      · simp
    · obtain ⟨_, h2, _, h4, h5⟩ := rises_facts v p hri
      simp [h2, h4, h5]
  · intro d hd
    show (pendNext w i pend d).isSome = true
    have hnt := notTaken (d := d) (List.mem_append_left _ hd)
    unfold pendNext
    rw [if_neg hnt]
    split
    · rfl
    · rcases fromFront hd with h | ⟨h, rfl⟩
      · exact v.pfront d h
      · obtain ⟨h1, h2, _⟩ := v.rden h
        rw [v.pq _ (List.mem_of_mem_head? h1), h2]
  · intro d hd
    show (pendNext w i pend d).isSome = reqNext w.s i d
    have hnt := notTaken (d := d) (List.mem_append_right _ hd)
    have hs := serOut hd
    unfold pendNext reqNext
    rw [if_neg hnt, hs]
    cases hri : rises w i d
    · have hri' : (i.init d && !w.s.initFf d) = false := by rw [v.ff]; exact hri
      rw [hri']
      simp only [Bool.false_eq_true, if_false]
      have : d ∈ q.items ++ i.order.toList := by
        rw [← hq]; exact List.mem_append_right _ hd
      rcases List.mem_append.1 this with h | h
      · exact v.pq d h
      · have hout : d ∉ chain w.s q := by
          have h3 := hn
          rw [hc] at h3
          intro hin
          exact (List.nodup_append.1 h3).2.2 d hin d h rfl
        rw [v.pout d hout]
        cases hr : w.s.req d
        · rfl
        · exact absurd (List.mem_append_right _ (v.req d hr)) hout
    · have hri' : (i.init d && !w.s.initFf d) = true := by rw [v.ff]; exact hri
      rw [hri']
      simp
  · intro d hd
    show pendNext w i pend d = none
    have hd : d ∉ chain (step w.s i) (qNext w.s i q) := hd
    unfold pendNext
    have hri : rises w i d = false := by
      cases h : rises w i d
      · rfl
      · obtain ⟨h1, _, h3, _, _⟩ := rises_facts v p h
        exfalso
        refine hd (List.mem_append_right _ (q_stays v p h1 ?_))
        cases hs : w.s.ser d
        · rfl
        · obtain ⟨hr, rfl⟩ := (ser_iff v d).1 hs
          rw [(v.rden hr).2.1] at h3
          cases h3
    rw [hri]
    simp only [Bool.false_eq_true, if_false]
    split
    · rfl
    · rename_i hnt
      refine v.pout d fun hin => ?_
      have : d ∈ (w.takes i).map (·.1) ++ chain (step w.s i) (qNext w.s i q) := by
        rw [hc]; exact List.mem_append_left _ hin
      rcases List.mem_append.1 this with h | h
      · exact hnt h
      · exact hd h
  · intro d r hd
    show pendNext w i pend d = some r
    have hd : (d, r) ∈ (shown (step w.s i)).toList ++ (step w.s i).b.items := hd
    have hfr : d ∈ front (step w.s i) := by
      unfold front
      exact List.mem_append_left _ (List.mem_append_left _ (List.mem_append_left _ (List.mem_map.2 ⟨_, hd, rfl⟩)))
    have hnt := notTaken (d := d) (List.mem_append_left _ hfr)
    have hb := b_step v.ctl (room_b v) i
    have hin : (d, r) ∈ (shown w.s).toList ++ w.s.b.items ++ midE w.s i := by
      rw [← hb]; exact List.mem_append_right _ hd
    have hpd : pend d = some r := by
      rcases List.mem_append.1 hin with h | h
      · exact v.pay d r h
      · unfold midE at h
        split at h
        · rename_i hbw
          obtain ⟨e, he⟩ := v.ctl.bWren hbw
          unfold bDin at h
          rw [he] at h
          simp only [Option.map_some, Option.toList, List.mem_singleton, Prod.mk.injEq] at h
          obtain ⟨rfl, rfl⟩ := h
          have hm : d ∈ front w.s := by
            unfold front
            refine List.mem_append_left _ (List.mem_append_left _ (List.mem_append_right _ ?_))
            simp [mid, hbw, he]
          cases hp : pend d with
          | none => have := v.pfront d hm; rw [hp] at this; cases this
          | some r0 =>
            have := v.asked d
            rw [hp] at this
            rw [p.resp d r0 this]
        · cases h
    have hri : rises w i d = false := by
      cases h : rises w i d
      · rfl
      · rw [(rises_facts v p h).2.1] at hpd
        cases hpd
    unfold pendNext
    rw [hri, if_neg hnt]
    simpa using hpd

end

end Verif.RtlResp
