import Verif.RtlResp.Keep

/-! # Responses go out in the order software says -/

namespace Verif.RtlResp

open RtlFifo (Queue)

section
variable {ρ : Type}

theorem inv_run (ins : List (In ρ)) : ∀ {w : World ρ} {q : Queue Nat} {pend : Nat → Option ρ}, Inv w q pend → AllPolite w ins →
    ∃ q' pend', Inv (w.run ins) q' pend' := by
  induction ins with
  | nil => intro w q pend v _; exact ⟨q, pend, v⟩
  | cons i t ih => intro w q pend v p; exact ih (inv_next v p.1) p.2

/-- **The responses taken are the first descriptors of the order, in that
order.** -/
theorem in_order (ins : List (In ρ)) (p : AllPolite World.start ins) :
    (World.start.run ins).took.map (·.1) <+: (World.start.run ins).ordered := by
  obtain ⟨q, pend, v⟩ := inv_run ins inv_start p
  rw [v.ordered]
  exact List.prefix_append _ _

/-- **Each response taken is the answer software gave, after it was given, and
each answer is used once.** -/
theorem own_answer (ins : List (In ρ)) (p : AllPolite World.start ins) (d : Nat) :
    ofDesc d (World.start.run ins).took <+: ofDesc d (World.start.run ins).asked := by
  obtain ⟨q, pend, v⟩ := inv_run ins inv_start p
  rw [v.asked]
  exact List.prefix_append _ _

/-- **A response stays as it is until it is taken.** -/
theorem held_until_taken (ins : List (In ρ)) (i : In ρ) (p : AllPolite World.start ins) (e : Nat × ρ)
    (h : shown (World.start.run ins).s = some e) (hb : i.bready = false) : shown ((World.start.run ins).next i).s = some e := by
  obtain ⟨q, pend, v⟩ := inv_run ins inv_start p
  generalize World.start.run ins = w at v h
  have hv : w.s.bvalid = true := by
    unfold shown at h
    split at h
    · assumption
    · cases h
  have hst : w.s.st = .wait := by
    have := v.ctl.bvalid
    rw [hv] at this
    simpa using this.symm
  have hr : w.s.bRden = false := by rw [v.ctl.bRden, hst]; rfl
  show (if bvalidNext w.s i then (bNext w.s i).last else none) = some e
  rw [(b_next v.ctl (room_b v) i).2]
  unfold shown at h
  rw [hv] at h
  simp only [if_true] at h
  simp [bvalidNext, hv, hb, hr, h]

/-- **A descriptor is done in the cycle after its response is taken, and in no
other.** -/
theorem done_when_taken (ins : List (In ρ)) (i : In ρ) (d : Nat) :
    ((World.start.run ins).next i).s.done d = true ↔ d ∈ ((World.start.run ins).takes i).map (·.1) := by
  generalize World.start.run ins = w
  show (i.bready && (match shown w.s with
      | some e => decide (e.1 = d)
      | none => false)) = true ↔ _
  unfold World.takes
  cases i.bready
  · simp
  · cases shown w.s with
    | none => simp
    | some e => simp [eq_comm]

/-- **There is a free place as long as fewer than 16 descriptors, with those of
reads, are in the order and have no response taken.** -/
theorem free_when_few (ins : List (In ρ)) (i : In ρ) (p : AllPolite World.start ins)
    (h : i.reads + (World.start.run ins).ordered.length < 16 + (World.start.run ins).took.length) : free (World.start.run ins).s i = true := by
  obtain ⟨q, pend, v⟩ := inv_run ins inv_start p
  generalize World.start.run ins = w at v h
  rw [v.ordered, List.length_append, List.length_map, chain, List.length_append] at h
  have := v.fifo.cnt
  simp only [free, decide_eq_true_eq]
  omega

/-! ## Nothing waits for ever -/

def bit (b : Bool) : Nat := if b then 1 else 0

def weight (s : Regs ρ) (q : Queue Nat) : Nat :=
  (shown s).toList.length + 2 * s.b.items.length + 3 * (mid s).length + 4 * s.x.items.length + 5 * (xw s).length + 6 * q.items.length

def search (s : Regs ρ) (q : Queue Nat) : Nat :=
  if s.rden then 0 else if s.order.preValid && decide (s.order.pre = q.items.head?) then 1 else 2

def moves (s : Regs ρ) : Nat := bit (decide (s.st ≠ .idle)) + bit s.bWren + bit s.xRden + bit s.xWren + bit s.rden

def rank (s : Regs ρ) (q : Queue Nat) : Nat := 5 * weight s q + search s q + bit (!s.xRden) + bit (decide (s.st = .idle))

theorem bit_le (b : Bool) : bit b ≤ 1 := by cases b <;> decide

theorem search_le (s : Regs ρ) (q : Queue Nat) : search s q ≤ 2 := by
  unfold search
  split
  · omega
  · split <;> omega

theorem mid_len {s : Regs ρ} (c : Ctl s) : (mid s).length = bit s.bWren := by
  unfold mid bit
  cases hb : s.bWren
  · rfl
  · obtain ⟨d, hd⟩ := c.bWren hb
    simp [hd]

theorem xw_len (s : Regs ρ) : (xw s).length = bit s.xWren := by
  unfold xw bit
  cases s.xWren <;> rfl

theorem weight_step {w : World ρ} {q : Queue Nat} {pend : Nat → Option ρ} (v : Inv w q pend) {i : In ρ} (p : Polite w i) (hi : i.quiet) :
    weight (step w.s i) (qNext w.s i q) + moves w.s = weight w.s q := by
  have hb := congrArg List.length (b_step v.ctl (room_b v) i)
  have hx := congrArg List.length (x_step v.ctl (room_x v) i)
  have hq := congrArg List.length (q_step v p)
  have hc' := ctl_step v.ctl (room_b v) i
  rw [hi.1] at hq
  rw [if_pos hi.2.2] at hb
  have hmE : (midE w.s i).length = (mid w.s).length := by rw [← midE_map i, List.length_map]
  have h1 : (xw (step w.s i)).length = bit w.s.rden := xw_len _
  have h2 : (mid (step w.s i)).length = bit w.s.xRden := mid_len hc'
  have h3 := mid_len v.ctl
  have h4 := xw_len w.s
  have h5 : ((if w.s.rden then [w.s.idx] else []) : List Nat).length = bit w.s.rden := by cases w.s.rden <;> rfl
  have hsh : (shown (step w.s i)).toList.length = bit (decide (w.s.st = .strt)) ∧
      (shown w.s).toList.length = bit (decide (w.s.st = .wait)) := by
    have e : ∀ {s : Regs ρ}, Ctl s → (shown s).toList.length = bit (decide (s.st = .wait)) := by
      intro s c
      unfold shown
      rw [c.bvalid]
      cases hst : s.st
      · rfl
      · rfl
      · obtain ⟨e, he⟩ := c.wait hst
        simp [he, bit]
    refine ⟨?_, e v.ctl⟩
    rw [e hc']
    show bit (decide (stNext w.s i = .wait)) = _
    unfold stNext
    have hv := v.ctl.bvalid
    cases hst : w.s.st <;> rw [hst] at hv <;> dsimp only
    · cases w.s.b.items.isEmpty <;> rfl
    · rfl
    · rw [hv, hi.2.2]
      cases w.s.b.items.isEmpty <;> rfl
  have hst : bit (decide (w.s.st ≠ .idle)) = bit (decide (w.s.st = .strt)) + bit (decide (w.s.st = .wait)) := by
    cases w.s.st <;> rfl
  simp only [List.length_append, Option.toList, List.length_nil] at hb hx hq
  unfold weight moves
  have e1 := hsh.1
  have e2 := hsh.2
  simp only [Option.toList] at e1 e2 ⊢
  rw [h5] at hq
  rw [hmE] at hb
  omega

/-- The early output of the order finds the oldest entry. -/
theorem search_step {w : World ρ} {q : Queue Nat} {pend : Nat → Option ρ} (v : Inv w q pend) {i : In ρ} (p : Polite w i) (hi : i.quiet)
    (hr : w.s.rden = false) : search (step w.s i) (qNext w.s i q) ≤ search w.s q ∧
    (∀ d, q.items.head? = some d → w.s.req d = true → search (step w.s i) (qNext w.s i q) < search w.s q) := by
  have hq := q_step v p
  rw [hr, hi.1] at hq
  simp only [Bool.false_eq_true, if_false, List.nil_append, Option.toList, List.append_nil] at hq
  have hpush : push w.s i = false := by simp [push, hi.1]
  have next1 : q.items ≠ [] → search (step w.s i) (qNext w.s i q) ≤ 1 := by
    intro hne
    have hv : (step w.s i).order.preValid = true := by
      show (RtlFifo.step fc w.s.order ⟨push w.s i, w.s.rden, i.order.getD 0⟩).preValid = true
      rw [valid_next v.fifo]
      show (!q.items.isEmpty && !(qNext w.s i q).items.isEmpty) = true
      rw [hq]
      simp [hne]
    have hp : (step w.s i).order.pre = (qNext w.s i q).items.head? := by
      have hne' : (q.next 16 ⟨push w.s i, w.s.rden, i.order.getD 0⟩).items ≠ [] := by
        have : (qNext w.s i q).items ≠ [] := by rw [hq]; exact hne
        exact this
      rcases pre_next v.fifo (push w.s i) w.s.rden (i.order.getD 0) hne' with h | ⟨h, _⟩
      · exact h
      · rw [hpush] at h; cases h
    unfold search
    rw [hv, hp]
    split <;> simp
  refine ⟨?_, ?_⟩
  · by_cases h : w.s.order.preValid = true ∧ w.s.order.pre = q.items.head?
    · have h1 : search w.s q = 1 := by
        unfold search
        rw [hr, h.1, h.2]
        simp
      rw [h1]
      exact next1 (v.pre h.1).1
    · have h1 : search w.s q = 2 := by
        unfold search
        rw [hr]
        simp only [Bool.false_eq_true, if_false, Bool.and_eq_true, decide_eq_true_eq]
        rw [if_neg h]
      rw [h1]
      exact search_le _ _
  · intro d hd hreq
    have hne : q.items ≠ [] := by intro hc; rw [hc] at hd; cases hd
    by_cases h : w.s.order.preValid = true ∧ w.s.order.pre = q.items.head?
    · have hs : serve w.s = some d := by
        unfold serve
        rw [h.1, h.2, hd]
        simp [hreq]
      have h1 : search w.s q = 1 := by
        unfold search
        rw [hr, h.1, h.2]
        simp
      have h2 : search (step w.s i) (qNext w.s i q) = 0 := by
        have : (step w.s i).rden = true := by
          show rdenNext w.s = true
          simp [rdenNext, hr, hs]
        simp [search, this]
      omega
    · have h1 : search w.s q = 2 := by
        unfold search
        rw [hr]
        simp only [Bool.false_eq_true, if_false, Bool.and_eq_true, decide_eq_true_eq]
        rw [if_neg h]
      have := next1 hne
      omega

/-- Nothing is under way, and the oldest of the order is not answered. -/
structure Settled (s : Regs ρ) (q : Queue Nat) : Prop where
  still : moves s = 0
  b : s.b.items = []
  x : s.x.items = []
  head : ∀ d, q.items.head? = some d → s.req d = false

theorem moves_zero {s : Regs ρ} (h : moves s = 0) :
    s.st = .idle ∧ s.bWren = false ∧ s.xRden = false ∧ s.xWren = false ∧ s.rden = false := by
  unfold moves bit at h
  cases h1 : s.bWren <;> cases h2 : s.xRden <;> cases h3 : s.xWren <;> cases h4 : s.rden <;> cases h5 : s.st <;>
    simp [h1, h2, h3, h4, h5] at h <;> exact ⟨rfl, rfl, rfl, rfl, rfl⟩

theorem req_quiet {s : Regs ρ} {i : In ρ} (hi : i.quiet) (d : Nat) : reqNext s i d = (!s.ser d && s.req d) := by
  unfold reqNext
  rw [hi.2.1]
  cases s.ser d <;> simp

theorem rank_lt {w : World ρ} {q : Queue Nat} {pend : Nat → Option ρ} (v : Inv w q pend) {i : In ρ} (p : Polite w i) (hi : i.quiet)
    (hS : ¬ Settled w.s q) : rank (step w.s i) (qNext w.s i q) < rank w.s q := by
  have hw := weight_step v p hi
  have h1 := search_le (step w.s i) (qNext w.s i q)
  have h2 := bit_le (!(step w.s i).xRden)
  have h3 := bit_le (decide ((step w.s i).st = .idle))
  by_cases hm : moves w.s = 0
  · obtain ⟨m1, m2, m3, m4, m5⟩ := moves_zero hm
    obtain ⟨s1, s2⟩ := search_step v p hi m5
    have hx : (step w.s i).xRden = !w.s.x.items.isEmpty := by
      show (if w.s.xRden then false else !w.s.x.items.isEmpty) = _
      rw [m3]; rfl
    have hst : (step w.s i).st = if w.s.b.items.isEmpty then .idle else .strt := by
      show stNext w.s i = _
      simp [stNext, m1]
    have a1 : bit (!w.s.xRden) = 1 := by rw [m3]; rfl
    have a2 : bit (decide (w.s.st = .idle)) = 1 := by rw [m1]; rfl
    unfold rank
    by_cases hb : w.s.b.items = []
    · by_cases hx' : w.s.x.items = []
      · have : ∃ d, q.items.head? = some d ∧ w.s.req d = true := by
          refine Classical.byContradiction fun hc => hS ⟨hm, hb, hx', ?_⟩
          intro d hd
          cases hr : w.s.req d
          · rfl
          · exact absurd ⟨d, hd, hr⟩ hc
        obtain ⟨d, hd, hr⟩ := this
        have := s2 d hd hr
        omega
      · have : bit (!(step w.s i).xRden) = 0 := by
          rw [hx]
          have : w.s.x.items.isEmpty = false := by simpa using hx'
          rw [this]; rfl
        omega
    · have : bit (decide ((step w.s i).st = .idle)) = 0 := by
        rw [hst]
        have : w.s.b.items.isEmpty = false := by simpa using hb
        rw [this]; rfl
      omega
  · unfold rank
    omega

theorem settled_next {w : World ρ} {q : Queue Nat} {pend : Nat → Option ρ} (v : Inv w q pend) {i : In ρ} (p : Polite w i) (hi : i.quiet)
    (hS : Settled w.s q) : Settled (step w.s i) (qNext w.s i q) := by
  obtain ⟨m1, m2, m3, m4, m5⟩ := moves_zero hS.still
  have hq := q_step v p
  rw [m5, hi.1] at hq
  simp only [Bool.false_eq_true, if_false, List.nil_append, Option.toList, List.append_nil] at hq
  have hserve : serve w.s = none := by
    cases h : serve w.s with
    | none => rfl
    | some d =>
      obtain ⟨h1, h2⟩ := serve_head v h
      rw [hS.head d h1] at h2
      cases h2
  have b1 : (step w.s i).st = .idle := by
    show stNext w.s i = _
    simp [stNext, m1, hS.b]
  have b2 : (step w.s i).bWren = false := m3
  have b3 : (step w.s i).xRden = false := by
    show (if w.s.xRden then false else !w.s.x.items.isEmpty) = _
    simp [m3, hS.x]
  have b4 : (step w.s i).xWren = false := m5
  have b5 : (step w.s i).rden = false := by
    show rdenNext w.s = false
    simp [rdenNext, m5, hserve]
  refine ⟨by simp [moves, bit, b1, b2, b3, b4, b5], ?_, ?_, ?_⟩
  · show (bNext w.s i).items = []
    rw [(b_next v.ctl (room_b v) i).1]
    simp [midE, m2, hS.b]
  · show (w.s.x.next 16 ⟨w.s.xWren, w.s.xRden, w.s.xDin⟩).items = []
    simp [Queue.next, m3, m4, hS.x]
  · intro d hd
    show reqNext w.s i d = false
    rw [hq] at hd
    rw [req_quiet hi, hS.head d hd]
    simp

theorem settles (ins : List (In ρ)) : ∀ {w : World ρ} {q : Queue Nat} {pend : Nat → Option ρ}, Inv w q pend → AllPolite w ins →
    (∀ i ∈ ins, i.quiet) → (¬ Settled w.s q → rank w.s q < ins.length) →
    ∃ q' pend', Inv (w.run ins) q' pend' ∧ Settled (w.run ins).s q' := by
  induction ins with
  | nil =>
    intro w q pend v _ _ h
    exact ⟨q, pend, v, Classical.byContradiction fun hc => absurd (h hc) (by simp)⟩
  | cons i t ih =>
    intro w q pend v p hi h
    have hq := hi i (List.mem_cons_self ..)
    refine ih (inv_next v p.1) p.2 (fun j hj => hi j (List.mem_cons_of_mem _ hj)) fun hS => ?_
    have hw : ¬ Settled w.s q := fun hc => hS (settled_next v p.1 hq hc)
    have h1 := rank_lt v p.1 hq hw
    have h2 := h hw
    simp only [List.length_cons] at h2
    show rank (step w.s i) (qNext w.s i q) < t.length
    omega

theorem rank_le {w : World ρ} {q : Queue Nat} {pend : Nat → Option ρ} (v : Inv w q pend) : rank w.s q < 500 := by
  have h1 := chain_len v
  rw [chain_parts] at h1
  have h2 := search_le w.s q
  have h3 := bit_le (!w.s.xRden)
  have h4 := bit_le (decide (w.s.st = .idle))
  unfold rank weight
  omega

theorem allPolite_append (a b : List (In ρ)) : ∀ {w : World ρ}, AllPolite w (a ++ b) → AllPolite w a ∧ AllPolite (w.run a) b := by
  induction a with
  | nil => intro w h; exact ⟨trivial, h⟩
  | cons i t ih =>
    intro w h
    obtain ⟨h1, h2⟩ := ih h.2
    exact ⟨⟨h.1, h1⟩, h2⟩

theorem run_append (a b : List (In ρ)) : ∀ (w : World ρ), w.run (a ++ b) = (w.run a).run b := by
  induction a with
  | nil => intro w; rfl
  | cons i t ih => intro w; exact ih _

/-- **When software is quiet and the master takes responses for 500 cycles,
the next descriptor of the order is one which is not answered.** -/
theorem answered_leave (ins rest : List (In ρ)) (p : AllPolite World.start (ins ++ rest)) (hq : ∀ i ∈ rest, i.quiet) (hn : 500 ≤ rest.length)
    (d : Nat) (l : List Nat)
    (h : (World.start.run (ins ++ rest)).ordered = (World.start.run (ins ++ rest)).took.map (·.1) ++ d :: l) :
    ofDesc d (World.start.run (ins ++ rest)).asked = ofDesc d (World.start.run (ins ++ rest)).took := by
  obtain ⟨p1, p2⟩ := allPolite_append _ _ p
  obtain ⟨q, pend, v⟩ := inv_run ins inv_start p1
  obtain ⟨q', pend', v', hS⟩ := settles rest v p2 hq fun _ => by have := rank_le v; omega
  rw [run_append] at h ⊢
  generalize (World.start.run ins).run rest = w at v' hS h ⊢
  obtain ⟨m1, m2, m3, m4, m5⟩ := moves_zero hS.still
  have hsh : shown w.s = none := by simp [shown, v'.ctl.bvalid, m1]
  have hch : chain w.s q' = q'.items := by
    simp [chain, front, hsh, hS.b, hS.x, mid, xw, m2, m4]
  rw [v'.ordered, hch] at h
  have h := List.append_cancel_left h
  have hr := hS.head d (by rw [h]; rfl)
  have hp := v'.pq d (by rw [h]; simp)
  rw [hr] at hp
  have hp' : pend' d = none := by simpa using hp
  rw [v'.asked d, hp']
  simp

end

end Verif.RtlResp
