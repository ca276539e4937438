import Verif.RtlRdata.Step

/-! # Every burst is given, whole and in order -/

namespace Verif.RtlRdata

open RtlFifo (Queue)

section
variable {δ σ : Type} {c : Cfg}

/-- **The beats taken are the first of those of the bursts asked for, one
burst after the other: each word from its place in the RAM, with the response
of its descriptor, the last of each burst marked, and no other.** -/
theorem in_order (hb : c.Good) (ins : List (In δ σ)) (p : AllPolite c World.start ins) :
    (World.start.run c ins).took <+: (World.start.run c ins).due := by
  obtain ⟨g, v⟩ := inv_run hb ins (inv_start c) p
  unfold World.due
  rw [← due_items, v.all, List.map_append, v.past]
  exact List.prefix_append _ _

/-- **A beat stays as it is until it is taken.** -/
theorem held_until_taken (hb : c.Good) (ins : List (In δ σ)) (i : In δ σ) (p : AllPolite c World.start ins)
    (e : Beat δ σ) (h : shown (World.start.run c ins).s = some e) (hr : i.rready = false) :
    shown ((World.start.run c ins).next c i).s = some e := by
  obtain ⟨g, v⟩ := inv_run hb ins (inv_start c) p
  generalize World.start.run c ins = w at v h
  show shown (step c w.s i) = some e
  rw [sh_next v]
  show (g.shNext w.s i).map Item.beat = some e
  have hst : w.s.rst = .wait := by
    cases hv : w.s.rvalid
    · simp [shown, hv] at h
    · have := v.ctl.rvalid
      rw [hv] at this
      simpa using this.symm
  unfold View.shNext
  rw [hst]
  simp only [hr, Bool.false_eq_true, if_false]
  rw [← v.sh, h]

/-- **A descriptor is done in the cycle after the last beat of its burst is
taken, and in no other.** -/
theorem done_when_last (ins : List (In δ σ)) (i : In δ σ) (d : Nat) :
    ((World.start.run c ins).next c i).s.done d = true ↔ ∃ e ∈ (World.start.run c ins).takes i, e.last = true ∧ e.idx = d := by
  generalize World.start.run c ins = w
  show doneNext w.s i d = true ↔ _
  unfold doneNext World.takes
  cases i.rready
  · cases shown w.s <;> simp
  · cases shown w.s with
    | none => simp
    | some e => simp

/-! ## Nothing waits for ever -/

def View.weight (g : View δ σ) : Nat :=
  g.sh.toList.length + 2 * g.rq.length + 3 * g.p3.toList.length + 4 * g.p2.toList.length + 5 * g.p1.toList.length +
    6 * g.p0.toList.length + 7 * (g.cur.length + (g.xs.flatMap items).length)

def moves (s : Regs δ σ) (g : View δ σ) : Nat :=
  g.sh.toList.length + bit (decide (s.rst = .strt)) + g.p3.toList.length + g.p2.toList.length + g.p1.toList.length + g.p0.toList.length +
    bit (reading s)

def phase (s : Regs δ σ) : Nat :=
  match s.dst with
  | .idle => 5
  | .new => if s.xRden then 4 else 3
  | .newRead => 2
  | .conWait => 1
  | .conRead => 0

def rank (s : Regs δ σ) (g : View δ σ) : Nat := 7 * g.weight + phase s + bit (decide (s.rst = .idle))

theorem phase_le (s : Regs δ σ) : phase s ≤ 5 := by
  unfold phase
  cases s.dst <;> dsimp only <;> first | omega | (split <;> omega)

section
variable {w : World δ σ} {g : View δ σ} {i : In δ σ}

theorem weight_step (hb : c.Good) (v : Inv c w g) (pol : Polite c w i) (hq : i.quiet) :
    (g.next c w.s i).weight + moves w.s g = g.weight := by
  have h1 := congrArg List.length (out_next v (i := i))
  have h2 := congrArg List.length (in_next v (i := i))
  rw [hq.2] at h1
  rw [hq.1] at h2
  simp only [Option.toList_none, List.map_nil, List.flatMap_nil, List.append_nil, if_true, List.length_append] at h1 h2
  have h3 : (g.next c w.s i).sh.toList.length = bit (decide (w.s.rst = .strt)) := by
    show (g.shNext w.s i).toList.length = _
    unfold View.shNext
    cases hst : w.s.rst
    · rfl
    · have hne := v.ctl.strt hst
      rw [v.rq] at hne
      cases hr : g.rq with
      | nil => rw [hr] at hne; exact absurd rfl hne
      | cons a t => rfl
    · simp [hq.2, bit]
  have h4 : (g.next c w.s i).p0.toList.length = bit (reading w.s) := by
    have h := (p0_next hb v pol).1
    unfold reading
    rw [h]
    cases (g.next c w.s i).p0 <;> rfl
  have e3 : (g.next c w.s i).p3 = g.p2 := rfl
  have e2 : (g.next c w.s i).p2 = g.p1 := rfl
  have e1 : (g.next c w.s i).p1 = g.p0 := rfl
  unfold View.weight moves
  rw [e1, e2, e3]
  omega

/-- All is taken. -/
structure Settled (s : Regs δ σ) (g : View δ σ) : Prop where
  still : moves s g = 0
  rst : s.rst = .idle
  rq : g.rq = []
  dst : s.dst = .idle
  xs : g.xs = []

theorem rank_lt (hb : c.Good) (v : Inv c w g) (pol : Polite c w i) (hq : i.quiet) (hS : ¬ Settled w.s g) :
    rank (step c w.s i) (g.next c w.s i) < rank w.s g := by
  have hw := weight_step hb v pol hq
  have h1 := phase_le (step c w.s i)
  have h2 := bit_le (decide ((step c w.s i).rst = .idle))
  by_cases hm : moves w.s g = 0
  · have hsh : g.sh = none := by
      unfold moves at hm
      cases h : g.sh with
      | none => rfl
      | some t => rw [h] at hm; simp at hm
    have hr0 : reading w.s = false := by
      unfold moves at hm
      cases h : reading w.s
      · rfl
      · rw [h] at hm; simp [bit] at hm
    have hst : w.s.rst = .idle := by
      cases h : w.s.rst
      · rfl
      · unfold moves at hm
        rw [h] at hm
        simp [bit] at hm
      · have h3 := v.sh
        unfold shown at h3
        rw [v.ctl.rvalid, h, hsh] at h3
        obtain ⟨e, he⟩ := v.ctl.wait h
        rw [he] at h3
        simp at h3
    have ed : (step c w.s i).dst = dstNext c w.s i := rfl
    have ex : (step c w.s i).xRden = xRdenNext w.s := rfl
    -- the state of reading never goes back
    have hph : phase (step c w.s i) ≤ phase w.s ∧ (almostFull c w.s = false → (w.s.dst ≠ .idle ∨ g.xs ≠ []) →
        phase (step c w.s i) < phase w.s) := by
      have hc := v.cur
      unfold Cur at hc
      unfold phase
      rw [ed, ex]
      cases hd : w.s.dst
      · rw [hd] at hc
        by_cases hx : w.s.x.items = []
        · have e : dstNext c w.s i = .idle := by simp [dstNext, hd, hx]
          rw [e]
          refine ⟨Nat.le_refl _, ?_⟩
          intro _ h
          rcases h with h | h
          · exact absurd rfl h
          · rw [v.x] at hx
            exact absurd (List.map_eq_nil_iff.1 hx) h
        · have e : dstNext c w.s i = .new := by simp [dstNext, hd, hx]
          have e2 : xRdenNext w.s = true := by simp [xRdenNext, hd, hx]
          rw [e, e2]
          exact ⟨by simp, fun _ _ => by simp⟩
      · have e2 : xRdenNext w.s = false := by simp [xRdenNext, hd]
        cases hf : almostFull c w.s
        · have e : dstNext c w.s i = .newRead := by simp [dstNext, hd, hf]
          rw [e]
          dsimp only
          split <;> exact ⟨by decide, fun _ _ => by decide⟩
        · have e : dstNext c w.s i = .new := by simp [dstNext, hd, hf]
          rw [e, e2]
          dsimp only
          rw [if_neg (by decide)]
          split <;> exact ⟨by decide, fun h => by cases h⟩
      · simp [reading, v0Next, hd] at hr0
      · simp [reading, v0Next, hd] at hr0
      · cases hf : almostFull c w.s
        · have e : dstNext c w.s i = .conRead := by simp [dstNext, hd, hf]
          rw [e]
          exact ⟨by simp, fun _ _ => by simp⟩
        · have e : dstNext c w.s i = .conWait := by simp [dstNext, hd, hf]
          rw [e]
          exact ⟨by simp, fun h => by cases h⟩
    have a1 : bit (decide (w.s.rst = .idle)) = 1 := by rw [hst]; rfl
    have er : (step c w.s i).rst = rstNext w.s i := rfl
    unfold rank
    by_cases hrq : g.rq = []
    · have haf : almostFull c w.s = false := by
        have := hb.high.1
        simp [almostFull, v.rq, hrq]
        omega
      have hgo : w.s.dst ≠ .idle ∨ g.xs ≠ [] := by
        refine Classical.byContradiction fun hn => hS ⟨hm, hst, hrq, ?_, ?_⟩
        · exact Classical.byContradiction fun h => hn (.inl h)
        · exact Classical.byContradiction fun h => hn (.inr h)
      have := hph.2 haf hgo
      omega
    · have : bit (decide ((step c w.s i).rst = .idle)) = 0 := by
        rw [er]
        have : w.s.r.items ≠ [] := by
          rw [v.rq]
          simpa using hrq
        simp [rstNext, hst, this, bit]
      have := hph.1
      omega
  · unfold rank
    omega

theorem settled_next (hb : c.Good) (v : Inv c w g) (pol : Polite c w i) (hq : i.quiet) (hS : Settled w.s g) :
    Settled (step c w.s i) (g.next c w.s i) := by
  have hw := weight_step hb v pol hq
  have hc := v.cur
  unfold Cur at hc
  rw [hS.dst] at hc
  have hx : w.s.x.items = [] := by rw [v.x, hS.xs]; rfl
  have hr : w.s.r.items = [] := by rw [v.rq, hS.rq]; rfl
  have hm := hS.still
  unfold moves at hm
  have h0 : g.weight = 0 := by
    unfold View.weight
    rw [hS.rq, hS.xs, hc.2]
    simp only [List.length_nil, List.flatMap_nil]
    omega
  have e1 : (step c w.s i).dst = .idle := by
    show dstNext c w.s i = .idle
    simp [dstNext, hS.dst, hx]
  have e2 : (step c w.s i).rst = .idle := by
    show rstNext w.s i = .idle
    simp [rstNext, hS.rst, hr]
  rw [h0] at hw
  have hw0 : (g.next c w.s i).weight = 0 := by omega
  unfold View.weight at hw0
  refine ⟨?_, e2, List.length_eq_zero_iff.1 (by omega), e1, ?_⟩
  · have b1 : bit (decide ((step c w.s i).rst = .strt)) = 0 := by rw [e2]; rfl
    have b2 : bit (reading (step c w.s i)) = 0 := by
      unfold reading v0Next
      rw [e1]
      rfl
    unfold moves
    rw [b1, b2]
    omega
  · show (if w.s.xRden then g.xs.drop 1 else g.xs) ++ i.push.toList.map (askOf c i) = []
    rw [hS.xs, hq.1]
    simp

theorem settles (hb : c.Good) (ins : List (In δ σ)) : ∀ {w : World δ σ} {g : View δ σ}, Inv c w g → AllPolite c w ins →
    (∀ i ∈ ins, i.quiet) → (¬ Settled w.s g → rank w.s g < ins.length) → ∃ g', Inv c (w.run c ins) g' ∧ Settled (w.run c ins).s g' := by
  induction ins with
  | nil =>
    intro w g v _ _ h
    exact ⟨g, v, Classical.byContradiction fun hc => absurd (h hc) (by simp)⟩
  | cons i t ih =>
    intro w g v p hi h
    have hq := hi i (List.mem_cons_self ..)
    refine ih (inv_next hb v p.1) p.2 (fun j hj => hi j (List.mem_cons_of_mem _ hj)) fun hS => ?_
    have hw : ¬ Settled w.s g := fun hc => hS (settled_next hb v p.1 hq hc)
    have h1 := rank_lt hb v p.1 hq hw
    have h2 := h hw
    simp only [List.length_cons] at h2
    show rank (step c w.s i) (g.next c w.s i) < t.length
    omega

theorem settled_all (v : Inv c w g) (hS : Settled w.s g) : w.took = w.due := by
  have hc := v.cur
  unfold Cur at hc
  rw [hS.dst] at hc
  have hm := hS.still
  unfold moves at hm
  have h0 : g.rest = [] := by
    refine List.length_eq_zero_iff.1 ?_
    unfold View.rest
    simp only [List.length_append, hS.rq, hS.xs, hc.2, List.length_nil, List.flatMap_nil]
    omega
  unfold World.due
  rw [← due_items, v.all, h0, List.append_nil, v.past]

theorem rank_le (v : Inv c w g) : rank w.s g ≤ 49 * (w.due.length - w.took.length) + 6 := by
  have h1 : w.due.length = w.took.length + g.rest.length := by
    unfold World.due
    rw [← due_items, v.all, List.map_append, v.past, List.length_append, List.length_map]
  have h2 := phase_le w.s
  have h3 := bit_le (decide (w.s.rst = .idle))
  unfold View.rest at h1
  simp only [List.length_append] at h1
  unfold rank View.weight
  omega

end

theorem allPolite_append (a b : List (In δ σ)) : ∀ {w : World δ σ}, AllPolite c w (a ++ b) → AllPolite c w a ∧ AllPolite c (w.run c a) b := by
  induction a with
  | nil => intro w h; exact ⟨trivial, h⟩
  | cons i t ih =>
    intro w h
    obtain ⟨h1, h2⟩ := ih h.2
    exact ⟨⟨h.1, h1⟩, h2⟩

theorem run_append (a b : List (In δ σ)) : ∀ (w : World δ σ), w.run c (a ++ b) = (w.run c a).run c b := by
  induction a with
  | nil => intro w; rfl
  | cons i t ih => intro w; exact ih _

/-- **When nothing new is asked for and the master takes beats, all is taken
after at most 49 cycles for each beat which was still to come, and seven.** -/
theorem all_given (hb : c.Good) (ins rest : List (In δ σ)) (p : AllPolite c World.start (ins ++ rest))
    (hq : ∀ i ∈ rest, i.quiet)
    (hn : 49 * ((World.start.run c ins).due.length - (World.start.run c ins).took.length) + 7 ≤ rest.length) :
    (World.start.run c (ins ++ rest)).took = (World.start.run c (ins ++ rest)).due := by
  obtain ⟨p1, p2⟩ := allPolite_append _ _ p
  obtain ⟨g, v⟩ := inv_run hb ins (inv_start c) p1
  obtain ⟨g', v', hS⟩ := settles hb rest v p2 hq fun _ => by have := rank_le v; omega
  rw [run_append]
  exact settled_all v' hS

/-- **When all is taken, no burst is open: each has exactly one last beat.** -/
theorem none_open (hb : c.Good) (ins : List (In δ σ)) (p : AllPolite c World.start ins)
    (h : (World.start.run c ins).took = (World.start.run c ins).due) : (World.start.run c ins).isOpen = [] := by
  obtain ⟨g, v⟩ := inv_run hb ins (inv_start c) p
  generalize World.start.run c ins = w at v h
  unfold World.isOpen
  refine List.drop_eq_nil_iff.2 ?_
  rw [h]
  unfold World.due
  have hd : ∀ a ∈ w.asked, a.data ≠ [] := fun a ha => (v.some a ha).1
  generalize w.asked = l at hd
  induction l with
  | nil => simp
  | cons a t ih =>
    have h1 := ih fun b hb => hd b (List.mem_cons_of_mem _ hb)
    have h2 : a.beats.countP (·.last) = 1 := by
      rw [← items_beats, List.countP_map]
      exact lasts_from a a.data 0 (by omega) (hd a (List.mem_cons_self ..))
    rw [List.flatMap_cons, List.countP_append, h2, List.length_cons]
    omega

end

end Verif.RtlRdata
