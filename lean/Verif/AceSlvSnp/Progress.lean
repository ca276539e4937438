import Verif.AceSlvSnp.Lemmas

/-!
# The thread comes to an end of what it has to do
-/

namespace Verif.AceSlvSnp

theorem dataEnds_eq (asked : List Snoop) (got : List Nat) (lines : List (List Nat)) (ok : ∀ r ∈ got, ¬(hasErr r = true ∧ hasData r = true)) :
    dataEnds asked got lines = ((((asked.zip got).filter isData).map tag).zip lines).map outData := by
  unfold dataEnds
  rw [List.filter_eq_self.mpr, List.zip_map_left, List.map_map]
  · rfl
  · intro q hq
    have h1 := (List.of_mem_zip (a := q.1) (b := q.2) hq).1
    obtain ⟨h2, h3⟩ := List.mem_filter.mp h1
    have h4 := (List.of_mem_zip (a := q.1.1) (b := q.1.2) h2).2
    have h5 := ok _ h4
    cases h6 : hasErr q.1.2 with
    | false => rfl
    | true => exact absurd ⟨h6, h3⟩ h5

theorem zip_prefix {α β : Type} (a c : List α) (b d : List β) (h : a.length = b.length) : a.zip b <+: (a ++ c).zip (b ++ d) := by
  rw [List.zip_append h]
  exact List.prefix_append _ _

theorem filter_split {α : Type} (f : α → Bool) (l : List α) : l.length = (l.filter f).length + (l.filter fun a => !f a).length := by
  induction l with
  | nil => rfl
  | cons a t ih => cases h : f a <;> simp [h] <;> omega

/-- The snoops which wait, as the stages hold them. -/
theorem count {m : Nat} {w : World} {hd rs dd dl} (h : Inv m w hd rs dd dl) :
    w.asked.length =
      w.done.length + (w.s.pc.before.length + w.s.crFifo.length + w.s.pend.length + w.s.pc.reading.length + w.s.cdFifo.length + w.s.pc.giving.length) := by
  have h1 : w.done.length = (w.done.filter fun o => !o.withData).length + (w.done.filter Out.withData).length := by
    have := filter_split Out.withData w.done
    omega
  have h2 := congrArg List.length h.data
  have h3 : (hd.zip rs).length = ((hd.zip rs).filter isData).length + ((hd.zip rs).filter isPlain).length := by
    rw [filter_split isData (hd.zip rs)]
    congr 2
    apply List.filter_congr
    intro p hp
    have h4 := (List.of_mem_zip (a := p.1) (b := p.2) hp).2
    have h5 := h.ok p.2 (by rw [h.got]; simp [h4])
    simp only [isData, isPlain]
    cases h6 : hasErr p.2 <;> cases h7 : hasData p.2 <;> simp_all
  have h4 := congrArg List.length h.asked
  have h5 := h.len
  have h6 := h.dlen
  simp only [List.length_append, List.length_map, List.length_zip] at h2 h3 h4
  rw [h1, h.plain, h.given]
  simp only [List.length_map, List.length_zip]
  omega

/-- The thread has nothing to do. -/
def Settled (s : State) : Prop :=
  s.hwCr = [] ∧ s.hwCd = [] ∧ (s.cdFifo = [] ∨ s.descs = []) ∧
    match s.pc with
    | .crLevel | .crRead 0 | .cdLevel | .cdPop 0 | .cdCheck => True
    | _ => False

/-- How far the thread is from that. -/
def pcRank (m : Nat) (s : State) : Nat :=
  match s.pc with
  | .crLevel => if s.hwCr.length = 0 then 10 else 22
  | .crRead 0 => if s.hwCr.length = 0 then 9 else 28
  | .crRead (_ + 1) => 15
  | .crPop _ _ => 14
  | .crGive _ _ _ => 4 * m + 80
  | .cdLevel => if s.hwCr.length = 0 then 8 else 27
  | .cdPop 0 => if s.hwCr.length = 0 then if s.hwCd.length = 0 then 7 else 24 else 26
  | .cdPop (_ + 1) => 1
  | .cdCheck => if s.hwCr.length = 0 then if s.hwCd.length = 0 then 6 else 23 else 25
  | .busy x _ _ _ acc => (x.len - acc.length) + 30

def rank (m : Nat) (s : State) : Nat :=
  s.pend.length + s.hwCr.length * (4 * m + 100) + s.hwCd.length * 30 + s.cdFifo.length * (4 * m + 40) + pcRank m s

theorem wordBytes_length (d : Nat) : (wordBytes d).length = 4 := rfl

theorem proc_rank {m : Nat} {s : State} (hok : PcOk m s) (hl : ∀ p ∈ s.cdFifo, p.1.len ≤ 4 * m) (hs : ¬Settled s) :
    rank m (proc m s) < rank m s ∨
      (proc m s = s ∧ ((∃ n, s.pc = .crRead (n + 1) ∧ s.crFifo = []) ∨ (∃ x a n, s.pc = .crGive x a n ∧ 16 ≤ s.cdFifo.length))) := by
  obtain ⟨pend, crFifo, cdFifo, descs, pc, hwCr, hwCd, used, ram, bad⟩ := s
  cases pc with
  | crLevel =>
    left
    cases hwCr <;> simp [proc, rank, pcRank]
  | crRead n =>
    cases n with
    | zero =>
      left
      simp only [proc, rank, pcRank]
      by_cases hA : hwCr.length = 0 <;> by_cases hB : hwCd.length = 0 <;> simp only [hA, hB, if_true, if_false] <;> omega
    | succ n =>
      cases crFifo with
      | nil => right; exact ⟨rfl, Or.inl ⟨n, rfl, rfl⟩⟩
      | cons x t => left; simp [proc, rank, pcRank]
  | crPop x n =>
    cases hwCr with
    | nil => exact absurd hok (by simp [PcOk])
    | cons r t =>
      left
      simp only [proc]
      cases n <;> (repeat' split) <;> simp only [rank, pcRank, List.length_cons, Nat.add_mul] <;> (repeat' split) <;> omega
  | crGive x a n =>
    by_cases hc : cdFifo.length < 16
    · left
      cases n <;> simp only [proc, hc, if_true, rank, pcRank, List.length_append, List.length_singleton, Nat.add_mul] <;>
        (repeat' split) <;> omega
    · right
      exact ⟨by simp only [proc, hc, if_false], Or.inr ⟨x, a, n, rfl, by simpa using hc⟩⟩
  | cdLevel =>
    left
    cases hwCd <;> simp only [proc, rank, pcRank, List.length_cons, List.length_nil] <;> (repeat' split) <;> first | omega | simp_all
  | cdPop n =>
    left
    cases n with
    | zero =>
      simp only [proc, rank, pcRank]
      by_cases hA : hwCr.length = 0 <;> by_cases hB : hwCd.length = 0 <;> simp only [hA, hB, if_true, if_false] <;> omega
    | succ n =>
      cases hwCd with
      | nil => exact absurd hok (by simp [PcOk])
      | cons i t =>
        cases n <;> simp only [proc, rank, pcRank, List.length_cons, Nat.add_mul] <;> (by_cases hA : hwCr.length = 0 <;> by_cases hB : t.length = 0 <;> (try simp only [hA, hB, if_true, if_false]) <;> omega)
  | cdCheck =>
    left
    have key : cdFifo = [] ∨ descs = [] → rank m (proc m ⟨pend, crFifo, cdFifo, descs, .cdCheck, hwCr, hwCd, used, ram, bad⟩) <
        rank m ⟨pend, crFifo, cdFifo, descs, .cdCheck, hwCr, hwCd, used, ram, bad⟩ := by
      intro he
      have h0 : proc m ⟨pend, crFifo, cdFifo, descs, .cdCheck, hwCr, hwCd, used, ram, bad⟩ = ⟨pend, crFifo, cdFifo, descs, .crLevel, hwCr, hwCd, used, ram, bad⟩ := by
        rcases he with he | he <;> subst he
        · rfl
        · cases cdFifo <;> rfl
      have h1 : ¬(hwCr.length = 0 ∧ hwCd.length = 0) := fun h1 =>
        hs ⟨List.eq_nil_of_length_eq_zero h1.1, List.eq_nil_of_length_eq_zero h1.2, he, trivial⟩
      rw [h0]
      simp only [rank, pcRank]
      (repeat' split) <;> omega
    cases cdFifo with
    | nil => exact key (Or.inl rfl)
    | cons p t =>
      cases descs with
      | nil => exact key (Or.inr rfl)
      | cons i u =>
        have := hl p (by simp)
        simp only [proc, rank, pcRank, List.length_cons, Nat.add_mul, List.length_nil]
        (repeat' split) <;> omega
  | busy x a i k acc =>
    left
    obtain ⟨h1, h2⟩ := hok
    by_cases hc : acc.length < x.len
    · simp only [proc, hc, if_true, rank, pcRank, List.length_take, List.length_append, wordBytes_length]
      omega
    · simp only [proc, hc, if_false, rank, pcRank]
      (repeat' split) <;> omega

theorem queue_rank (m : Nat) (s : State) : rank m (step m s (.queue 0)) < rank m s ∨ step m s (.queue 0) = s := by
  obtain ⟨pend, crFifo, cdFifo, descs, pc, hwCr, hwCd, used, ram, bad⟩ := s
  cases pend with
  | nil => right; rfl
  | cons x t =>
    by_cases hc : crFifo.length < 16
    · left
      simp only [step, List.getElem?_cons_zero, hc, if_true, List.eraseIdx_zero, List.tail_cons, rank, pcRank, List.length_cons]
      omega
    · right
      simp only [step, List.getElem?_cons_zero, hc, if_false]

theorem few_run {m : Nat} {w : World} (evs : List Ev) (hf : AllFew m w evs) (h : w.asked.length ≤ w.done.length + 16) :
    (w.run m evs).asked.length ≤ (w.run m evs).done.length + 16 := by
  induction evs generalizing w with
  | nil => exact h
  | cons e t ih =>
    refine ih hf.2 ?_
    have := hf.1
    simp only [World.next, List.length_append]
    omega

theorem fifo_len {m : Nat} {w : World} {hd rs dd dl} (h : Inv m w hd rs dd dl) : ∀ p ∈ w.s.cdFifo, p.1.len ≤ 4 * m :=
  fun p hp => sub_len h (p := p) (by simp [hp])

/-- Something can go on. -/
theorem go {m : Nat} {w : World} {hd rs dd dl} (h : Inv m w hd rs dd dl) (hf : w.asked.length ≤ w.done.length + 16) (hs : ¬Settled w.s) :
    ∃ e, (e = .proc ∨ e = .queue 0) ∧ rank m (step m w.s e) < rank m w.s := by
  rcases proc_rank h.pcok (fifo_len h) hs with h1 | ⟨_, ⟨n, h2, h3⟩ | ⟨x, a, n, h2, h3⟩⟩
  · exact ⟨.proc, Or.inl rfl, h1⟩
  · refine ⟨.queue 0, Or.inr rfl, ?_⟩
    have ha := congrArg List.length h.asked
    have hg := congrArg List.length h.got
    have hl := h.len
    have hfew := h.few
    have hok := h.pcok
    simp only [PcOk, h2] at hok
    simp only [h2, h3, Pc.before, List.length_append, List.length_nil] at ha hg
    cases hp : w.s.pend with
    | nil => rw [hp] at ha; simp only [List.length_nil] at ha; omega
    | cons x t =>
      have : step m w.s (.queue 0) = { w.s with crFifo := w.s.crFifo ++ [x], pend := t } := by simp [step, hp, h3]
      rw [this]
      simp [rank, pcRank, hp]
  · have hc := count h
    simp only [h2, Pc.before, Pc.reading, Pc.giving, List.length_nil, List.length_singleton] at hc
    omega

end Verif.AceSlvSnp
