import Verif.AceSlvSnp.Progress

/-!
# The snoops of the ACE to TLM hardware bridge: theorems
-/

namespace Verif.AceSlvSnp

/-- Each snoop ends with its own response, and with its own line when there is
data: those without data in order, those with data in order.  Partial: the
histories are polite; with a response which has both an error and data, callers
which overtake each other, or a reset, it is false
(`Faults.lean`). -/
theorem snoops_end_partial (m : Nat) (evs : List Ev) (hp : AllPolite m World.start evs) :
    let w := World.start.run m evs
    w.done.filter (fun o => !o.withData) <+: plainEnds w.asked w.got ∧ w.done.filter Out.withData <+: dataEnds w.asked w.got w.lines := by
  intro w
  obtain ⟨hd, rs, dd, dl, h⟩ := inv_run (inv_start m) evs hp
  have hz : w.asked.zip w.got = hd.zip rs ++ (w.s.pc.before ++ w.s.crFifo ++ w.s.pend).zip w.s.hwCr := by
    show (World.start.run m evs).asked.zip (World.start.run m evs).got = _
    rw [h.asked, h.got, List.append_assoc, List.append_assoc, List.zip_append h.len, List.append_assoc]
  constructor
  · rw [h.plain]
    show _ <+: List.map outPlain (List.filter isPlain _)
    rw [hz, List.filter_append, List.map_append]
    exact List.prefix_append _ _
  · rw [h.given, dataEnds_eq _ _ _ h.ok, hz, List.filter_append, List.map_append, h.data]
    have hl : w.lines = dl ++ w.s.idxs.map (lineAt m w.s.ram) := h.lines
    rw [hl]
    simp only [List.append_assoc]
    exact (zip_prefix _ _ _ _ h.dlen).map _

/-- The hardware always has what the thread takes, so no assertion fails.
Partial: polite histories. -/
theorem no_assertion_partial (m : Nat) (evs : List Ev) (hp : AllPolite m World.start evs) : (World.start.run m evs).s.bad = false := by
  obtain ⟨hd, rs, dd, dl, h⟩ := inv_run (inv_start m) evs hp
  exact h.good

/-- While the thread has something to do, it or a caller can go on; and when one
of them does, it changes nothing or comes nearer.  Partial: polite histories, and
no more than 16 snoops wait at a time; with 17 it is false (`stuck`). -/
theorem snoops_progress_partial (m : Nat) (evs : List Ev) (hp : AllPolite m World.start evs) (hf : AllFew m World.start evs) :
    let w := World.start.run m evs
    ¬Settled w.s →
      (∃ e, (e = .proc ∨ e = .queue 0) ∧ rank m (step m w.s e) < rank m w.s) ∧
        ∀ e, (e = .proc ∨ e = .queue 0) → rank m (step m w.s e) < rank m w.s ∨ step m w.s e = w.s := by
  intro w hs
  obtain ⟨hd, rs, dd, dl, h⟩ := inv_run (inv_start m) evs hp
  refine ⟨go h (few_run evs hf (Nat.zero_le _)) hs, ?_⟩
  rintro e (rfl | rfl)
  · rcases proc_rank h.pcok (fifo_len h) hs with h1 | h1
    · exact Or.inl h1
    · exact Or.inr h1.1
  · exact queue_rank m _

/-- When the thread has nothing to do, every snoop has ended whose response, and
whose line if it has data, has come.  Partial: polite histories. -/
theorem snoops_complete_partial (m : Nat) (evs : List Ev) (hp : AllPolite m World.start evs) :
    let w := World.start.run m evs
    Settled w.s →
      w.done.filter (fun o => !o.withData) = plainEnds w.asked w.got ∧ w.done.filter Out.withData = dataEnds w.asked w.got w.lines := by
  intro w hs
  obtain ⟨hd, rs, dd, dl, h⟩ := inv_run (inv_start m) evs hp
  obtain ⟨h1, h2, h3, h4⟩ := hs
  have hr : w.s.pc.reading = [] ∧ w.s.pc.giving = [] ∧ w.s.pc.desc = [] := by
    generalize w.s.pc = pc at h4
    cases pc <;> first | exact ⟨rfl, rfl, rfl⟩ | exact h4.elim
  have hg : w.got = rs := by
    show (World.start.run m evs).got = rs
    rw [h.got, show (World.start.run m evs).s.hwCr = [] from h1, List.append_nil]
  have hz : w.asked.zip w.got = hd.zip rs := by
    rw [hg]
    show (World.start.run m evs).asked.zip _ = _
    have := List.zip_append (l₁ := hd) (r₁ := (World.start.run m evs).s.pc.before ++ (World.start.run m evs).s.crFifo ++ (World.start.run m evs).s.pend)
      (l₂ := rs) (r₂ := []) h.len
    rw [List.append_nil, List.zip_nil_right, List.append_nil] at this
    rw [h.asked, List.append_assoc, List.append_assoc, ← this, List.append_assoc]
  constructor
  · rw [h.plain]
    show _ = List.map outPlain (List.filter isPlain _)
    rw [hz]
  · rw [h.given, dataEnds_eq _ _ _ h.ok, hz, h.data]
    have hl : w.lines = dl ++ w.s.idxs.map (lineAt m w.s.ram) := h.lines
    rw [hl]
    have e1 : (World.start.run m evs).s.pc.reading = [] := hr.1
    have e2 : (World.start.run m evs).s.pc.giving = [] := hr.2.1
    rw [e1, e2, List.append_nil, List.append_nil]
    rcases h3 with h3 | h3
    · have e3 : (World.start.run m evs).s.cdFifo = [] := h3
      have := List.zip_append (l₁ := dd) (r₁ := []) (l₂ := dl) (r₂ := w.s.idxs.map (lineAt m w.s.ram)) h.dlen
      rw [List.append_nil, List.zip_nil_left, List.append_nil] at this
      rw [e3, List.append_nil, this]
    · have e4 : w.s.idxs = [] := by simp [State.idxs, hr.2.2, h3, h2]
      have := List.zip_append (l₁ := dd) (r₁ := (World.start.run m evs).s.cdFifo) (l₂ := dl) (r₂ := []) h.dlen
      rw [List.append_nil, List.zip_nil_right, List.append_nil] at this
      rw [e4, List.map_nil, List.append_nil, this]

/-- Three snoops: with data, with an error, with attributes only; the line comes
before its response. -/
def sample : List Ev :=
  [.push ⟨1, 6⟩, .push ⟨2, 8⟩, .push ⟨3, 8⟩, .queue 0, .line 5 [0x04030201, 0x08070605], .queue 0, .resp 5, .resp 2, .queue 0, .resp 8] ++
    List.replicate 20 .proc

example : AllPolite 2 World.start sample := by
  simp only [sample, AllPolite, List.cons_append, List.nil_append, List.replicate, Polite]
  decide

example : AllFew 2 World.start sample := by
  simp only [sample, AllFew, List.cons_append, List.nil_append, List.replicate]
  decide

example : (World.start.run 2 sample).done =
    [⟨⟨2, 8⟩, false, some ⟨false, true, false, false, false⟩, none⟩, ⟨⟨3, 8⟩, true, some ⟨false, false, false, true, false⟩, none⟩,
      ⟨⟨1, 6⟩, true, some ⟨true, false, true, false, false⟩, some [1, 2, 3, 4, 5, 6]⟩] := by decide +kernel

example : ¬Settled (World.start.run 2 (sample.take 14)).s := by
  have h : (World.start.run 2 (sample.take 14)).s.hwCr = [2, 8] := by decide +kernel
  intro hs
  rw [hs.1] at h
  exact absurd h (by decide)

end Verif.AceSlvSnp
