import Verif.ChiHw.Rx
/-! # CHI hardware bridges: runs that go wrong, and runs that meet the hypotheses -/

namespace Verif.ChiHw

/-- The moves of one whole call by process `p` on bridge `b` with a flit of one word. -/
def sendOne (p b f : Nat) : List TxMove := [.start p b f, .poll p, .put p, .put p, .flip p]

/-- Two processes in `b_transport` of one bridge at the same time: both take the same
descriptor. -/
def twoCalls : List TxMove :=
  [.start 0 0 7, .start 1 0 9, .poll 0, .poll 1, .put 0, .put 1, .put 0, .put 1, .flip 0, .flip 1, .send 0]

/-- **Two calls at the same time.** Both return OK, both flits count as sent, but one is
never put on the link; and from then on the software is one descriptor ahead of the
hardware: the next flit handed over comes out as something else. -/
theorem concurrent_calls_lose_a_flit :
    (∃ s, Tx.runs .rsp 8 Tx.init twoCalls = some s ∧ s.asked 0 = [7, 9] ∧ s.out 0 = [9] ∧ s.own 0 = 0 ∧ s.call 0 = .idle ∧ s.call 1 = .idle) ∧
    (∃ s, Tx.runs .rsp 8 Tx.init (twoCalls ++ sendOne 0 0 5 ++ [.send 0]) = some s ∧ s.asked 0 = [7, 9, 5] ∧ s.out 0 = [9, 0]) := by
  constructor
  · have h : ((Tx.runs .rsp 8 Tx.init twoCalls).map fun s => decide (s.asked 0 = [7, 9] ∧ s.out 0 = [9] ∧ s.own 0 = 0 ∧ s.call 0 = .idle ∧ s.call 1 = .idle)) = some true := by
      decide +kernel
    cases hs : Tx.runs .rsp 8 Tx.init twoCalls with
    | none => rw [hs] at h; cases h
    | some s => rw [hs] at h; exact ⟨s, rfl, by simpa using h⟩
  · have h : ((Tx.runs .rsp 8 Tx.init (twoCalls ++ sendOne 0 0 5 ++ [.send 0])).map fun s => decide (s.asked 0 = [7, 9, 5] ∧ s.out 0 = [9, 0])) = some true := by
      decide +kernel
    cases hs : Tx.runs .rsp 8 Tx.init (twoCalls ++ sendOne 0 0 5 ++ [.send 0]) with
    | none => rw [hs] at h; cases h
    | some s => rw [hs] at h; exact ⟨s, rfl, by simpa using h⟩

/-- **Two bridges.** One process sends a flit through the first bridge, and when that is
done, one through the second: the second bridge puts the contents of a descriptor nobody
wrote on the link. -/
theorem second_bridge_sends_garbage :
    ∃ s, Tx.runs .rsp 8 Tx.init (sendOne 0 0 7 ++ [.send 0] ++ sendOne 0 1 9 ++ [.send 1]) = some s ∧
      s.asked 1 = [9] ∧ s.out 1 = [0] := by
  have h : ((Tx.runs .rsp 8 Tx.init (sendOne 0 0 7 ++ [.send 0] ++ sendOne 0 1 9 ++ [.send 1])).map fun s => decide (s.asked 1 = [9] ∧ s.out 1 = [0])) = some true := by
    decide +kernel
  cases hs : Tx.runs .rsp 8 Tx.init (sendOne 0 0 7 ++ [.send 0] ++ sendOne 0 1 9 ++ [.send 1]) with
  | none => rw [hs] at h; cases h
  | some s => rw [hs] at h; exact ⟨s, rfl, by simpa using h⟩

/-- **Reset.** After a second reset the hardware starts at descriptor 0, the software
where it was: the first flit after it comes out as the one sent before the reset. -/
theorem reset_repeats_old_flit :
    ∃ s, Tx.runs .rsp 8 Tx.init (sendOne 0 0 7 ++ [.send 0, .reset 0] ++ sendOne 0 0 9 ++ [.send 0]) = some s ∧
      s.asked 0 = [7, 9] ∧ s.out 0 = [7, 7] := by
  have h : ((Tx.runs .rsp 8 Tx.init (sendOne 0 0 7 ++ [.send 0, .reset 0] ++ sendOne 0 0 9 ++ [.send 0])).map fun s => decide (s.asked 0 = [7, 9] ∧ s.out 0 = [7, 7])) = some true := by
    decide +kernel
  cases hs : Tx.runs .rsp 8 Tx.init (sendOne 0 0 7 ++ [.send 0, .reset 0] ++ sendOne 0 0 9 ++ [.send 0]) with
  | none => rw [hs] at h; cases h
  | some s => rw [hs] at h; exact ⟨s, rfl, by simpa using h⟩

/-- Two data flits arrive, and the software passes both on. -/
def twoData : List RxMove := [.arrive (2 ^ 256), .arrive (2 ^ 256)] ++ List.replicate 60 .step

/-- **Data.** The same data flit arrives twice: the first is passed on as it is, the
second without its bit. -/
theorem second_data_flit_wrong :
    ∃ s, Rx.runs .dat 300 Rx.init twoData = some s ∧ RxReach .dat 300 s ∧ s.arrived = [2 ^ 256, 2 ^ 256] ∧
      s.got.length = 2 ∧ s.got[0]? = some (2 ^ 256) ∧ s.got[1]? ≠ some (2 ^ 256) := by
  have h : ((Rx.runs .dat 300 Rx.init twoData).map fun s => decide (s.arrived = [2 ^ 256, 2 ^ 256] ∧ s.got.length = 2 ∧
      s.got[0]? = some (2 ^ 256) ∧ s.got[1]? ≠ some (2 ^ 256))) = some true := by
    decide +kernel
  cases hs : Rx.runs .dat 300 Rx.init twoData with
  | none => rw [hs] at h; cases h
  | some s =>
    rw [hs] at h
    refine ⟨s, rfl, RxReach.runs twoData .init ?_ hs, by simpa using h⟩
    intro m hm f hf
    subst hf
    have : f = 2 ^ 256 := by simpa [twoData] using hm
    subst this
    exact Nat.pow_lt_pow_right (by decide) (by decide)

/-- The runs of `sent_in_order_partial` do something: sixteen flits, one after the other, all out. -/
example : ∃ s, TxReach .rsp 8 (TxMove.Plain 8) s ∧ s.out 0 = (List.range 16) ∧ s.asked 0 = (List.range 16) := by
  have h : ((Tx.runs .rsp 8 Tx.init ((List.range 16).flatMap fun f => sendOne 0 0 f ++ [.send 0])).map fun s =>
      decide (s.out 0 = List.range 16 ∧ s.asked 0 = List.range 16)) = some true := by decide +kernel
  cases hs : Tx.runs .rsp 8 Tx.init ((List.range 16).flatMap fun f => sendOne 0 0 f ++ [.send 0]) with
  | none => rw [hs] at h; cases h
  | some s =>
    rw [hs] at h
    refine ⟨s, TxReach.runs _ .init ?_ hs, by simpa using h⟩
    intro m hm
    obtain ⟨f, hf, hm⟩ := List.mem_flatMap.1 hm
    have hf : f < 16 := List.mem_range.1 hf
    simp only [sendOne, List.mem_append, List.mem_cons, List.not_mem_nil, or_false] at hm
    rcases hm with (h | h | h | h | h) | h <;> subst h <;> simp [TxMove.Plain]
    all_goals omega

/-- A flit arriving between reading the ownership register and giving the descriptors
back is passed on in the next round. -/
example : ∃ s, Rx.runs .rsp 8 Rx.init ([.arrive 7, .step, .step, .step, .arrive 9] ++ List.replicate 17 .step) = some s ∧
    s.got = [7, 9] ∧ s.phase = .idle ∧ s.own = 0 := by
  have h : ((Rx.runs .rsp 8 Rx.init ([.arrive 7, .step, .step, .step, .arrive 9] ++ List.replicate 17 .step)).map fun s =>
      decide (s.got = [7, 9] ∧ s.phase = .idle ∧ s.own = 0)) = some true := by decide +kernel
  cases hs : Rx.runs .rsp 8 Rx.init ([.arrive 7, .step, .step, .step, .arrive 9] ++ List.replicate 17 .step) with
  | none => rw [hs] at h; cases h
  | some s => rw [hs] at h; exact ⟨s, rfl, by simpa using h⟩

end Verif.ChiHw
