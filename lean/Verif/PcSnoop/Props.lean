import Verif.PcSnoop.Lemmas

/-! # The snoop-channel handshake checker: what it reports, and what it misses -/

set_option maxRecDepth 100000

namespace Verif.PcSnoop

/-- **C101** (part).  In an orderly history a missing snoop answer is reported exactly in the cycle
in which it has been owed and waited for `mx` cycles. -/
theorem cr_hang_exact_partial (mx per : Nat) (h : List Cyc) (c : Cyc) (ho : Orderly per h)
    (hl : h.length + 1 < 2 ^ 32) :
    Err.validHang ∈ (report mx per h c).cr ↔
      c.rst = false ∧ c.crv = false ∧ OwesCr h ∧ waitedCr h + 1 = mx := by
  have hv := cr_vw mx per h ho (by omega)
  have hw := crWait_iff mx per h ho (by omega)
  have hb := waitedCr_le h
  have hm : (waitedCr h + 1) % 2 ^ 32 = waitedCr h + 1 := Nat.mod_eq_of_lt (by omega)
  rcases c with ⟨rst, acv, acr, crv, crr, data, cdv, cdr⟩
  simp only [report, step]
  cases rst
  · simp only [Bool.false_eq_true, if_false, Mon.run, inc32, hv, hm, decide_eq_true_eq, hw]
    cases crv
    · by_cases e : OwesCr h ∧ waitedCr h + 1 = mx
      · simp [e.1, e.2]
      · have e2 : ¬ (OwesCr h ∧ waitedCr h + 1 = mx) := e
        simp only [if_true, if_neg e2, List.nil_append, true_and]
        constructor
        · intro x; split at x <;> simp at x
        · intro x; exact absurd x e2
    · cases crr
      · simp; exact not_hang _
      · simp
  · simp

/-- **C101** (part).  The same for data announced and not sent. -/
theorem cd_hang_exact_partial (mx per : Nat) (h : List Cyc) (c : Cyc) (ho : Orderly per h)
    (hl : h.length + 1 < 2 ^ 32) (hp : per * h.length < 2 ^ 32) :
    Err.validHang ∈ (report mx per h c).cd ↔
      c.rst = false ∧ c.cdv = false ∧ OwesCd per h ∧ waitedCd per h + 1 = mx := by
  have hv := cd_vw mx per h ho (by omega) hp
  have hw := cdWait_iff mx per h ho hp
  have hb := waitedCd_le per h
  have hm : (waitedCd per h + 1) % 2 ^ 32 = waitedCd per h + 1 := Nat.mod_eq_of_lt (by omega)
  rcases c with ⟨rst, acv, acr, crv, crr, data, cdv, cdr⟩
  simp only [report, step]
  cases rst
  · simp only [Bool.false_eq_true, if_false, Mon.run, inc32, hv, hm, decide_eq_true_eq, hw]
    cases cdv
    · by_cases e : OwesCd per h ∧ waitedCd per h + 1 = mx
      · simp [e.1, e.2]
      · have e2 : ¬ (OwesCd per h ∧ waitedCd per h + 1 = mx) := e
        simp only [if_true, if_neg e2, List.nil_append, true_and]
        constructor
        · intro x; split at x <;> simp at x
        · intro x; exact absurd x e2
    · cases cdr
      · simp; exact not_hang _
      · simp
  · simp

/-- A snoop, answered with data; one of two beats comes; then three cycles pass. -/
def late : List Cyc :=
  [{}, {}, { cdv := true, cdr := true }, { crv := true, crr := true, data := true },
   { acv := true, acr := true }]

example : Orderly 2 late ∧ OwesCd 2 late ∧ (report 3 2 late {}).cd = [.validHang] ∧
    (report 3 2 late {}).cr = [] ∧
    (report 3 2 [{}, {}, { acv := true, acr := true }] {}).cr = [.validHang] := by
  simp only [late, Orderly]; decide +kernel

/-- **C101** (part).  An answer taken back before it was taken is reported, in every cycle without
one until the next; and one not taken for `mx` cycles is reported in that cycle. -/
theorem cr_dropped_exact_partial (mx per : Nat) (h : List Cyc) (c : Cyc)
    (hl : h.length + 1 < 2 ^ 32) :
    (Err.dropped ∈ (report mx per h c).cr ↔ c.rst = false ∧ c.crv = false ∧ 0 < heldCr h) ∧
    (Err.readyHang ∈ (report mx per h c).cr ↔
      c.rst = false ∧ c.crv = true ∧ c.crr = false ∧ heldCr h + 1 = mx) := by
  have hv := cr_rw mx per h (by omega)
  have hb := heldCr_le h
  have hm : (heldCr h + 1) % 2 ^ 32 = heldCr h + 1 := Nat.mod_eq_of_lt (by omega)
  rcases c with ⟨rst, acv, acr, crv, crr, data, cdv, cdr⟩
  simp only [report, step]
  cases rst
  · simp only [Bool.false_eq_true, if_false, Mon.run, inc32, hv, hm]
    cases crv
    · constructor
      · by_cases e : heldCr h = 0
        · simp [e]
        · have : 0 < heldCr h := by omega
          simp [e, this]
      · by_cases e : heldCr h = 0
        · simp [e]
        · simp [e]
    · cases crr
      · by_cases e : heldCr h + 1 = mx
        · simp [e]
        · simp [e]
      · simp
  · simp

example : (report 9 2 [{ crv := true }, { acv := true, acr := true }] {}).cr = [.dropped] ∧
    (report 1 2 [{ acv := true, acr := true }] { crv := true }).cr = [.readyHang] := by
  decide +kernel

/-- **C101** (part).  The same for a snoop. -/
theorem ac_dropped_exact_partial (mx per : Nat) (h : List Cyc) (c : Cyc)
    (hl : h.length + 1 < 2 ^ 32) :
    (Err.dropped ∈ (report mx per h c).ac ↔ c.rst = false ∧ c.acv = false ∧ 0 < heldAc h) ∧
    (Err.readyHang ∈ (report mx per h c).ac ↔
      c.rst = false ∧ c.acv = true ∧ c.acr = false ∧ heldAc h + 1 = mx) := by
  have hv := ac_rw mx per h (by omega)
  have hb := heldAc_le h
  have hm : (heldAc h + 1) % 2 ^ 32 = heldAc h + 1 := Nat.mod_eq_of_lt (by omega)
  rcases c with ⟨rst, acv, acr, crv, crr, data, cdv, cdr⟩
  simp only [report, step]
  cases rst
  · simp only [Bool.false_eq_true, if_false, Mon.run, inc32, hv, hm]
    cases acv
    · constructor
      · by_cases e : heldAc h = 0
        · simp [e]
        · have : 0 < heldAc h := by omega
          simp [e, this]
      · by_cases e : heldAc h = 0
        · simp [e]
        · simp [e]
    · cases acr
      · by_cases e : heldAc h + 1 = mx
        · simp [e]
        · simp [e]
      · simp
  · simp

example : (report 9 2 [{ acv := true }] {}).ac = [.dropped] ∧
    (report 1 2 [] { acv := true }).ac = [.readyHang] := by decide +kernel

/-- **C101** (part).  The same for a data beat. -/
theorem cd_dropped_exact_partial (mx per : Nat) (h : List Cyc) (c : Cyc)
    (hl : h.length + 1 < 2 ^ 32) :
    (Err.dropped ∈ (report mx per h c).cd ↔ c.rst = false ∧ c.cdv = false ∧ 0 < heldCd h) ∧
    (Err.readyHang ∈ (report mx per h c).cd ↔
      c.rst = false ∧ c.cdv = true ∧ c.cdr = false ∧ heldCd h + 1 = mx) := by
  have hv := cd_rw mx per h (by omega)
  have hb := heldCd_le h
  have hm : (heldCd h + 1) % 2 ^ 32 = heldCd h + 1 := Nat.mod_eq_of_lt (by omega)
  rcases c with ⟨rst, acv, acr, crv, crr, data, cdv, cdr⟩
  simp only [report, step]
  cases rst
  · simp only [Bool.false_eq_true, if_false, Mon.run, inc32, hv, hm]
    cases cdv
    · constructor
      · by_cases e : heldCd h = 0
        · simp [e]
        · have : 0 < heldCd h := by omega
          simp [e, this]
      · by_cases e : heldCd h = 0
        · simp [e]
        · simp [e]
    · cases cdr
      · by_cases e : heldCd h + 1 = mx
        · simp [e]
        · simp [e]
      · simp
  · simp

example : (report 9 2 [{ cdv := true }] {}).cd = [.dropped] ∧
    (report 1 2 [] { cdv := true }).cd = [.readyHang] := by decide +kernel

/-- **C101** (part).  Nobody owes a snoop: none is ever reported missing. -/
theorem ac_never_missing (mx per : Nat) (h : List Cyc) (c : Cyc) :
    Err.validHang ∉ (report mx per h c).ac := by
  rcases c with ⟨rst, acv, acr, crv, crr, data, cdv, cdr⟩
  simp only [report, step]
  cases rst
  · cases acv
    · by_cases e : (after mx per h).ac.rw = 0 <;> simp [Mon.run, e]
    · cases acr
      · simp [Mon.run]
      · simp [Mon.run]
  · simp

example : (report 1 2 [{}, {}] {}).ac = [] := by decide +kernel

/-- After reset, nothing is remembered. -/
theorem reset_forgets (mx per : Nat) (h : List Cyc) (c : Cyc) (hc : c.rst = true) :
    after mx per (c :: h) = after mx per [] ∧ report mx per h c = {} := by
  simp [after, report, step, hc]

example : (after 3 2 ({ rst := true } :: late)) = {} := by decide +kernel

theorem idle_after (mx per : Nat) (h : List Cyc) (n : Nat)
    (h0 : (after mx per h).ncr = 0) (h1 : (after mx per h).ncd = 0) :
    after mx per (List.replicate n idle ++ h) = after mx per h := by
  induction n with
  | zero => rfl
  | succ n ih =>
    simp only [List.replicate_succ, List.cons_append, after]
    rw [ih]
    generalize after mx per h = s at *
    rcases s with ⟨⟨_, _⟩, ⟨_, _⟩, ⟨_, _⟩, ncr, ncd⟩
    simp only at h0 h1
    simp [idle, step, Mon.run, h0, h1, nextCr, nextCd]

/-- **C101 is false.**  An answer nobody asked for is not reported, and the snoop after it may stay
without an answer for ever: no number of idle cycles brings a report. -/
theorem spurious_answer_masks (mx per n : Nat) :
    let ask : Cyc := { acv := true, acr := true }
    let answer : Cyc := { crv := true, crr := true }
    report mx per [] answer = {} ∧
    OwesCr [ask, idle] ∧
    report mx per (List.replicate n idle ++ [ask, answer]) idle = {} := by
  intro ask answer
  have h0 : after mx per [ask, answer] = { cr := { vw := 1 } } := by
    simp [after, step, Mon.run, ask, answer, nextCr, nextCd, inc32, dec32]
  refine ⟨by simp [report, after, step, Mon.run, answer], by decide, ?_⟩
  rw [report, idle_after mx per _ n (by rw [h0]) (by rw [h0]), h0]
  simp [idle, step, Mon.run]

/-- **C101 is false.**  A data beat sent after its snoop but before its answer is taken for a debt of
`2^32 - 1` beats: while the answer is not there, the data channel is reported to hang after `mx`
cycles though nothing is owed on it. -/
theorem early_data_false_hang (mx per : Nat) (h0 : 0 < mx) (hm : mx < 2 ^ 32) :
    let ask : Cyc := { acv := true, acr := true }
    let beat : Cyc := { cdv := true, cdr := true }
    let h := List.replicate (mx - 1) idle ++ [beat, ask]
    ¬ OwesCd per h ∧ Err.validHang ∈ (report mx per h idle).cd := by
  intro ask beat h
  have key : ∀ n, n < mx → (after mx per (List.replicate n idle ++ [beat, ask])).ncd = 2 ^ 32 - 1 ∧
      (after mx per (List.replicate n idle ++ [beat, ask])).cd.vw = n ∧
      count crdHs (List.replicate n idle ++ [beat, ask]) = 0 := by
    intro n
    induction n with
    | zero =>
      intro _
      simp [after, step, Mon.run, ask, beat, nextCd, dec32, count, crdHs]
    | succ n ih =>
      intro hn
      obtain ⟨i1, i2, i3⟩ := ih (by omega)
      simp only [List.replicate_succ, List.cons_append, after, count]
      generalize after mx per (List.replicate n idle ++ [beat, ask]) = s at *
      refine ⟨by simp [idle, step, Mon.run, nextCd, i1], ?_, by
        rw [show idle.rst = false from rfl, show crdHs idle = false from rfl]; simpa using i3⟩
      simp [idle, step, Mon.run, i1, i2, inc32]
      omega
  obtain ⟨k1, k2, k3⟩ := key (mx - 1) (by omega)
  refine ⟨by unfold OwesCd; rw [k3]; simp, ?_⟩
  simp only [report, h]
  generalize after mx per (List.replicate (mx - 1) idle ++ [beat, ask]) = s at *
  have e : inc32 (mx - 1) = mx := by unfold inc32; omega
  simp [idle, step, Mon.run, k1, k2, e]

example : (report 2 4 [{}, { cdv := true, cdr := true }, { acv := true, acr := true }] {}).cd =
    [.validHang] := by decide +kernel

end Verif.PcSnoop
