import Verif.PcAce.Reads

/-! # C72: acknowledgements under the ACE checker -/

namespace Verif.PcAce

/-! ## Specification

A trace gives, for each cycle, whether the last beat of an answer was accepted, and whether `RACK` (or
`WACK`) was asserted. -/

def fins (tr : List (Bool × Bool)) : Nat := tr.countP (·.1)
def acks (tr : List (Bool × Bool)) : Nat := tr.countP (·.2)

/-- Every acknowledgement is for an answer completed in an earlier cycle, one for each. -/
def AcksOk (tr : List (Bool × Bool)) : Prop :=
  ∀ pre fin, pre ++ [(fin, true)] <+: tr → acks pre < fins pre

/-- In cycle `i` an acknowledgement is due, and not given. -/
def Due (tr : List (Bool × Bool)) (i : Nat) : Prop :=
  ∃ fin, tr[i]? = some (fin, false) ∧ acks (tr.take i) < fins (tr.take i)

/-! ## Proof -/

/-- The number of cycles at the end of the trace in which one is due and not given. -/
structure AckRel (s : Ack) (pre : List (Bool × Bool)) : Prop where
  expect : s.expect + acks pre = fins pre
  le : s.waited ≤ pre.length
  due : ∀ k < s.waited, Due pre (pre.length - 1 - k)
  stop : s.waited < pre.length → ¬ Due pre (pre.length - 1 - s.waited)

theorem fins_snoc (pre : List (Bool × Bool)) (x : Bool × Bool) : fins (pre ++ [x]) = fins pre + if x.1 then 1 else 0 := by
  unfold fins; rw [List.countP_append, List.countP_singleton]

theorem acks_snoc (pre : List (Bool × Bool)) (x : Bool × Bool) : acks (pre ++ [x]) = acks pre + if x.2 then 1 else 0 := by
  unfold acks; rw [List.countP_append, List.countP_singleton]

theorem fins_le (l : List (Bool × Bool)) : fins l ≤ l.length := List.countP_le_length

theorem due_snoc_lt (pre : List (Bool × Bool)) (x : Bool × Bool) (i : Nat) (h : i < pre.length) :
    Due (pre ++ [x]) i ↔ Due pre i := by
  unfold Due
  rw [List.getElem?_append_left h, List.take_append_of_le_length (Nat.le_of_lt h)]

theorem due_snoc_last (pre : List (Bool × Bool)) (x : Bool × Bool) :
    Due (pre ++ [x]) pre.length ↔ x.2 = false ∧ acks pre < fins pre := by
  unfold Due
  rw [List.take_left, List.getElem?_append_right (Nat.le_refl _), Nat.sub_self]
  obtain ⟨f, a⟩ := x
  constructor
  · rintro ⟨fin, h1, h2⟩
    rw [List.getElem?_cons_zero, Option.some.injEq, Prod.mk.injEq] at h1
    exact ⟨h1.2, h2⟩
  · rintro ⟨h1, h2⟩
    dsimp only at h1
    exact ⟨f, by rw [h1]; rfl, h2⟩

/-- No cycle before a due one is due unless every one in between is: once due, it stays so until it is given. -/
theorem ack_step {max : Nat} {s : Ack} {pre : List (Bool × Bool)} (h : AckRel s pre) (hl : pre.length + 1 < 2 ^ 32)
    (x : Bool × Bool) (hok : x.2 = true → acks pre < fins pre) :
    AckRel (s.step max x.1 x.2).1 (pre ++ [x]) ∧ AErr.unexpected ∉ (s.step max x.1 x.2).2 ∧
      (AErr.late ∈ (s.step max x.1 x.2).2 ↔ Due (pre ++ [x]) pre.length ∧ (s.step max x.1 x.2).1.waited = max) := by
  obtain ⟨fin, ack⟩ := x
  have he := h.expect
  have hle := h.le
  have hf := fins_le pre
  have hinc : (s.expect + 1) % 2 ^ 32 = s.expect + 1 := Nat.mod_eq_of_lt (by omega)
  have hw : (s.waited + 1) % 2 ^ 32 = s.waited + 1 := Nat.mod_eq_of_lt (by omega)
  have e1 : ∀ s1 : Ack, s1 = (if fin = true then { s with expect := (s.expect + 1) % 2 ^ 32 } else s) →
      s1.expect + acks pre = fins (pre ++ [(fin, ack)]) ∧ s1.waited = s.waited ∧ s1.expect ≤ s.expect + 1 := by
    intro s1 h1
    rw [fins_snoc]
    cases fin with
    | true => rw [h1, if_pos rfl, hinc]; refine ⟨?_, rfl, Nat.le_refl _⟩; show s.expect + 1 + _ = _; rw [if_pos rfl]; omega
    | false => rw [h1]; refine ⟨?_, rfl, Nat.le_succ _⟩; simpa using he
  unfold Ack.step
  dsimp only
  generalize hs1 : (if fin = true then { s with expect := (s.expect + 1) % 2 ^ 32 } else s) = s1
  obtain ⟨g1, g2, g3⟩ := e1 s1 hs1.symm
  cases ack with
  | true =>
    have hlt := hok rfl
    have hexp : decide (s.expect > 0) = true := decide_eq_true (by omega)
    rw [hexp]
    simp only [Bool.not_true, Bool.and_false, Bool.false_eq_true, if_false, if_true]
    have hge : s.expect ≤ s1.expect := by
      rw [← hs1]; cases fin
      · exact Nat.le_refl _
      · show s.expect ≤ (s.expect + 1) % 2 ^ 32; omega
    have hm : (s1.expect + 2 ^ 32 - 1) % 2 ^ 32 = s1.expect - 1 := by omega
    have hnd : ¬ Due (pre ++ [(fin, true)]) pre.length := by
      rw [due_snoc_last]
      rintro ⟨h, _⟩; cases h
    refine ⟨⟨?_, Nat.zero_le _, fun k hk => absurd hk (Nat.not_lt_zero _), ?_⟩, by simp, ?_⟩
    · show (s1.expect + 2 ^ 32 - 1) % 2 ^ 32 + _ = _
      rw [acks_snoc, ← g1, hm, if_pos rfl]
      omega
    · intro _
      have : (pre ++ [(fin, true)]).length - 1 - 0 = pre.length := by simp
      rw [this]; exact hnd
    · simp [hnd]
  | false =>
    simp only [Bool.false_and, Bool.false_eq_true, if_false]
    have hack : acks (pre ++ [(fin, false)]) = acks pre := by rw [acks_snoc]; rfl
    by_cases hexp : s.expect > 0
    · rw [decide_eq_true hexp]
      simp only [if_true]
      have hd : Due (pre ++ [(fin, false)]) pre.length := by
        rw [due_snoc_last]; exact ⟨rfl, by omega⟩
      have hlen : (pre ++ [(fin, false)]).length = pre.length + 1 := by simp
      rw [g2, hw]
      refine ⟨⟨by rw [hack]; exact g1, by rw [hlen]; exact Nat.succ_le_succ hle, ?_, ?_⟩, ?_, ?_⟩
      · intro k hk
        rw [hlen]
        cases k with
        | zero => exact hd
        | succ k =>
          have hk' : k < s.waited := Nat.lt_of_succ_lt_succ hk
          have := h.due k hk'
          rw [show pre.length + 1 - 1 - (k + 1) = pre.length - 1 - k by omega, due_snoc_lt _ _ _ (by omega)]
          exact this
      · rw [hlen]
        intro hlt
        have hlt' : s.waited < pre.length := Nat.lt_of_succ_lt_succ hlt
        show ¬ Due _ (pre.length + 1 - 1 - (s.waited + 1))
        rw [show pre.length + 1 - 1 - (s.waited + 1) = pre.length - 1 - s.waited by omega, due_snoc_lt _ _ _ (by omega)]
        exact h.stop hlt'
      · unfold err; split <;> simp
      · unfold err
        by_cases c : s.waited + 1 = max <;> simp [c, hd]
    · have h0 : s.expect = 0 := by omega
      rw [decide_eq_false hexp]
      simp only [Bool.false_eq_true, if_false]
      have hnd : ¬ Due (pre ++ [(fin, false)]) pre.length := by
        rw [due_snoc_last]; rintro ⟨_, h⟩; omega
      have hlen : (pre ++ [(fin, false)]).length = pre.length + 1 := by simp
      have hw0 : s.waited = 0 := by
        rcases Nat.eq_zero_or_pos s.waited with c | c
        · exact c
        · exfalso
          obtain ⟨f, hx, hlt⟩ := h.due 0 c
          have hne : pre ≠ [] := by intro e; rw [e] at hle; simp at hle; omega
          obtain ⟨l, y, rfl⟩ : ∃ l y, pre = l ++ [y] := ⟨pre.dropLast, pre.getLast hne, (List.dropLast_concat_getLast hne).symm⟩
          have : (l ++ [y]).length - 1 - 0 = l.length := by simp
          rw [this, List.take_left] at hlt
          rw [this, List.getElem?_append_right (Nat.le_refl _), Nat.sub_self, List.getElem?_cons_zero, Option.some.injEq] at hx
          rw [acks_snoc, fins_snoc, hx, h0] at he
          simp at he
          omega
      rw [← g2] at hw0
      refine ⟨⟨by rw [hack]; exact g1, by rw [hw0]; exact Nat.zero_le _, ?_, ?_⟩, by simp, by simp [hnd]⟩
      · intro k hk; rw [hw0] at hk; exact absurd hk (Nat.not_lt_zero _)
      · intro _
        rw [hlen, hw0]; exact hnd

/-- The errors of a run, given what happened before. -/
theorem ack_run (max : Nat) (tr pre : List (Bool × Bool)) (s : Ack) (h : AckRel s pre) (hl : (pre ++ tr).length < 2 ^ 32)
    (hp : AcksOk pre) :
    (AErr.unexpected ∉ (Ack.run max s tr).2 ↔ AcksOk (pre ++ tr)) := by
  induction tr generalizing pre s with
  | nil => simpa [Ack.run] using hp
  | cons x t ih =>
    rw [Ack.run]
    dsimp only
    have hl1 : pre.length + 1 < 2 ^ 32 := by
      rw [List.length_append, List.length_cons] at hl; omega
    have happ : pre ++ x :: t = (pre ++ [x]) ++ t := by simp
    rw [List.mem_append, not_or]
    by_cases hok : x.2 = true → acks pre < fins pre
    · obtain ⟨h1, h2, _⟩ := ack_step (max := max) h hl1 x hok
      have hp' : AcksOk (pre ++ [x]) := by
        intro p f hpre
        rcases List.prefix_concat_iff.mp hpre with e | e
        · obtain ⟨e1, e2⟩ := List.append_inj' e rfl
          rw [List.cons.injEq] at e2
          rw [e1]
          apply hok
          rw [← e2.1]
        · exact hp p f e
      rw [happ, ← ih (pre ++ [x]) _ h1 (by rw [← happ]; exact hl) hp']
      exact ⟨fun h => h.2, fun h => ⟨h2, h⟩⟩
    · have hx : x.2 = true ∧ ¬ acks pre < fins pre := by
        by_cases c : x.2 = true
        · exact ⟨c, fun h => hok fun _ => h⟩
        · exact absurd (fun e => absurd e c) hok
      constructor
      · rintro ⟨e, _⟩
        exfalso
        apply e
        have he := h.expect
        have : s.expect = 0 := by omega
        unfold Ack.step
        simp [hx.1, this]
      · intro hA
        exfalso
        apply hx.2
        refine hA pre x.1 ?_
        rw [happ]
        have : x = (x.1, true) := by rw [← hx.1]
        rw [← this]
        exact List.prefix_append _ _

theorem rel_nil : AckRel {} [] := ⟨rfl, Nat.le_refl _, fun _ h => absurd h (Nat.not_lt_zero _), fun h => absurd h (Nat.not_lt_zero _)⟩

/-- **An acknowledgement is reported as unexpected exactly if it comes before the answer it is for**, for every
trace the 32-bit counter can count. -/
theorem unexpected_ack_exact (max : Nat) (tr : List (Bool × Bool)) (hl : tr.length < 2 ^ 32) :
    AErr.unexpected ∉ (Ack.run max {} tr).2 ↔ AcksOk tr := by
  have := ack_run max tr [] {} rel_nil (by simpa using hl) (fun pre f h => by simp at h)
  simpa using this

theorem late_run (max : Nat) (hm : 0 < max) (tr pre : List (Bool × Bool)) (s : Ack) (h : AckRel s pre)
    (hl : (pre ++ tr).length < 2 ^ 32) (hok : AcksOk (pre ++ tr)) :
    (AErr.late ∈ (Ack.run max s tr).2 ↔
      ∃ i, pre.length ≤ i ∧ max ≤ i + 1 ∧ (∀ k < max, Due (pre ++ tr) (i - k)) ∧ (max ≤ i → ¬ Due (pre ++ tr) (i - max))) := by
  induction tr generalizing pre s with
  | nil =>
    constructor
    · intro h; cases h
    · rintro ⟨i, h1, _, h3, _⟩
      obtain ⟨f, hf, _⟩ := h3 0 hm
      rw [List.append_nil, List.getElem?_eq_none (by omega)] at hf
      cases hf
  | cons x t ih =>
    rw [Ack.run]
    dsimp only
    have hl1 : pre.length + 1 < 2 ^ 32 := by
      rw [List.length_append, List.length_cons] at hl; omega
    have happ : pre ++ x :: t = (pre ++ [x]) ++ t := by simp
    have hx : x.2 = true → acks pre < fins pre := by
      intro e
      refine hok pre x.1 ?_
      rw [happ]
      have : x = (x.1, true) := by rw [← e]
      rw [← this]
      exact List.prefix_append _ _
    obtain ⟨h1, _, h3⟩ := ack_step (max := max) h hl1 x hx
    have hlen : (pre ++ [x]).length = pre.length + 1 := by simp
    have mono : ∀ i, i < (pre ++ [x]).length → (Due (pre ++ x :: t) i ↔ Due (pre ++ [x]) i) := by
      intro i hi
      unfold Due
      rw [happ, List.getElem?_append_left hi, List.take_append_of_le_length (Nat.le_of_lt hi)]
    rw [List.mem_append, h3, ih _ _ h1 (by rw [← happ]; exact hl) (by rw [← happ]; exact hok), ← happ, hlen]
    generalize (s.step max x.1 x.2).1 = s' at h1
    have hdue := h1.due
    have hstop := h1.stop
    have hle := h1.le
    rw [hlen] at hdue hstop hle
    constructor
    · rintro (⟨hd, hw⟩ | ⟨i, g1, g2⟩)
      · refine ⟨pre.length, Nat.le_refl _, by omega, ?_, ?_⟩
        · intro k hk
          rw [mono _ (by rw [hlen]; omega)]
          exact hdue k (by omega)
        · intro hmi
          rw [mono _ (by rw [hlen]; omega), ← hw]
          have := hstop (by omega)
          simpa using this
      · exact ⟨i, by omega, g2⟩
    · rintro ⟨i, g1, g2, g3, g4⟩
      by_cases c : i = pre.length
      · left
        subst c
        have hd : ∀ k < max, Due (pre ++ [x]) (pre.length - k) := fun k hk => (mono _ (by rw [hlen]; omega)).mp (g3 k hk)
        refine ⟨hd 0 hm, ?_⟩
        rcases Nat.lt_trichotomy s'.waited max with c | c | c
        · exfalso
          have := hstop (by omega)
          exact this (by have := hd s'.waited c; simpa using this)
        · exact c
        · exfalso
          have := hdue max c
          refine g4 (by omega) ((mono _ (by rw [hlen]; omega)).mpr ?_)
          simpa using this
      · right
        exact ⟨i, by omega, g2, g3, g4⟩

/-- **A missing acknowledgement is reported exactly if one is due for `max` cycles on end without being given.**
Together with `unexpected_ack_exact`, for traces without unexpected ones. -/
theorem late_ack_exact (max : Nat) (hm : 0 < max) (tr : List (Bool × Bool)) (hl : tr.length < 2 ^ 32) (hok : AcksOk tr) :
    AErr.late ∈ (Ack.run max {} tr).2 ↔ ∃ n, ∀ k < max, Due tr (n + k) := by
  have := late_run max hm tr [] {} rel_nil (by simpa using hl) (by simpa using hok)
  rw [this]
  simp only [List.nil_append, List.length_nil, Nat.zero_le, true_and]
  constructor
  · rintro ⟨i, g1, g2, _⟩
    refine ⟨i + 1 - max, fun k hk => ?_⟩
    have := g2 (max - 1 - k) (by omega)
    rwa [show i - (max - 1 - k) = i + 1 - max + k by omega] at this
  · rintro ⟨n, hn⟩
    -- the start of the stretch that contains `n`
    have start : ∃ m, m ≤ n ∧ (∀ k, m ≤ k → k < n + max → Due tr k) ∧ (0 < m → ¬ Due tr (m - 1)) := by
      induction n with
      | zero => exact ⟨0, Nat.le_refl _, fun k _ hk => by have := hn k (by omega); rwa [Nat.zero_add] at this, fun h => absurd h (Nat.lt_irrefl _)⟩
      | succ n ihn =>
        rcases Classical.em (Due tr n) with c | c
        · obtain ⟨m, m1, m2, m3⟩ := ihn (fun k hk => by
            cases k with
            | zero => exact c
            | succ k => have := hn k (by omega); rwa [show n + 1 + k = n + (k + 1) by omega] at this)
          refine ⟨m, by omega, fun k h1 h2 => ?_, m3⟩
          rcases Nat.lt_or_ge k (n + max) with d | d
          · exact m2 k h1 d
          · have := hn (k - (n + 1)) (by omega)
            rwa [show n + 1 + (k - (n + 1)) = k by omega] at this
        · refine ⟨n + 1, Nat.le_refl _, fun k h1 h2 => ?_, fun _ => c⟩
          have := hn (k - (n + 1)) (by omega)
          rwa [show n + 1 + (k - (n + 1)) = k by omega] at this
    obtain ⟨m, m1, m2, m3⟩ := start
    refine ⟨m + max - 1, by omega, fun k hk => m2 _ (by omega) (by omega), fun hmi => ?_⟩
    rw [show m + max - 1 - max = m - 1 by omega]
    exact m3 (by omega)

/-! ## Concrete traces -/

def sampleAck : List (Bool × Bool) :=
  [(true, false), (false, true), (true, false), (true, true), (false, false), (false, false), (false, false), (false, true)]

instance (tr : List (Bool × Bool)) (i : Nat) : Decidable (Due tr i) :=
  match h : tr[i]? with
  | none => .isFalse fun ⟨_, e, _⟩ => by rw [h] at e; cases e
  | some (f, a) =>
    decidable_of_iff (a = false ∧ acks (tr.take i) < fins (tr.take i))
      ⟨fun ⟨e, hl⟩ => ⟨f, by rw [h, e], hl⟩, fun ⟨f', e, hl⟩ => by rw [h] at e; cases e; exact ⟨rfl, hl⟩⟩

example : AcksOk sampleAck := (unexpected_ack_exact 3 sampleAck (by decide)).mp (by decide)
example : ∀ k < 3, Due sampleAck (4 + k) := by decide
example : (Ack.run 3 {} sampleAck).2 = [.late] ∧ (Ack.run 4 {} sampleAck).2 = [] := by decide
/-- An acknowledgement in the very cycle of the last beat is too early. -/
example : (Ack.run 3 {} [(true, true)]).2 = [.unexpected] := by decide

end Verif.PcAce
