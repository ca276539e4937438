import Verif.RPTime.Model

/-! # C09: time accounting -/

namespace Verif.RPTime

theorem deltaNs_pos (l r : Int) : 1 ≤ deltaNs l r := by
  unfold deltaNs; split <;> omega

/-- **C09 (single step).** Accounting any remote time stamp from a local offset
within the quantum never moves time backwards, advances it by at most the
quantum, and leaves the offset within the quantum. -/
theorem account_within_quantum (c : Cfg) (s : St) (rclk : Int) (h : s.loc ≤ c.quantum) :
    s.cur ≤ (accountTime c s rclk).cur ∧ (accountTime c s rclk).cur ≤ s.cur + c.quantum ∧
    (accountTime c s rclk).loc ≤ c.quantum ∧ (accountTime c s rclk).now = s.now := by
  unfold accountTime St.cur
  simp only []
  generalize (deltaNs (c.mapTime (s.now + s.loc)) rclk).toNat * c.ns = d
  repeat' split
  all_goals simp only [and_true]
  all_goals omega

/-- **C09 (minimum step).** The offset advances by at least one nanosecond, or
up to the quantum if that is nearer. -/
theorem account_minimum_step (c : Cfg) (s : St) (rclk : Int) :
    min (s.loc + c.ns) c.quantum ≤ (accountTime c s rclk).loc := by
  have hd : c.ns ≤ (deltaNs (c.mapTime s.cur) rclk).toNat * c.ns := by
    have := deltaNs_pos (c.mapTime s.cur) rclk
    exact Nat.le_mul_of_pos_left _ (by omega)
  unfold accountTime
  simp only []
  generalize (deltaNs (c.mapTime s.cur) rclk).toNat * c.ns = d at hd
  repeat' split
  all_goals simp only []
  all_goals omega

/-- **C09 (accuracy).** When the remote clock is ahead and the quantum allows it,
the local clock advances by exactly the difference. -/
theorem account_exact (c : Cfg) (s : St) (rclk : Int) (h : c.mapTime s.cur < rclk)
    (hq : s.loc + (rclk - c.mapTime s.cur).toNat * c.ns < c.quantum) :
    (accountTime c s rclk).cur = s.cur + (rclk - c.mapTime s.cur).toNat * c.ns := by
  have hd : deltaNs (c.mapTime s.cur) rclk = rclk - c.mapTime s.cur := by
    unfold deltaNs; rw [if_neg (by omega)]
  unfold accountTime
  simp only [hd]
  rw [if_neg (show ¬ _ > c.quantum by omega), if_neg (by omega)]
  simp only [St.cur]; omega

/-- The 64-bit subtraction in the code cannot overflow: local clocks are not
negative. -/
theorem deltaNs_fits (l r : Int) (hl : 0 ≤ l) (hr : r < 2 ^ 63) :
    1 ≤ deltaNs l r ∧ deltaNs l r < 2 ^ 63 := by
  unfold deltaNs; split <;> omega

/-- **C09 over histories (loosely timed).** From a state within the quantum,
whatever commands arrive and however much kernel time passes, with or without
permission to synchronise, time never runs backwards and the offset stays within
the quantum. -/
theorem loose_monotone (c : Cfg) (h : List Ev) (s : St) (hs : s.loc ≤ c.quantum) :
    s.cur ≤ (runLoose c s h).cur ∧ (runLoose c s h).loc ≤ c.quantum := by
  induction h generalizing s with
  | nil => exact ⟨Nat.le_refl _, hs⟩
  | cons e es ih =>
    cases e with
    | elapse n =>
      have := ih { s with now := s.now + n } hs
      refine ⟨?_, this.2⟩
      have h1 := this.1
      simp only [runLoose, St.cur] at *; omega
    | cmd r b =>
      obtain ⟨a1, -, a3, -⟩ := account_within_quantum c s r hs
      have hb : s.cur ≤ (looseSync c s r b).cur ∧ (looseSync c s r b).loc ≤ c.quantum := by
        unfold looseSync sync
        cases b
        · exact ⟨a1, a3⟩
        · simp only [if_true, St.cur] at *; omega
      have := ih (looseSync c s r b) hb.2
      exact ⟨by have := this.1; simp only [runLoose]; omega, this.2⟩

/-- **C09 over histories (untimed), when the adaptor may synchronise.** Time
never runs backwards, and every sync command advances it by at least one
nanosecond or the quantum, whichever is smaller, and by one nanosecond even if
the quantum is zero. -/
theorem untimed_progress_partial (c : Cfg) (s : St) (r : Int) (hs : s.loc = 0) :
    let s' := untimedSync c s r true
    s'.loc = 0 ∧ s.cur + min c.ns (if c.quantum = 0 then c.ns else c.quantum) ≤ s'.cur := by
  have h0 : s.loc ≤ c.quantum := by omega
  obtain ⟨a1, a2, a3, a4⟩ := account_within_quantum c s r h0
  have a5 := account_minimum_step c s r
  unfold untimedSync sync
  by_cases he : s.cur = (accountTime c s r).cur
  · simp only [he, if_true]
    simp only [St.cur] at *
    refine ⟨trivial, ?_⟩
    split <;> omega
  · simp only [he, if_true, if_false]
    simp only [St.cur] at *
    refine ⟨trivial, ?_⟩
    split <;> omega

/-- **C09 (no deadlock).** In an untimed history of `n` sync commands, all of
which may synchronise, time has advanced by at least `n` minimum steps. -/
theorem untimed_history_progress_partial (c : Cfg) (rs : List Int) (s : St) (hs : s.loc = 0) :
    s.cur + rs.length * min c.ns (if c.quantum = 0 then c.ns else c.quantum) ≤
      (runUntimed c s (rs.map (.cmd · true))).cur := by
  induction rs generalizing s with
  | nil => simp [runUntimed]
  | cons r rs ih =>
    obtain ⟨p1, p2⟩ := untimed_progress_partial c s r hs
    have := ih _ p1
    simp only [List.map_cons, runUntimed, List.length_cons, Nat.succ_mul]
    omega

example : ∃ c : Cfg, ∃ s : St, s.loc ≤ c.quantum ∧ s.loc ≠ 0 ∧ c.mapTime s.cur < 12 ∧
    s.loc + (12 - c.mapTime s.cur).toNat * c.ns < c.quantum ∧ 0 < c.ns :=
  ⟨{ ns := 1000, quantum := 1000000, mapTime := fun t => t / 1000 }, { now := 5000, loc := 2000 }, by decide⟩

/-- **C09 is violated by the untimed variant** when commands are handled without
permission to synchronise (from a thread other than the adaptor's): the forced
one-nanosecond step takes the offset past the quantum, and the next command
takes time back. -/
theorem untimed_runs_backwards :
    ∃ (c : Cfg) (s : St) (h : List Ev) (r : Int), s.loc ≤ c.quantum ∧ 0 < c.ns ∧ 0 < c.quantum ∧
      (runUntimed c s h).loc > c.quantum ∧
      (untimedSync c (runUntimed c s h) r false).cur < (runUntimed c s h).cur :=
  ⟨{ ns := 1, quantum := 10, mapTime := fun t => t }, { now := 0, loc := 0 },
    [.cmd 10 false, .cmd 10 false], 10, by decide⟩

/-- **C09 (minimum step) is violated by the loosely timed variant** with a zero
quantum (the simulator's default) or once the offset has reached the quantum:
no command advances time until a synchronisation. -/
theorem loose_no_progress (c : Cfg) (s : St) (rs : List Int) (h : s.loc = c.quantum) :
    (runLoose c s (rs.map (.cmd · false))) = s := by
  induction rs generalizing s with
  | nil => rfl
  | cons r rs ih =>
    have h2 : looseSync c s r false = s := by
      unfold looseSync accountTime
      simp only [Bool.false_eq_true, if_false]
      rw [if_pos (show s.loc + _ ≥ c.quantum by omega), ← h]
    simp only [List.map_cons, runLoose, h2]
    exact ih s h

example : ({ now := 7, loc := 0 } : St).loc = ({ ns := 1, quantum := 0, mapTime := fun t => t } : Cfg).quantum := rfl

end Verif.RPTime
