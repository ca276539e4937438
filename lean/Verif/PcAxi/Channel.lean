import Verif.PcAxi.Model

/-! # C47: one channel under the protocol checker

The rule of the AXI specification (A3.2.1, A3.2.2): once `valid` is asserted it stays asserted, with the
payload unchanged, until the handshake. -/

namespace Verif.PcAxi

section
variable {σ : Type} [DecidableEq σ]

/-! ## Specification -/

/-- A cycle in which `valid` waits for `ready`. -/
def Sample.waiting (s : Sample σ) : Prop := s.valid = true ∧ s.ready = false

/-- The rule, between every two cycles. -/
def Rule : List (Sample σ) → Prop
  | a :: b :: t => (a.waiting → b.valid = true ∧ b.pay = a.pay) ∧ Rule (b :: t)
  | _ => True

/-- `valid` is low in the cycle after each handshake. -/
def Spaced : List (Sample σ) → Prop
  | a :: b :: t => (a.valid = true → a.ready = true → b.valid = false) ∧ Spaced (b :: t)
  | _ => True

/-! ## The two monitors together -/

/-- The stability monitor and the handshake monitor of one channel, `inc` being whether `valid` is
expected in each cycle: does either report an error other than a hang-up? -/
def bad : Stable σ → Hs → List (Sample σ × Bool) → Prop
  | _, _, [] => False
  | m, h, (s, inc) :: t =>
    (m.step s).2 = true ∨ HsErr.dropped ∈ (h.step 0 inc s.valid s.ready).2.1 ∨
      bad (m.step s).1 (h.step 0 inc s.valid s.ready).1 t

/-- The monitors' state after a cycle, when the rule was kept so far. -/
def After (s : Sample σ) (m : Stable σ) (h : Hs) (n : Nat) : Prop :=
  (s.waiting → m = .mon s.pay ∧ 0 < h.readyWait ∧ h.readyWait ≤ n) ∧
  (¬ s.waiting → m = .idle s.valid ∧ h.readyWait = 0)

theorem inc32_pos {n : Nat} (h : n + 1 < 2 ^ 32) : inc32 n = n + 1 := Nat.mod_eq_of_lt h

theorem idle_quiet (p : Bool) (b : Sample σ) : (Stable.step (.idle p) b).2 = false := by
  simp only [Stable.step]
  split
  · rfl
  · split <;> rfl

omit [DecidableEq σ] in
theorem readyWait_step (max : Nat) (h : Hs) (inc : Bool) (s : Sample σ) :
    (h.step max inc s.valid s.ready).1.readyWait =
      if s.valid = false then h.readyWait else if s.ready = false then inc32 h.readyWait else 0 := by
  unfold Hs.step
  cases s.valid <;> cases s.ready <;> cases inc <;> rfl

omit [DecidableEq σ] in
theorem dropped_iff (max : Nat) (h : Hs) (inc : Bool) (s : Sample σ) :
    HsErr.dropped ∈ (h.step max inc s.valid s.ready).2.1 ↔ s.valid = false ∧ h.readyWait ≠ 0 := by
  unfold Hs.step
  cases s.valid <;> cases s.ready <;> cases inc <;> simp <;> by_cases c : h.readyWait = 0 <;> simp [c] <;>
    split <;> simp

theorem bad_iff (a : Sample σ) (m : Stable σ) (h : Hs) (n : Nat) (tr : List (Sample σ × Bool))
    (hA : After a m h n) (hl : n + tr.length < 2 ^ 32) (hr : ∀ x ∈ tr, x.1.rst = false)
    (hs : Spaced (a :: tr.map (·.1))) :
    bad m h tr ↔ ¬ Rule (a :: tr.map (·.1)) := by
  induction tr generalizing a m h n with
  | nil => simp [bad, Rule]
  | cons x t ih =>
    obtain ⟨b, inc⟩ := x
    have hb : b.rst = false := hr _ (List.mem_cons_self ..)
    have hr' : ∀ x ∈ t, x.1.rst = false := fun x hx => hr x (List.mem_cons_of_mem _ hx)
    have hs' : Spaced (b :: t.map (·.1)) := hs.2
    simp only [List.length_cons] at hl
    show ((m.step b).2 = true ∨ HsErr.dropped ∈ (h.step 0 inc b.valid b.ready).2.1 ∨
      bad (m.step b).1 (h.step 0 inc b.valid b.ready).1 t) ↔
      ¬ ((a.waiting → b.valid = true ∧ b.pay = a.pay) ∧ Rule (b :: t.map (·.1)))
    rw [dropped_iff]
    by_cases w : a.waiting
    · obtain ⟨rfl, h1, h2⟩ := hA.1 w
      by_cases e : b.valid = true ∧ b.pay = a.pay
      · have hA' : After b (Stable.step (.mon a.pay) b).1 (h.step 0 inc b.valid b.ready).1 (n + 1) := by
          unfold After
          rw [readyWait_step, inc32_pos (by omega)]
          simp only [Stable.step, hb, Sample.waiting, e.1, ← e.2]
          cases b.ready <;> simp <;> omega
        have := ih b _ _ (n + 1) hA' (by omega) hr' hs'
        rw [this]
        simp [Stable.step, hb, e.1, e.2, w]
      · have hL : (Stable.step (.mon a.pay) b).2 = true ∨ (b.valid = false ∧ h.readyWait ≠ 0) := by
          by_cases c : b.valid = true
          · left
            have : ¬ (b.pay = a.pay) := fun x => e ⟨c, x⟩
            simp [Stable.step, hb]
            exact fun x => this x.symm
          · exact Or.inr ⟨by simpa using c, by omega⟩
        constructor
        · intro _ hn
          exact e (hn.1 w)
        · intro _
          rcases hL with x | x
          · exact Or.inl x
          · exact Or.inr (Or.inl x)
    · obtain ⟨rfl, h1⟩ := hA.2 w
      have hA' : After b (Stable.step (.idle a.valid) b).1 (h.step 0 inc b.valid b.ready).1 (n + 1) := by
        unfold After
        rw [readyWait_step, h1]
        have hsp := hs.1
        have e1 : inc32 0 = 1 := rfl
        rw [e1]
        simp only [Sample.waiting, Stable.step, hb] at w ⊢
        cases av : a.valid <;> cases ar : a.ready <;> cases bv : b.valid <;> cases br : b.ready <;>
          simp_all
      have := ih b _ _ (n + 1) hA' (by omega) hr' hs'
      rw [this]
      have h0 : (Stable.step (.idle a.valid) b).2 = false := idle_quiet _ _
      simp [h0, h1, w]

/-- **The checker reports a channel iff it breaks the rule**, for every trace without resets in which
`valid` is deasserted after each handshake (and shorter than the 32-bit counter).  Missing for the full
property: back-to-back transfers, see `back_to_back_unchecked`. -/
theorem channel_checked_partial (tr : List (Sample σ × Bool)) (hl : tr.length < 2 ^ 32)
    (hr : ∀ x ∈ tr, x.1.rst = false) (hs : Spaced (tr.map (·.1))) :
    bad (.idle false) {} tr ↔ ¬ Rule (tr.map (·.1)) := by
  cases tr with
  | nil => simp [bad, Rule]
  | cons x t =>
    have hA : After (⟨false, false, false, x.1.pay⟩ : Sample σ) (.idle false) {} 0 :=
      ⟨fun w => (by cases w.1), fun _ => ⟨rfl, rfl⟩⟩
    have := bad_iff _ _ _ 0 (x :: t) hA (by simpa using hl) hr ⟨fun w => (by cases w), hs⟩
    rw [this]
    show ¬ (((⟨false, false, false, x.1.pay⟩ : Sample σ).waiting → _) ∧ Rule ((x :: t).map (·.1))) ↔ _
    simp [Sample.waiting]

/-- **A report is never a false alarm**: without the spacing assumption too, if either monitor reports,
the rule was broken. -/
theorem no_false_alarm (tr : List (Sample σ × Bool)) (hl : tr.length < 2 ^ 32)
    (hr : ∀ x ∈ tr, x.1.rst = false) (h : Rule (tr.map (·.1))) : ¬ bad (.idle false) {} tr := by
  have key : ∀ (tr : List (Sample σ × Bool)) (a : Sample σ) (m : Stable σ) (h : Hs) (n : Nat),
      ((a.waiting → (m = .mon a.pay ∨ m = .idle true)) ∧ (¬ a.waiting → m = .idle a.valid ∧ h.readyWait = 0)) →
      h.readyWait ≤ n → n + tr.length < 2 ^ 32 → (∀ x ∈ tr, x.1.rst = false) → Rule (a :: tr.map (·.1)) →
      ¬ bad m h tr := by
    intro tr
    induction tr with
    | nil => intros; exact id
    | cons x t ih =>
      intro a m h n hm hn hl hr hR
      obtain ⟨b, inc⟩ := x
      have hb : b.rst = false := hr _ (List.mem_cons_self ..)
      simp only [List.length_cons] at hl
      have hrw : (h.step 0 inc b.valid b.ready).1.readyWait ≤ n + 1 := by
        rw [readyWait_step, inc32_pos (by omega)]
        split
        · omega
        · split <;> omega
      rintro (c | c | c)
      · by_cases w : a.waiting
        · obtain ⟨e1, e2⟩ := hR.1 w
          change b.pay = a.pay at e2
          rcases hm.1 w with rfl | rfl
          · simp [Stable.step, hb, e2] at c
          · rw [idle_quiet] at c; cases c
        · obtain ⟨rfl, _⟩ := hm.2 w
          rw [idle_quiet] at c; cases c
      · rw [dropped_iff] at c
        by_cases w : a.waiting
        · have : b.valid = true := (hR.1 w).1; rw [c.1] at this; cases this
        · exact c.2 (hm.2 w).2
      · refine ih b _ _ (n + 1) ⟨fun w' => ?_, fun w' => ?_⟩ hrw (by omega)
          (fun x hx => hr x (List.mem_cons_of_mem _ hx)) hR.2 c
        · by_cases w : a.waiting
          · obtain ⟨e1, e2⟩ := hR.1 w
            change b.pay = a.pay at e2
            change b.valid = true at e1
            rcases hm.1 w with rfl | rfl
            · left; simp [Stable.step, hb, w'.2, e2]
            · right; simp [Stable.step, hb, w'.1]
          · obtain ⟨rfl, _⟩ := hm.2 w
            cases av : a.valid
            · left; simp [Stable.step, hb, w'.1, w'.2]
            · right; simp [Stable.step, hb, w'.1]
        · rw [readyWait_step]
          by_cases w : a.waiting
          · obtain ⟨e1, e2⟩ := hR.1 w
            change b.valid = true at e1
            have br : b.ready = true := by
              cases hh : b.ready
              · exact absurd ⟨e1, hh⟩ w'
              · rfl
            rcases hm.1 w with rfl | rfl <;> simp [Stable.step, hb, e1, br]
          · obtain ⟨rfl, h0⟩ := hm.2 w
            simp only [Sample.waiting, Stable.step, hb] at w' ⊢
            cases av : a.valid <;> cases bv : b.valid <;> cases br : b.ready <;> simp_all
  cases tr with
  | nil => exact id
  | cons x t =>
    refine key (x :: t) ⟨false, false, false, x.1.pay⟩ _ _ 0 ⟨fun w => (by cases w.1), fun _ => ⟨rfl, rfl⟩⟩
      (Nat.le_refl _) (by simpa using hl) hr ⟨fun w => (by cases w.1), h⟩

/-! ## Hang-ups -/

/-- The handshake monitor's state over a trace. -/
def hsRun (max : Nat) (h : Hs) : List (Sample σ × Bool) → Hs
  | [] => h
  | (s, inc) :: t => hsRun max (h.step max inc s.valid s.ready).1 t

omit [DecidableEq σ] in
theorem hsRun_append (max : Nat) (h : Hs) (a b : List (Sample σ × Bool)) :
    hsRun max h (a ++ b) = hsRun max (hsRun max h a) b := by
  induction a generalizing h with
  | nil => rfl
  | cons x t ih => exact ih _

/-- Number of cycles in which `ready` (first) or `valid` (second) was missing since the last handshake. -/
def missing (f : Sample σ × Bool → Bool) (tr : List (Sample σ × Bool)) : Nat :=
  (tr.reverse.takeWhile (fun x => !(x.1.valid && x.1.ready))).countP f

def noReady (x : Sample σ × Bool) : Bool := x.1.valid && !x.1.ready
def noValid (x : Sample σ × Bool) : Bool := x.2 && !x.1.valid

omit [DecidableEq σ] in
theorem missing_snoc (f : Sample σ × Bool → Bool) (tr : List (Sample σ × Bool)) (x : Sample σ × Bool) :
    missing f (tr ++ [x]) = if x.1.valid && x.1.ready then 0 else missing f tr + (if f x then 1 else 0) := by
  unfold missing
  rw [List.reverse_append]
  cases hv : x.1.valid <;> cases hr : x.1.ready <;> simp [hv, hr, List.countP_cons]

omit [DecidableEq σ] in
theorem missing_le (f : Sample σ × Bool → Bool) (tr : List (Sample σ × Bool)) : missing f tr ≤ tr.length := by
  have h1 := List.countP_le_length (p := f) (l := tr.reverse.takeWhile (fun x => !(x.1.valid && x.1.ready)))
  have h2 := (List.takeWhile_sublist (fun x : Sample σ × Bool => !(x.1.valid && x.1.ready)) (l := tr.reverse)).length_le
  rw [List.length_reverse] at h2
  unfold missing
  omega

theorem snoc_rec {α : Type} {P : List α → Prop} (h0 : P []) (h1 : ∀ l x, P l → P (l ++ [x])) (l : List α) : P l := by
  have : ∀ l : List α, P l.reverse := by
    intro l
    induction l with
    | nil => exact h0
    | cons x l ih => rw [List.reverse_cons]; exact h1 _ _ ih
  have h := this l.reverse
  rwa [List.reverse_reverse] at h

omit [DecidableEq σ] in
theorem hsRun_eq (max : Nat) (tr : List (Sample σ × Bool)) (hl : tr.length < 2 ^ 32) :
    (hsRun max {} tr).readyWait = missing noReady tr ∧ (hsRun max {} tr).validWait = missing noValid tr := by
  revert hl
  refine snoc_rec (P := fun tr => tr.length < 2 ^ 32 → (hsRun max {} tr).readyWait = missing noReady tr ∧
    (hsRun max {} tr).validWait = missing noValid tr) (fun _ => ⟨rfl, rfl⟩) ?_ tr
  intro l x ih hl
  simp only [List.length_append, List.length_cons, List.length_nil] at hl
  obtain ⟨h1, h2⟩ := ih (by omega)
  have m1 := missing_le noReady l
  have m2 := missing_le noValid l
  rw [hsRun_append, missing_snoc, missing_snoc]
  obtain ⟨⟨rst, valid, ready, pay⟩, inc⟩ := x
  clear ih
  generalize hsRun max {} l = h at h1 h2
  simp only [hsRun, Hs.step, noReady, noValid]
  have i1 : inc32 (missing noReady l) = missing noReady l + 1 := inc32_pos (by omega)
  have i2 : inc32 (missing noValid l) = missing noValid l + 1 := inc32_pos (by omega)
  cases valid <;> cases ready <;> cases inc <;> simp [h1, h2, i1, i2]

omit [DecidableEq σ] in
/-- **Hang-ups are reported exactly when the limit is reached**: in the cycle after `tr`, a hang of
`ready` is reported iff `valid` is up, `ready` is not, and with this cycle `ready` has been missing for
`max` cycles since the last handshake; a hang of `valid` iff `valid` is expected and absent and has been
so for `max` cycles since the last handshake. -/
theorem hangs_exact (max : Nat) (tr : List (Sample σ × Bool)) (x : Sample σ × Bool)
    (hl : tr.length + 1 < 2 ^ 32) :
    (HsErr.readyHang ∈ ((hsRun max {} tr).step max x.2 x.1.valid x.1.ready).2.1 ↔
      noReady x = true ∧ missing noReady (tr ++ [x]) = max) ∧
    (HsErr.validHang ∈ ((hsRun max {} tr).step max x.2 x.1.valid x.1.ready).2.1 ↔
      noValid x = true ∧ missing noValid (tr ++ [x]) = max) := by
  obtain ⟨h1, h2⟩ := hsRun_eq max tr (by omega)
  have m1 := missing_le noReady tr
  have m2 := missing_le noValid tr
  have i1 : inc32 (missing noReady tr) = missing noReady tr + 1 := inc32_pos (by omega)
  have i2 : inc32 (missing noValid tr) = missing noValid tr + 1 := inc32_pos (by omega)
  generalize hsRun max {} tr = h at h1 h2
  obtain ⟨⟨rst, valid, ready, pay⟩, inc⟩ := x
  rw [missing_snoc, missing_snoc]
  simp only [Hs.step, noReady, noValid]
  constructor
  · cases valid <;> cases ready <;> cases inc <;> simp [h1, h2, i1, i2] <;> (try (split <;> simp)) <;>
      (try (split <;> simp))
  · cases valid <;> cases ready <;> cases inc <;> simp [h1, h2, i1, i2] <;> (try (split <;> simp)) <;>
      (try (split <;> simp))

end

/-! ## Witnesses -/

def stableRun {σ : Type} [DecidableEq σ] (m : Stable σ) (tr : List (Sample σ)) : Stable σ × List Bool :=
  tr.foldl (fun x s => let y := x.1.step s; (y.1, x.2 ++ [y.2])) (m, [])

/-- **Back-to-back transfers are not checked for stability**: after a handshake with `valid` kept up, the
payload of the next transfer may change at will. -/
theorem back_to_back_unchecked :
    let tr : List (Sample Nat × Bool) :=
      [(⟨false, true, true, 1⟩, false), (⟨false, true, false, 2⟩, false), (⟨false, true, true, 3⟩, false)]
    ¬ bad (.idle false) {} tr ∧ ¬ Rule (tr.map (·.1)) := by
  constructor
  · simp [bad, Stable.step, Hs.step, inc32]
  · simp [Rule, Sample.waiting]

/-- **A transfer that starts in the cycle the reset is released is not checked either.** -/
theorem release_unchecked :
    (stableRun (.release : Stable Nat) [⟨true, false, false, 0⟩, ⟨false, true, false, 1⟩, ⟨false, true, false, 2⟩]).2
      = [false, false, false] := by decide

/-- The monitor does find a violation. -/
example : bad (.idle false) {} [((⟨false, true, false, 1⟩ : Sample Nat), false), (⟨false, true, true, 2⟩, false)] := by
  simp [bad, Stable.step, Hs.step, inc32]

example : bad (.idle false) {} [((⟨false, true, false, 1⟩ : Sample Nat), false), (⟨false, false, true, 1⟩, false)] := by
  simp [bad, Stable.step, Hs.step, inc32]

/-- Legal spaced traffic. -/
example : Spaced [(⟨false, true, false, 1⟩ : Sample Nat), ⟨false, true, true, 1⟩, ⟨false, false, true, 5⟩, ⟨false, true, true, 2⟩] ∧
    Rule [(⟨false, true, false, 1⟩ : Sample Nat), ⟨false, true, true, 1⟩, ⟨false, false, true, 5⟩, ⟨false, true, true, 2⟩] := by
  simp [Spaced, Rule, Sample.waiting]

/-- A hang after three cycles of waiting. -/
example : ((hsRun 3 {} [((⟨false, true, false, 1⟩ : Sample Nat), false), (⟨false, true, false, 1⟩, false)]).step 3 false true false).2.1
    = [.readyHang] := by decide

end Verif.PcAxi
