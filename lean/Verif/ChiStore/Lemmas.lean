import Verif.ChiStore.Spec

namespace Verif.ChiStore

theorem on_iff (p : Payload) (i : Nat) : on p i = true ↔ p.Enabled i := by
  unfold on Payload.Enabled
  cases h : p.be with
  | nil => simp
  | cons b bs =>
    simp only [List.isEmpty_cons, Bool.false_or, List.getD_eq_getElem?_getD, reduceCtorEq, false_or]
    cases e : (b :: bs)[i % (b :: bs).length]? with
    | none => simp
    | some v => simp

theorem writeAll_other (p : Payload) (ss : List (Nat × Bool)) (m : Nat → Nat) (x : Nat)
    (h : ¬ p.Touches x) : writeAll p ss m x = m x := by
  induction ss generalizing m with
  | nil => rfl
  | cons s ss ih =>
    simp only [writeAll]
    rw [ih, writePart, if_neg]
    rintro ⟨h1, h2, h3⟩
    have hl : p.len = p.data.length := rfl
    unfold inLine at h2
    exact h ⟨by omega, by omega, (on_iff p _).1 h3⟩

theorem writeAll_old_or_new (p : Payload) (ss : List (Nat × Bool)) (m : Nat → Nat) (x : Nat) :
    writeAll p ss m x = m x ∨ writeAll p ss m x = p.data.getD (x - p.addr) 0 := by
  induction ss generalizing m with
  | nil => exact .inl rfl
  | cons s ss ih =>
    simp only [writeAll]
    rcases ih (writePart p s.1 m) with e | e
    · rw [e, writePart]
      split
      · exact .inr rfl
      · exact .inl rfl
    · exact .inr e

/-- Steps from a position on change nothing before it. -/
theorem steps_before (p : Payload) (ch : Nat → Bool) (f pos : Nat) (m : Nat → Nat) (x : Nat)
    (h : x < p.addr + pos) : writeAll p (steps p ch f pos) m x = m x := by
  induction f generalizing pos m with
  | zero => rfl
  | succ f ih =>
    simp only [steps]
    split
    · simp only [writeAll]
      rw [ih _ _ (by omega), writePart, if_neg]
      omega
    · rfl

/-- What the loop writes from a position on, if it skips nothing. -/
theorem steps_write (p : Payload) (ch : Nat → Bool) (f pos : Nat) (m : Nat → Nat) (x : Nat)
    (hf : p.len ≤ pos + f)
    (hg : (∀ q, ch q = false) ∨ (p.addr + pos) % 64 = 0 ∨
      (p.addr + pos) % 64 + (p.len - pos) ≤ 64) :
    writeAll p (steps p ch f pos) m x =
      if p.addr + pos ≤ x ∧ x < p.addr + p.len ∧ on p (x - p.addr) = true then
        p.data.getD (x - p.addr) 0 else m x := by
  induction f generalizing pos m with
  | zero =>
    simp only [steps, writeAll]
    rw [if_neg]; omega
  | succ f ih =>
    simp only [steps]
    split
    · rename_i hp
      simp only [writeAll]
      have ha : 0 < advance p (ch pos) pos ∧
          (advance p (ch pos) pos = inLine p pos ∨
            (inLine p pos = p.len - pos ∧ inLine p pos ≤ advance p (ch pos) pos)) ∧
          ((∀ q, ch q = false) ∨ (p.addr + (pos + advance p (ch pos) pos)) % 64 = 0 ∨
            p.len ≤ pos + advance p (ch pos) pos) := by
        unfold advance inLine
        rcases hg with hg | hg | hg
        · simp only [hg pos, Bool.false_eq_true, if_false]
          exact ⟨by omega, .inl (trivial), .inl hg⟩
        · refine ⟨?_, ?_, .inr ?_⟩ <;> (repeat' split) <;> omega
        · refine ⟨?_, ?_, .inr ?_⟩ <;> (repeat' split) <;> omega
      obtain ⟨h0, h1, h2⟩ := ha
      rw [ih _ _ (by omega) (by
        rcases h2 with h2 | h2 | h2
        · exact .inl h2
        · exact .inr (.inl h2)
        · exact .inr (.inr (by omega)))]
      have hi : inLine p pos ≤ p.len - pos := by unfold inLine; omega
      simp only [writePart]
      generalize advance p (ch pos) pos = d at *
      generalize inLine p pos = n at *
      by_cases ho : on p (x - p.addr) = true
      · simp only [ho, and_true]
        by_cases c1 : p.addr + (pos + d) ≤ x ∧ x < p.addr + p.len
        · rw [if_pos c1, if_pos (by omega)]
        · rw [if_neg c1]
          by_cases c2 : p.addr + pos ≤ x ∧ x < p.addr + pos + n
          · rw [if_pos c2, if_pos (by omega)]
          · rw [if_neg c2, if_neg (by omega)]
      · simp only [ho, Bool.false_eq_true, and_false, if_false]
    · rw [writeAll, if_neg]; omega

/-- What the loop of a load reads from a position on. -/
theorem steps_read (p : Payload) (f pos : Nat) (m b : Nat → Nat) (i : Nat)
    (hf : p.len ≤ pos + f) :
    readAll p m (steps p (fun _ => false) f pos) b i =
      if pos ≤ i ∧ i < p.len ∧ on p i = true then m (p.addr + i) else b i := by
  induction f generalizing pos b with
  | zero =>
    simp only [steps, readAll]
    rw [if_neg]; omega
  | succ f ih =>
    simp only [steps]
    split
    · rename_i hp
      have h0 : 0 < inLine p pos ∧ inLine p pos ≤ p.len - pos := by unfold inLine; omega
      simp only [readAll, advance, Bool.false_eq_true, if_false]
      rw [ih _ _ (by omega)]
      simp only [readPart]
      generalize inLine p pos = n at *
      by_cases ho : on p i = true
      · simp only [ho, and_true]
        by_cases c1 : pos + n ≤ i ∧ i < p.len
        · rw [if_pos c1, if_pos (by omega)]
        · rw [if_neg c1]
          by_cases c2 : pos ≤ i ∧ i < pos + n
          · rw [if_pos c2, if_pos (by omega)]
          · rw [if_neg c2, if_neg (by omega)]
      · simp only [ho, Bool.false_eq_true, and_false, if_false]
    · rw [readAll, if_neg]; omega

theorem reqs_op (p : Payload) (ss : List (Nat × Bool)) : ∀ r ∈ reqs p ss, r.op = opOf p := by
  induction ss with
  | nil => exact fun r h => nomatch h
  | cons s ss ih =>
    intro r hr
    simp only [reqs] at hr
    split at hr
    · rcases List.mem_cons.1 hr with e | e
      · rw [e]
      · exact ih r e
    · exact ih r hr

theorem steps_way (p : Payload) (ch : Nat → Bool) (f pos : Nat) :
    ∀ s ∈ steps p ch f pos, s.2 = ch s.1 ∧ s.1 < p.len := by
  induction f generalizing pos with
  | zero => exact fun s h => nomatch h
  | succ f ih =>
    intro s hs
    simp only [steps] at hs
    split at hs
    · rename_i hp
      rcases List.mem_cons.1 hs with e | e
      · rw [e]; exact ⟨rfl, hp⟩
      · exact ih _ s e
    · exact nomatch hs

theorem mem_reqs (p : Payload) (ss : List (Nat × Bool)) (r : Req) :
    r ∈ reqs p ss ↔ ∃ s ∈ ss, s.2 = true ∧ r = ⟨opOf p, (p.addr + s.1) / 64 * 64, inLine p s.1⟩ := by
  induction ss with
  | nil => simp [reqs]
  | cons s ss ih =>
    simp only [reqs]
    split
    · rename_i h; simp [ih, h]
    · rename_i h; simp [ih, h]

end Verif.ChiStore
