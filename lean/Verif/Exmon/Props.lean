import Verif.Exmon.Model

/-! # C13: the exclusive monitor -/

namespace Verif.Exmon
open Verif

/-! ## Specification, in terms of the trace of outcomes -/

/-- A successful exclusive load of the location by the master. -/
def IsLoad (mask : BitVec 32) (e : Entry) (o : Out) : Prop :=
  o.acc.cmd = .read ∧ o.acc.excl = true ∧ o.status = .ok ∧ o.acc.id &&& mask = e.mid ∧
    o.acc.addr = e.addr ∧ o.acc.len = e.len

/-- A later successful exclusive load by the same master, of any location. -/
def Replaces (mask : BitVec 32) (e : Entry) (o : Out) : Prop :=
  o.acc.cmd = .read ∧ o.acc.excl = true ∧ o.status = .ok ∧ o.acc.id &&& mask = e.mid

/-- A performed store whose first byte lies in the location. -/
def StartsIn (e : Entry) (o : Out) : Prop :=
  o.acc.cmd = .write ∧ o.forwarded = true ∧ e.addr ≤ o.acc.addr ∧ o.acc.addr < e.addr + e.len

/-- A performed store that overlaps the location. -/
def Overlaps (e : Entry) (o : Out) : Prop :=
  o.acc.cmd = .write ∧ o.forwarded = true ∧ o.acc.addr < e.addr + e.len ∧ e.addr < o.acc.addr + o.acc.len

/-- After the trace, the master's last successful exclusive load was of exactly
this location, and no event of kind `kill` has happened since. -/
def Reserved (mask : BitVec 32) (kill : Entry → Out → Prop) (tr : List Out) (e : Entry) : Prop :=
  ∃ before o after, tr = before ++ o :: after ∧ IsLoad mask e o ∧
    ∀ x ∈ after, ¬ Replaces mask e x ∧ ¬ kill e x

/-! ## Lemmas -/

theorem reserved_snoc (mask : BitVec 32) (kill : Entry → Out → Prop) (tr : List Out) (o : Out) (e : Entry) :
    Reserved mask kill (tr ++ [o]) e ↔
      IsLoad mask e o ∨ (Reserved mask kill tr e ∧ ¬ Replaces mask e o ∧ ¬ kill e o) := by
  constructor
  · rintro ⟨b, x, a, h, hl, hk⟩
    rcases List.eq_nil_or_concat a with rfl | ⟨a', y, rfl⟩
    · have := List.append_inj' h (by simp)
      simp at this
      left; rw [this.2]; exact hl
    · right
      have h' : tr ++ [o] = (b ++ x :: a') ++ [y] := by simpa using h
      have := List.append_inj' h' (by simp)
      simp at this
      obtain ⟨h1, rfl⟩ := this
      refine ⟨⟨b, x, a', h1, hl, fun z hz => hk z (by simp [hz])⟩, hk o (by simp)⟩
  · rintro (h | ⟨⟨b, x, a, h, hl, hk⟩, hn⟩)
    · exact ⟨tr, o, [], rfl, h, by simp⟩
    · refine ⟨b, x, a ++ [o], by simp [h], hl, ?_⟩
      intro z hz
      rcases List.mem_append.mp hz with h1 | h1
      · exact hk z h1
      · simp at h1; subst h1; exact hn

/-- Outcome of a whole run, step by step from the right. -/
theorem run_snoc (mask : BitVec 32) (mon : List Entry) (as : List Acc) (a : Acc) :
    run mask mon (as ++ [a]) =
      ((step mask (run mask mon as).1 a).1, (run mask mon as).2 ++ [(step mask (run mask mon as).1 a).2]) := by
  induction as generalizing mon with
  | nil => rfl
  | cons x xs ih => simp [run, ih]

theorem mem_eraseP_of_nodup (mon : List Entry) (i : BitVec 32) (h : (mon.map (·.mid)).Nodup) (e : Entry) :
    e ∈ mon.eraseP (fun t => t.mid == i) ↔ e ∈ mon ∧ e.mid ≠ i := by
  induction mon with
  | nil => simp
  | cons x xs ih =>
    simp only [List.map_cons, List.nodup_cons] at h
    by_cases hx : x.mid = i
    · rw [List.eraseP_cons_of_pos (by simpa using hx)]
      constructor
      · intro he
        refine ⟨by simp [he], fun hi => h.1 ?_⟩
        rw [hx, ← hi]; exact List.mem_map.mpr ⟨e, he, rfl⟩
      · rintro ⟨he, hne⟩
        rcases List.mem_cons.mp he with rfl | he
        · exact absurd hx hne
        · exact he
    · rw [List.eraseP_cons_of_neg (by simpa using hx)]
      simp only [List.mem_cons, ih h.2]
      constructor
      · rintro (rfl | ⟨h1, h2⟩)
        · exact ⟨Or.inl rfl, hx⟩
        · exact ⟨Or.inr h1, h2⟩
      · rintro ⟨rfl | h1, h2⟩
        · exact Or.inl rfl
        · exact Or.inr ⟨h1, h2⟩

theorem step_nodup (mask : BitVec 32) (mon : List Entry) (a : Acc) (h : (mon.map (·.mid)).Nodup) :
    ((step mask mon a).1.map (·.mid)).Nodup := by
  have hf : ((clearLocations mon a).map (·.mid)).Nodup :=
    h.sublist (List.Sublist.map _ List.filter_sublist)
  unfold step
  split
  · split
    · split
      · exact hf
      · exact h
    · exact hf
  · split
    · simp only [monitorLocation, List.map_append, List.map_cons, List.map_nil]
      rw [List.nodup_append]
      refine ⟨h.sublist (List.Sublist.map _ List.eraseP_sublist), by simp, ?_⟩
      intro x hx y hy
      simp [entryOf] at hy
      subst hy
      obtain ⟨e, he, rfl⟩ := List.mem_map.mp hx
      exact ((mem_eraseP_of_nodup mon _ h e).mp he).2
    · exact h
  · exact h

theorem step_mem (mask : BitVec 32) (mon : List Entry) (a : Acc) (h : (mon.map (·.mid)).Nodup) (e : Entry) :
    e ∈ (step mask mon a).1 ↔
      IsLoad mask e (step mask mon a).2 ∨
        (e ∈ mon ∧ ¬ Replaces mask e (step mask mon a).2 ∧ ¬ StartsIn e (step mask mon a).2) := by
  unfold step
  cases hc : a.cmd with
  | write =>
    have hmem : e ∈ clearLocations mon a ↔ e ∈ mon ∧ ¬ (e.addr ≤ a.addr ∧ a.addr < e.addr + e.len) := by
      simp [clearLocations, Entry.hasLocation]
      intro _
      omega
    simp only []
    split
    · split
      · simp [IsLoad, Replaces, StartsIn, hc, hmem]
      · simp [IsLoad, Replaces, StartsIn, hc]
    · simp [IsLoad, Replaces, StartsIn, hc, hmem]
  | read =>
    simp only []
    split
    · rename_i hx
      simp only [monitorLocation, List.mem_append, mem_eraseP_of_nodup mon _ h, List.mem_singleton, IsLoad, Replaces,
        StartsIn, hc, hx]
      constructor
      · rintro (⟨h1, h2⟩ | rfl)
        · exact Or.inr ⟨h1, by simp; exact fun e => h2 e.symm, by simp⟩
        · exact Or.inl ⟨trivial, trivial, trivial, rfl, rfl, rfl⟩
      · rintro (⟨-, -, -, h4, h5, h6⟩ | ⟨h1, h2, -⟩)
        · right; cases e; simp [entryOf] at *; exact ⟨h4.symm, h5.symm, h6.symm⟩
        · left; exact ⟨h1, fun e => h2 ⟨trivial, trivial, trivial, e.symm⟩⟩
    · rename_i hx
      simp only [IsLoad, Replaces, StartsIn, hc]
      constructor
      · intro h1
        refine Or.inr ⟨h1, ?_, by simp⟩
        rintro ⟨-, h2, h3, -⟩; exact hx ⟨h2, h3⟩
      · rintro (⟨-, h2, h3, -⟩ | ⟨h1, -⟩)
        · exact absurd ⟨h2, h3⟩ hx
        · exact h1
  | ignore => simp [IsLoad, Replaces, StartsIn, hc]

theorem run_inv (mask : BitVec 32) (as : List Acc) :
    ((run mask [] as).1.map (·.mid)).Nodup ∧
    ∀ e, e ∈ (run mask [] as).1 ↔ Reserved mask StartsIn (run mask [] as).2 e := by
  suffices H : ∀ n (as : List Acc), as.length = n → ((run mask [] as).1.map (·.mid)).Nodup ∧
      ∀ e, e ∈ (run mask [] as).1 ↔ Reserved mask StartsIn (run mask [] as).2 e from H _ as rfl
  intro n
  induction n with
  | zero =>
    intro as h
    have : as = [] := List.length_eq_zero_iff.mp h
    subst this
    refine ⟨List.nodup_nil, fun e => ⟨fun h => by simp [run] at h, ?_⟩⟩
    rintro ⟨b, x, a, h, -⟩
    simp [run] at h
  | succ n ih =>
    intro as h
    rcases List.eq_nil_or_concat as with rfl | ⟨as', a, rfl⟩
    · simp at h
    · obtain ⟨h1, h2⟩ := ih as' (by simpa using h)
      simp only [List.concat_eq_append, run_snoc]
      refine ⟨step_nodup mask _ a h1, fun e => ?_⟩
      rw [step_mem mask _ a h1, reserved_snoc, h2]

/-! ## Theorems -/

/-- The location an access addresses, for its (masked) master. -/
def locOf (mask : BitVec 32) (a : Acc) : Entry := { mid := a.id &&& mask, addr := a.addr, len := a.len }

theorem forwarded_iff (mask : BitVec 32) (mon : List Entry) (a : Acc) (hw : a.cmd = .write) (hx : a.excl = true) :
    (step mask mon a).2.forwarded = true ↔ locOf mask a ∈ mon := by
  have : monitored mask mon a = true ↔ locOf mask a ∈ mon := by
    simp only [monitored, List.any_eq_true, Bool.and_eq_true, beq_iff_eq, locOf]
    constructor
    · rintro ⟨x, hx, ⟨⟨h1, h2⟩, h3⟩⟩
      cases x; simp at *; subst h1 h2 h3; exact hx
    · intro h; exact ⟨_, h, ⟨rfl, rfl⟩, rfl⟩
  unfold step
  rw [hw]
  simp only [hx, if_true]
  rw [← this]
  cases monitored mask mon a <;> simp

/-- **C13 (part).** After any history of accesses by any masters, an exclusive
store is forwarded to memory if and only if the same master's last successful
exclusive load was of exactly that location and no store performed since then
*starts* inside the location.  What is missing: stores that start below the
location and reach into it (`overlap_from_below_missed`). -/
theorem store_exclusive_iff_partial (mask : BitVec 32) (hist : List Acc) (a : Acc) (hw : a.cmd = .write)
    (hx : a.excl = true) :
    (step mask (run mask [] hist).1 a).2.forwarded = true ↔
      Reserved mask StartsIn (run mask [] hist).2 (locOf mask a) := by
  rw [forwarded_iff mask _ a hw hx, (run_inv mask hist).2]

/-- **C13 (full guarantee for non-straddling stores).** If no store in the
history reaches into the location from below, a forwarded exclusive store
implies that no overlapping store has been performed since the load. -/
theorem store_exclusive_sound_partial (mask : BitVec 32) (hist : List Acc) (a : Acc) (hw : a.cmd = .write)
    (hx : a.excl = true)
    (hbelow : ∀ s ∈ hist, s.cmd = .write → s.addr < a.addr → s.addr + s.len ≤ a.addr)
    (hf : (step mask (run mask [] hist).1 a).2.forwarded = true) :
    Reserved mask Overlaps (run mask [] hist).2 (locOf mask a) := by
  obtain ⟨b, o, c, h, hl, hk⟩ := (store_exclusive_iff_partial mask hist a hw hx).mp hf
  refine ⟨b, o, c, h, hl, fun x hx' => ⟨(hk x hx').1, ?_⟩⟩
  rintro ⟨h1, h2, h3, h4⟩
  have hmem : x.acc ∈ hist := by
    have : ∀ (as : List Acc) (mon : List Entry) (y : Out), y ∈ (run mask mon as).2 → y.acc ∈ as := by
      intro as
      induction as with
      | nil => intro mon y hy; simp [run] at hy
      | cons z zs ih =>
        intro mon y hy
        simp only [run, List.mem_cons] at hy
        rcases hy with rfl | hy
        · have : (step mask mon z).2.acc = z := by
            unfold step; cases z.cmd <;> simp only [] <;> (repeat' split) <;> rfl
          simp [this]
        · simp [ih _ y hy]
    exact this hist [] x (by rw [h]; simp [hx'])
  refine (hk x hx').2 ⟨h1, h2, ?_, h3⟩
  rcases Nat.lt_or_ge x.acc.addr a.addr with h5 | h5
  · have := hbelow _ hmem h1 h5
    simp only [locOf] at h4; omega
  · exact h5

/-- Aligned accesses of one fixed size satisfy the hypothesis. -/
theorem aligned_no_straddle (n : Nat) (a b : Nat) (ha : a % n = 0) (hb : b % n = 0) (h : a < b) :
    a + n ≤ b := by
  have h1 := Nat.div_add_mod a n
  have h2 := Nat.div_add_mod b n
  have h3 : a / n < b / n := by
    rcases Nat.lt_or_ge (a / n) (b / n) with h | h
    · exact h
    · have := Nat.mul_le_mul_left n h; omega
  have := Nat.mul_le_mul_left n (Nat.succ_le_of_lt h3)
  rw [Nat.mul_succ] at this
  omega

/-- **C13 for aligned accesses of one size** (any master, any history). -/
theorem store_exclusive_sound_aligned (mask : BitVec 32) (hist : List Acc) (a : Acc) (n : Nat)
    (hw : a.cmd = .write) (hx : a.excl = true) (ha : a.addr % n = 0)
    (hal : ∀ s ∈ hist, s.cmd = .write → s.len = n ∧ s.addr % n = 0)
    (hf : (step mask (run mask [] hist).1 a).2.forwarded = true) :
    Reserved mask Overlaps (run mask [] hist).2 (locOf mask a) := by
  refine store_exclusive_sound_partial mask hist a hw hx ?_ hf
  intro s hs hsw hlt
  obtain ⟨h1, h2⟩ := hal s hs hsw
  rw [h1]
  exact aligned_no_straddle n _ _ h2 ha hlt

/-- A load-exclusive / store-exclusive pair with an unrelated store in between
succeeds; with a conflicting store it does not. -/
example : (step 0xF (run 0xF [] [{ cmd := .read, excl := true, id := 0x12, addr := 8, len := 4 },
      { cmd := .write, addr := 16, len := 4 }]).1
    { cmd := .write, excl := true, id := 0x12, addr := 8, len := 4 }).2.forwarded = true := by decide
example : (step 0xF (run 0xF [] [{ cmd := .read, excl := true, id := 0x12, addr := 8, len := 4 },
      { cmd := .write, addr := 10, len := 4 }]).1
    { cmd := .write, excl := true, id := 0x12, addr := 8, len := 4 }).2.forwarded = false := by decide

/-- **C13 (no effect on failure).** A refused exclusive store is not forwarded,
leaves every reservation alone and is answered OK. -/
theorem refused_store_no_effect (mask : BitVec 32) (mon : List Entry) (a : Acc) (hw : a.cmd = .write)
    (hx : a.excl = true) (hf : (step mask mon a).2.forwarded = false) :
    (step mask mon a).1 = mon ∧ (step mask mon a).2.status = .ok := by
  unfold step at *
  rw [hw] at *
  simp only [hx, if_true] at *
  cases hm : monitored mask mon a <;> simp_all

example : (step 0xF [] { cmd := .write, excl := true, id := 1, addr := 8, len := 4 }).2.forwarded = false := by decide

/-- Every access that is not an exclusive store is always forwarded. -/
theorem others_forwarded (mask : BitVec 32) (mon : List Entry) (a : Acc) (h : ¬ (a.cmd = .write ∧ a.excl = true)) :
    (step mask mon a).2.forwarded = true := by
  unfold step
  cases hc : a.cmd <;> simp only []
  · split <;> rfl
  · rw [if_neg (fun e => h ⟨hc, e⟩)]

/-- **C13 is violated by a store that begins below the location**: master 1 loads
[8,12) exclusively, an ordinary store to [4,12) is performed, and master 1's
exclusive store is still let through. -/
theorem overlap_from_below_missed :
    ∃ (hist : List Acc) (a : Acc), a.cmd = .write ∧ a.excl = true ∧
      (step 0xF (run 0xF [] hist).1 a).2.forwarded = true ∧
      ∃ o ∈ (run 0xF [] hist).2.drop 1, Overlaps (locOf 0xF a) o :=
  ⟨[{ cmd := .read, excl := true, id := 1, addr := 8, len := 4 }, { cmd := .write, addr := 4, len := 8 }],
   { cmd := .write, excl := true, id := 1, addr := 8, len := 4 }, rfl, rfl, by decide,
   _, List.mem_singleton.mpr rfl, by unfold Overlaps; decide⟩

/-- **C13 is violated in "the initiator can tell"**: whatever happens, the
monitor stores `false` in the attribute by which initiators and bridges tell a
performed exclusive access from a refused one (the generated setter's default
argument is `false`), and the response is OK in both cases. -/
theorem initiator_cannot_tell (mask : BitVec 32) (mon : List Entry) (a : Acc) :
    (step mask mon a).2.handled ≠ some true := by
  unfold step setHandledDefault
  cases a.cmd <;> simp only [] <;> (repeat' split) <;> simp

end Verif.Exmon
