import Verif.AceExcl.Spec

/-! # Invariants of the exclusive accesses -/

namespace Verif.AceExcl

theorem reach_exec (n : Nat) : ∀ ops s h, Reach n s h →
    Reach n (exec n s h ops).1 (exec n s h ops).2
  | [], _, _, hr => hr
  | op :: ops, s, h, hr => reach_exec n ops _ _ (Reach.step op hr)

theorem held_of {n : Nat} {s : State} {m k j : Nat} (hj : j < n) (hne : j ≠ m)
    (hl : s.line j k ≠ .inv) : held n s m k = true := by
  unfold held
  rw [List.any_eq_true]
  exact ⟨j, List.mem_range.mpr hj, by simp [hne, hl]⟩

/-- Nobody else has a line that is unique, copies are fresh, and only masters have lines. -/
structure Coh (n : Nat) (s : State) (h : List Ev) : Prop where
  alone : ∀ i j k, s.line i k = .uniq → j ≠ i → s.line j k = .inv
  fresh : ∀ j k, s.line j k ≠ .inv → Fresh j k h
  dom : ∀ j k, n ≤ j → s.line j k = .inv

theorem coh_init (n : Nat) : Coh n init [] :=
  ⟨fun _ _ _ h => by simp [init] at h, fun _ _ h => by simp [init] at h, fun _ _ _ => rfl⟩

theorem fresh_skip {j k : Nat} {h : List Ev} {e : Ev} (hf : Fresh j k h)
    (he : otherWrote j k e = false) : Fresh j k (e :: h) := by
  simp only [Fresh] at *
  simp [since, he, hf]

theorem fresh_got {j k : Nat} {h : List Ev} {e : Ev}
    (he : gotCopy j k e = true) : Fresh j k (e :: h) := by
  unfold Fresh since
  simp [he]

theorem untouched_skip {m k o : Nat} {h : List Ev} {e : Ev} (hf : Untouched m k o h)
    (he : otherWrote m k e = false) : Untouched m k o (e :: h) := by
  simp only [Untouched] at *
  simp [since, he, hf]

theorem coh_same {n : Nat} {s s' : State} {h : List Ev} {e : Ev} (hc : Coh n s h)
    (hl : s'.line = s.line) (he : ∀ j k, s.line j k ≠ .inv → otherWrote j k e = false) :
    Coh n s' (e :: h) := by
  refine ⟨?_, ?_, ?_⟩
  · rw [hl]; exact hc.alone
  · rw [hl]; exact fun j k hj => fresh_skip (hc.fresh j k hj) (he j k hj)
  · rw [hl]; exact hc.dom

theorem coh_fill {n : Nat} {s s' : State} {h : List Ev} {e : Ev} {m k : Nat} (hc : Coh n s h)
    (hm : m < n) (hl : s'.line = (fill n s m k).line) (he : ∀ j k', otherWrote j k' e = false)
    (hg : gotCopy m k e = true) : Coh n s' (e :: h) := by
  have hcase : ∀ j k', s'.line j k' = if k' = k then
        if j = m then (if held n s m k then .shared else .uniq)
        else if s.line j k = .inv then .inv else .shared
      else s.line j k' := fun j k' => by rw [hl]; rfl
  refine ⟨?_, ?_, ?_⟩
  · intro i j k' hu hne
    rw [hcase] at hu ⊢
    by_cases hk : k' = k
    · rw [if_pos hk] at hu ⊢
      by_cases hi : i = m
      · rw [if_pos hi] at hu
        rw [if_neg (fun h => hne (h.trans hi.symm))]
        by_cases hj : s.line j k = .inv
        · rw [if_pos hj]
        · have hjn : j < n := by
            apply Decidable.byContradiction
            intro hcon
            exact hj (hc.dom j k (by omega))
          rw [held_of hjn (fun h => hne (h.trans hi.symm)) hj] at hu
          simp at hu
      · rw [if_neg hi] at hu
        split at hu <;> cases hu
    · rw [if_neg hk] at hu ⊢
      exact hc.alone i j k' hu hne
  · intro j k' hj
    rw [hcase] at hj
    by_cases hk : k' = k
    · by_cases hjm : j = m
      · subst hk hjm; exact fresh_got hg
      · rw [if_pos hk, if_neg hjm] at hj
        subst hk
        by_cases hi : s.line j k' = .inv
        · rw [if_pos hi] at hj; exact absurd rfl hj
        · exact fresh_skip (hc.fresh j k' hi) (he j k')
    · rw [if_neg hk] at hj
      exact fresh_skip (hc.fresh j k' hj) (he j k')
  · intro j k' hj
    rw [hcase]
    have hjm : j ≠ m := by omega
    by_cases hk : k' = k
    · rw [if_pos hk, if_neg hjm, if_pos (hc.dom j k hj)]
    · rw [if_neg hk]; exact hc.dom j k' hj

theorem coh_own {n : Nat} {s s' : State} {h : List Ev} {e : Ev} {m k : Nat} (hc : Coh n s h)
    (hm : m < n) (hl : s'.line = (own s m k).line)
    (he : ∀ j k', k' ≠ k → otherWrote j k' e = false)
    (hg : gotCopy m k e = true) : Coh n s' (e :: h) := by
  have hcase : ∀ j k', s'.line j k' =
      if k' = k then (if j = m then .uniq else .inv) else s.line j k' := fun j k' => by
    rw [hl]; rfl
  refine ⟨?_, ?_, ?_⟩
  · intro i j k' hu hne
    rw [hcase] at hu ⊢
    by_cases hk : k' = k
    · rw [if_pos hk] at hu ⊢
      by_cases hi : i = m
      · rw [if_neg (fun h => hne (h.trans hi.symm))]
      · rw [if_neg hi] at hu; cases hu
    · rw [if_neg hk] at hu ⊢
      exact hc.alone i j k' hu hne
  · intro j k' hj
    rw [hcase] at hj
    by_cases hk : k' = k
    · by_cases hjm : j = m
      · subst hk hjm; exact fresh_got hg
      · rw [if_pos hk, if_neg hjm] at hj; exact absurd rfl hj
    · rw [if_neg hk] at hj
      exact fresh_skip (hc.fresh j k' hj) (he j k' hk)
  · intro j k' hj
    rw [hcase]
    have hjm : j ≠ m := by omega
    by_cases hk : k' = k
    · rw [if_pos hk, if_neg hjm]
    · rw [if_neg hk]; exact hc.dom j k' hj

theorem coh_drop {n : Nat} {s : State} {h : List Ev} {e : Ev} {m k : Nat} (hc : Coh n s h)
    (he : ∀ j k', otherWrote j k' e = false) : Coh n (drop s m k) (e :: h) := by
  refine ⟨?_, ?_, ?_⟩
  · intro i j k' hu hne
    simp only [drop] at hu ⊢
    split at hu
    · cases hu
    · split
      · rfl
      · exact hc.alone i j k' hu hne
  · intro j k' hj
    simp only [drop] at hj
    split at hj
    · exact absurd rfl hj
    · exact fresh_skip (hc.fresh j k' hj) (he j k')
  · intro j k' hj
    simp only [drop]
    split
    · rfl
    · exact hc.dom j k' hj

theorem setPos_line (s : State) (m : Nat) : (setPos s m).line = s.line := by
  unfold setPos; split <;> rfl

theorem setPos_mon (s : State) (m : Nat) : (setPos s m).mon = s.mon := by
  unfold setPos; split <;> rfl

theorem ow_store {m k j k' : Nat} (h : k' ≠ k) :
    otherWrote j k' (.store m k, .ok) = false := by
  simp [otherWrote]; exact fun _ hc => h hc.symm

theorem ow_stx {m k o j k' : Nat} (h : k' ≠ k) :
    otherWrote j k' (.stx m k o, .ok) = false := by
  simp [otherWrote]; exact fun _ hc => h hc.symm

theorem coh_step {n : Nat} {s : State} {h : List Ev} (hc : Coh n s h) (op : Op)
    (hr : (step n s op).2 ≠ .refused) : Coh n (step n s op).1 ((op, (step n s op).2) :: h) := by
  cases op with
  | load m k =>
    simp only [step]
    by_cases hn : n ≤ m
    · rw [if_pos hn]; exact coh_same hc rfl fun _ _ _ => rfl
    · rw [if_neg hn]
      split
      · exact coh_same hc rfl fun _ _ _ => rfl
      · exact coh_fill (m := m) (k := k) hc (by omega) rfl (fun _ _ => rfl) (by simp [gotCopy])
  | store m k =>
    simp only [step]
    by_cases hn : n ≤ m
    · rw [if_pos hn]; exact coh_same hc rfl fun _ _ _ => rfl
    · rw [if_neg hn]
      split
      · rename_i hu
        refine coh_same hc rfl fun j k' hj => ?_
        by_cases hk : k' = k
        · subst hk
          by_cases hjm : j = m
          · simp [otherWrote, hjm]
          · exact absurd (hc.alone m j k' hu hjm) hj
        · exact ow_store hk
      · exact coh_own (m := m) (k := k) hc (by omega) rfl (fun _ _ hk => ow_store hk)
          (by simp [gotCopy])
  | ldx m k o =>
    simp only [step]
    by_cases hn : n ≤ m
    · rw [if_pos hn]; exact coh_same hc rfl fun _ _ _ => rfl
    · rw [if_neg hn]
      unfold ldx
      split
      · exact coh_same hc rfl fun _ _ _ => rfl
      · exact coh_fill (m := m) (k := k) hc (by omega) (setPos_line _ _) (fun _ _ => rfl)
          (by simp [gotCopy])
  | stx m k o =>
    simp only [step] at hr ⊢
    by_cases hn : n ≤ m
    · rw [if_pos hn]; exact coh_same hc rfl fun _ _ _ => rfl
    · rw [if_neg hn] at hr ⊢
      unfold stx at hr ⊢
      by_cases hmon : s.mon m k o = false
      · rw [if_pos hmon]; exact coh_same hc rfl fun _ _ _ => rfl
      · rw [if_neg hmon] at hr ⊢
        cases hl : s.line m k with
        | uniq =>
          refine coh_same hc rfl fun j k' hj => ?_
          by_cases hk : k' = k
          · subst hk
            by_cases hjm : j = m
            · simp [otherWrote, hjm]
            · exact absurd (hc.alone m j k' hl hjm) hj
          · exact ow_stx hk
        | inv =>
          exact coh_own (m := m) (k := k) hc (by omega) rfl (fun _ _ hk => ow_stx hk)
            (by simp [gotCopy])
        | shared =>
          rw [hl] at hr
          dsimp only at hr ⊢
          by_cases hp : s.pos m = true
          · rw [if_pos hp]
            exact coh_own (m := m) (k := k) hc (by omega) rfl (fun _ _ hk => ow_stx hk)
              (by simp [gotCopy])
          · rw [if_neg hp] at hr
            exact absurd rfl hr
  | evict m k => exact coh_drop hc fun _ _ => rfl
  | release => exact coh_same hc rfl fun _ _ _ => rfl

theorem coh_reach {n : Nat} {s : State} {h : List Ev} (hr : Reach n s h) :
    NoRefusal h → Coh n s h := by
  induction hr with
  | init => exact fun _ => coh_init n
  | step op _ ih =>
    intro hn
    exact coh_step (ih fun e he => hn e (List.mem_cons_of_mem _ he)) op
      (hn _ List.mem_cons_self)

/-- A monitor that is set stands for an exclusive load at the start of a line, of which there is
still a copy, and which nobody else has written since. -/
structure Mon (s : State) (h : List Ev) : Prop where
  seen : ∀ m k o, s.mon m k o = true → ∃ r, (Op.ldx m k o, r) ∈ h
  copy : ∀ m k o, s.mon m k o = true → s.line m k ≠ .inv
  calm : ∀ m k o, s.mon m k o = true → Untouched m k o h

theorem mon_init : Mon init [] :=
  ⟨fun _ _ _ h => by simp [init] at h, fun _ _ _ h => by simp [init] at h,
    fun _ _ _ h => by simp [init] at h⟩

/-- A step that sets no monitor, after which monitored lines are there and not written by others. -/
theorem mon_less {s s' : State} {h : List Ev} {e : Ev} (hm : Mon s h)
    (hs : ∀ m k o, s'.mon m k o = true → s.mon m k o = true)
    (hl : ∀ m k o, s'.mon m k o = true → s'.line m k ≠ .inv)
    (he : ∀ m k o, s'.mon m k o = true → otherWrote m k e = false) : Mon s' (e :: h) := by
  refine ⟨?_, hl, ?_⟩
  · intro m k o hx
    obtain ⟨r, hr⟩ := hm.seen m k o (hs m k o hx)
    exact ⟨r, List.mem_cons_of_mem _ hr⟩
  · intro m k o hx
    exact untouched_skip (hm.calm m k o (hs m k o hx)) (he m k o hx)

theorem fill_keeps {n : Nat} {s : State} {m k j k' : Nat} (h : s.line j k' ≠ .inv) :
    (fill n s m k).line j k' ≠ .inv := by
  simp only [fill]
  by_cases hk : k' = k
  · subst hk
    rw [if_pos rfl]
    by_cases hj : j = m
    · rw [if_pos hj]; split <;> simp
    · rw [if_neg hj, if_neg h]; simp
  · rw [if_neg hk]; exact h

theorem fill_own {n : Nat} {s : State} {m k : Nat} : (fill n s m k).line m k ≠ .inv := by
  simp only [fill, if_true]
  split <;> simp

/-- Taking a line: the others' monitors of it are gone. -/
theorem mon_own {s : State} {h : List Ev} {m k : Nat} (hm : Mon s h)
    (hz : ∀ m k o, s.mon m k o = true → o = 0) (s' : State) (e : Ev)
    (hl : s'.line = (own s m k).line)
    (hs : ∀ j k' o, s'.mon j k' o = true → (own s m k).mon j k' o = true)
    (he : ∀ j k', k' ≠ k ∨ j = m → otherWrote j k' e = false) : Mon s' (e :: h) := by
  have hback : ∀ j k' o, s'.mon j k' o = true → s.mon j k' o = true ∧ (k' ≠ k ∨ j = m) := by
    intro j k' o hx
    have hx' := hs j k' o hx
    simp only [own] at hx'
    split at hx'
    · cases hx'
    · rename_i hcond
      refine ⟨hx', ?_⟩
      by_cases hk : k' = k
      · by_cases hj : j = m
        · exact Or.inr hj
        · refine absurd ⟨hj, hk, hz j k' o hx', ?_⟩ hcond
          exact hk ▸ hm.copy j k' o hx'
      · exact Or.inl hk
  refine mon_less hm (fun j k' o hx => (hback j k' o hx).1) ?_
    (fun j k' o hx => he j k' (hback j k' o hx).2)
  intro j k' o hx
  rw [hl]
  obtain ⟨h1, h2⟩ := hback j k' o hx
  simp only [own]
  by_cases hk : k' = k
  · rw [if_pos hk]
    rcases h2 with h2 | h2
    · exact absurd hk h2
    · rw [if_pos h2]; simp
  · rw [if_neg hk]; exact hm.copy j k' o h1

theorem clr_sub {s : State} {m k o j k' o' : Nat} (h : (clrMon s m k o).mon j k' o' = true) :
    s.mon j k' o' = true := by
  simp only [clrMon] at h
  split at h
  · cases h
  · exact h

theorem mon_step {n : Nat} {s : State} {h : List Ev} (hc : Coh n s h) (hm : Mon s h) (op : Op)
    (hr : (step n s op).2 ≠ .refused) (ht : Tame ((op, (step n s op).2) :: h)) :
    Mon (step n s op).1 ((op, (step n s op).2) :: h) := by
  have hz : ∀ m k o, s.mon m k o = true → o = 0 := by
    intro m k o hx
    obtain ⟨r, hr⟩ := hm.seen m k o hx
    exact ht.1 m k o r (List.mem_cons_of_mem _ hr)
  have hnop : ∀ e : Ev, (∀ j k', otherWrote j k' e = false) → Mon s (e :: h) := fun e he =>
    mon_less hm (fun _ _ _ hx => hx) hm.copy (fun _ _ _ _ => he _ _)
  cases op with
  | load m k =>
    simp only [step]
    by_cases hn : n ≤ m
    · rw [if_pos hn]; exact hnop _ fun _ _ => rfl
    · rw [if_neg hn]
      split
      · exact hnop _ fun _ _ => rfl
      · exact mon_less hm (fun _ _ _ hx => hx) (fun j k' o hx => fill_keeps (hm.copy j k' o hx))
          (fun _ _ _ _ => rfl)
  | store m k =>
    simp only [step]
    by_cases hn : n ≤ m
    · rw [if_pos hn]; exact hnop _ fun _ _ => rfl
    · rw [if_neg hn]
      split
      · rename_i hu
        refine mon_less hm (fun _ _ _ hx => hx) hm.copy fun j k' o hx => ?_
        by_cases hk : k' = k
        · subst hk
          by_cases hjm : j = m
          · simp [otherWrote, hjm]
          · exact absurd (hc.alone m j k' hu hjm) (hm.copy j k' o hx)
        · exact ow_store hk
      · refine mon_own (m := m) (k := k) hm hz _ _ rfl (fun _ _ _ hx => hx) ?_
        rintro j k' (hk | hj)
        · exact ow_store hk
        · simp [otherWrote, hj]
  | ldx m k o =>
    simp only [step]
    by_cases hn : n ≤ m
    · rw [if_pos hn]; exact hnop _ fun _ _ => rfl
    · rw [if_neg hn]
      unfold ldx
      split
      · exact hnop _ fun _ _ => rfl
      · have hback : ∀ j k' o', (setMon (setPos (fill n s m k) m) m k o).mon j k' o' = true →
            (j = m ∧ k' = k ∧ o' = o) ∨ s.mon j k' o' = true := by
          intro j k' o' hx
          simp only [setMon] at hx
          split at hx
          · rename_i hcond; exact Or.inl hcond
          · rw [setPos_mon] at hx; exact Or.inr hx
        refine ⟨?_, ?_, ?_⟩
        · intro j k' o' hx
          rcases hback j k' o' hx with ⟨rfl, rfl, rfl⟩ | hx
          · exact ⟨_, List.mem_cons_self⟩
          · obtain ⟨r, hr⟩ := hm.seen j k' o' hx
            exact ⟨r, List.mem_cons_of_mem _ hr⟩
        · intro j k' o' hx
          show (setPos (fill n s m k) m).line j k' ≠ .inv
          rw [setPos_line]
          rcases hback j k' o' hx with ⟨rfl, rfl, rfl⟩ | hx
          · exact fill_own
          · exact fill_keeps (hm.copy j k' o' hx)
        · intro j k' o' hx
          rcases hback j k' o' hx with ⟨rfl, rfl, rfl⟩ | hx
          · simp [Untouched, since, loadedExcl]
          · exact untouched_skip (hm.calm j k' o' hx) rfl
  | stx m k o =>
    simp only [step] at hr ⊢
    by_cases hn : n ≤ m
    · rw [if_pos hn]; exact hnop _ fun _ _ => rfl
    · rw [if_neg hn] at hr ⊢
      unfold stx at hr ⊢
      by_cases hmon : s.mon m k o = false
      · rw [if_pos hmon]; exact hnop _ fun _ _ => rfl
      · rw [if_neg hmon] at hr ⊢
        have how : ∀ j k', k' ≠ k ∨ j = m → otherWrote j k' (.stx m k o, .ok) = false := by
          rintro j k' (hk | hj)
          · exact ow_stx hk
          · simp [otherWrote, hj]
        cases hl : s.line m k with
        | uniq =>
          refine mon_less hm (fun _ _ _ hx => clr_sub hx)
            (fun j k' o' hx => hm.copy j k' o' (clr_sub hx)) fun j k' o' hx => ?_
          by_cases hk : k' = k
          · subst hk
            by_cases hjm : j = m
            · exact how j k' (Or.inr hjm)
            · exact absurd (hc.alone m j k' hl hjm) (hm.copy j k' o' (clr_sub hx))
          · exact how j k' (Or.inl hk)
        | inv =>
          exact mon_own (m := m) (k := k) hm hz _ _ rfl (fun _ _ _ hx => clr_sub hx) how
        | shared =>
          rw [hl] at hr
          dsimp only at hr ⊢
          by_cases hp : s.pos m = true
          · rw [if_pos hp]
            exact mon_own (m := m) (k := k) hm hz _ _ rfl (fun _ _ _ hx => clr_sub hx) how
          · rw [if_neg hp] at hr
            exact absurd rfl hr
  | evict m k =>
    refine mon_less hm (fun _ _ _ hx => hx) (fun j k' o hx => ?_) (fun _ _ _ _ => rfl)
    simp only [step, drop]
    split
    · rename_i hcond
      obtain ⟨r, hr⟩ := hm.seen j k' o hx
      rw [hcond.1, hcond.2] at hr
      exact absurd List.mem_cons_self (ht.2 m k o r _ (List.mem_cons_of_mem _ hr))
    · exact hm.copy j k' o hx
  | release =>
    exact mon_less hm (fun _ _ _ hx => hx) hm.copy (fun _ _ _ _ => rfl)

theorem tame_tail {e : Ev} {h : List Ev} (ht : Tame (e :: h)) : Tame h :=
  ⟨fun m k o r hx => ht.1 m k o r (List.mem_cons_of_mem _ hx),
    fun m k o r r' hx hy => ht.2 m k o r r' (List.mem_cons_of_mem _ hx) (List.mem_cons_of_mem _ hy)⟩

theorem mon_reach {n : Nat} {s : State} {h : List Ev} (hr : Reach n s h) :
    NoRefusal h → Tame h → Mon s h := by
  induction hr with
  | init => exact fun _ _ => mon_init
  | step op hr ih =>
    intro hn ht
    have hn' : NoRefusal _ := fun e he => hn e (List.mem_cons_of_mem _ he)
    exact mon_step (coh_reach hr hn') (ih hn' (tame_tail ht)) op (hn _ List.mem_cons_self) ht

theorem open_skip {m k o : Nat} {h : List Ev} {e : Ev} (hf : Open m k o h)
    (he : storedExcl m k o e = false) : Open m k o (e :: h) := by
  simp only [Open] at *
  simp [since, he, hf]

theorem own_sub {s : State} {m k j k' o' : Nat} (h : (own s m k).mon j k' o' = true) :
    s.mon j k' o' = true := by
  simp only [own] at h
  split at h
  · cases h
  · exact h

theorem clr_self {s : State} {m k o j k' o' : Nat} (h : (clrMon s m k o).mon j k' o' = true) :
    storedExcl j k' o' (.stx m k o, .ok) = false := by
  simp only [clrMon] at h
  split at h
  · cases h
  · rename_i hc
    cases hx : storedExcl j k' o' (.stx m k o, .ok) with
    | false => rfl
    | true =>
      simp [storedExcl] at hx
      exact absurd ⟨hx.1.1.symm, hx.1.2.symm, hx.2.symm⟩ hc

/-- A monitor which is set stands for an exclusive load not used up yet. -/
theorem open_reach {n : Nat} {s : State} {h : List Ev} (hr : Reach n s h) :
    ∀ m k o, s.mon m k o = true → Open m k o h := by
  induction hr with
  | init => intro m k o hx; simp [init] at hx
  | @step s h op _ ih =>
    have hnop : ∀ (e : Ev) (s' : State), (∀ j k' o', s'.mon j k' o' = true → s.mon j k' o' = true) →
        (∀ j k' o', storedExcl j k' o' e = false) →
        ∀ j k' o', s'.mon j k' o' = true → Open j k' o' (e :: h) :=
      fun e s' hs he j k' o' hx => open_skip (ih j k' o' (hs j k' o' hx)) (he j k' o')
    cases op with
    | load m k =>
      simp only [step]
      by_cases hn : n ≤ m
      · rw [if_pos hn]; exact hnop _ _ (fun _ _ _ hx => hx) fun _ _ _ => rfl
      · rw [if_neg hn]
        split <;> exact hnop _ _ (fun _ _ _ hx => hx) fun _ _ _ => rfl
    | store m k =>
      simp only [step]
      by_cases hn : n ≤ m
      · rw [if_pos hn]; exact hnop _ _ (fun _ _ _ hx => hx) fun _ _ _ => rfl
      · rw [if_neg hn]
        split
        · exact hnop _ _ (fun _ _ _ hx => hx) fun _ _ _ => rfl
        · exact hnop _ _ (fun _ _ _ hx => own_sub hx) fun _ _ _ => rfl
    | ldx m k o =>
      simp only [step]
      by_cases hn : n ≤ m
      · rw [if_pos hn]; exact hnop _ _ (fun _ _ _ hx => hx) fun _ _ _ => rfl
      · rw [if_neg hn]
        unfold ldx
        split
        · exact hnop _ _ (fun _ _ _ hx => hx) fun _ _ _ => rfl
        · intro j k' o' hx
          simp only [setMon] at hx
          split at hx
          · rename_i hc
            obtain ⟨rfl, rfl, rfl⟩ := hc
            simp [Open, since, loadedExcl]
          · rw [setPos_mon] at hx
            exact open_skip (ih j k' o' hx) rfl
    | stx m k o =>
      simp only [step]
      by_cases hn : n ≤ m
      · rw [if_pos hn]; exact hnop _ _ (fun _ _ _ hx => hx) fun _ _ _ => rfl
      · rw [if_neg hn]
        unfold stx
        by_cases hmon : s.mon m k o = false
        · rw [if_pos hmon]; exact hnop _ _ (fun _ _ _ hx => hx) fun _ _ _ => rfl
        · rw [if_neg hmon]
          cases hl : s.line m k with
          | uniq =>
            intro j k' o' hx
            exact open_skip (ih j k' o' (clr_sub hx)) (clr_self hx)
          | inv =>
            intro j k' o' hx
            exact open_skip (ih j k' o' (own_sub (clr_sub hx))) (clr_self hx)
          | shared =>
            dsimp only
            by_cases hp : s.pos m = true
            · rw [if_pos hp]
              intro j k' o' hx
              exact open_skip (ih j k' o' (own_sub (clr_sub hx))) (clr_self hx)
            · rw [if_neg hp]
              refine hnop _ _ (fun _ _ _ hx => ?_) fun _ _ _ => rfl
              have hx' := clr_sub hx
              simp only [claim, setPos_mon] at hx'
              exact hx'
    | evict m k => exact hnop _ _ (fun _ _ _ hx => hx) fun _ _ _ => rfl
    | release => exact hnop _ _ (fun _ _ _ hx => hx) fun _ _ _ => rfl

/-- One line is loaded from exclusively, and the lock is free: who has a monitor set has a copy
and the interconnect's flag. -/
structure One (k : Nat) (s : State) : Prop where
  free : s.lock = false
  at0 : ∀ m k' o, s.mon m k' o = true → k' = k ∧ o = 0
  copy : ∀ m, s.mon m k 0 = true → s.line m k ≠ .inv
  flag : ∀ m, s.mon m k 0 = true → s.pos m = true

theorem one_less {k : Nat} {s s' : State} (ho : One k s) (hf : s'.lock = false)
    (hs : ∀ m k' o, s'.mon m k' o = true → s.mon m k' o = true)
    (hl : ∀ m, s'.mon m k 0 = true → s'.line m k ≠ .inv)
    (hp : ∀ m, s'.mon m k 0 = true → s'.pos m = true) : One k s' :=
  ⟨hf, fun m k' o hx => ho.at0 m k' o (hs m k' o hx), hl, hp⟩

theorem one_own {k m k0 : Nat} {s s' : State} (ho : One k s)
    (hl : s'.line = (own s m k0).line) (hf : s'.lock = false)
    (hs : ∀ j k' o, s'.mon j k' o = true → (own s m k0).mon j k' o = true)
    (hp : ∀ j, j = m ∨ k0 ≠ k → s'.pos j = s.pos j) : One k s' := by
  have hback : ∀ j k' o, s'.mon j k' o = true → s.mon j k' o = true ∧ (j = m ∨ k0 ≠ k) := by
    intro j k' o hx
    have hx' := hs j k' o hx
    simp only [own] at hx'
    split at hx'
    · cases hx'
    · rename_i hcond
      refine ⟨hx', ?_⟩
      obtain ⟨hk', ho'⟩ := ho.at0 j k' o hx'
      by_cases hj : j = m
      · exact Or.inl hj
      · refine Or.inr fun hk => hcond ⟨hj, hk'.trans hk.symm, ho', ?_⟩
        subst hk' ho'
        exact hk ▸ ho.copy j hx'
  refine one_less ho hf (fun j k' o hx => (hback j k' o hx).1) ?_ ?_
  · intro j hx
    rw [hl]
    obtain ⟨h1, h2⟩ := hback j k 0 hx
    simp only [own]
    by_cases hk : k = k0
    · rw [if_pos hk]
      rcases h2 with h2 | h2
      · rw [if_pos h2]; simp
      · exact absurd hk.symm h2
    · rw [if_neg hk]; exact ho.copy j h1
  · intro j hx
    obtain ⟨h1, h2⟩ := hback j k 0 hx
    rw [hp j h2]; exact ho.flag j h1

theorem one_step {n k : Nat} {s : State} (ho : One k s) (op : Op) (hop : OneLock k [op]) :
    (step n s op).2 ≠ .refused ∧ One k { (step n s op).1 with lock := false } := by
  have hself : One k { s with lock := false } :=
    one_less ho rfl (fun _ _ _ hx => hx) ho.copy ho.flag
  cases op with
  | load m k' =>
    simp only [step]
    by_cases hn : n ≤ m
    · rw [if_pos hn]; exact ⟨by simp, hself⟩
    · rw [if_neg hn]
      split
      · exact ⟨by simp, hself⟩
      · exact ⟨by simp, one_less ho rfl (fun _ _ _ hx => hx)
          (fun j hx => fill_keeps (ho.copy j hx)) ho.flag⟩
  | store m k' =>
    simp only [step]
    by_cases hn : n ≤ m
    · rw [if_pos hn]; exact ⟨by simp, hself⟩
    · rw [if_neg hn]
      split
      · exact ⟨by simp, hself⟩
      · exact ⟨by simp, one_own (m := m) (k0 := k') ho rfl rfl (fun _ _ _ hx => hx)
          (fun _ _ => rfl)⟩
  | ldx m k' o =>
    obtain ⟨rfl, rfl⟩ := hop.1 m k' o List.mem_cons_self
    simp only [step]
    by_cases hn : n ≤ m
    · rw [if_pos hn]; exact ⟨by simp, hself⟩
    · rw [if_neg hn]
      unfold ldx
      split
      · exact ⟨by simp, hself⟩
      · refine ⟨by simp, rfl, ?_, ?_, ?_⟩
        · intro j k2 o2 hx
          simp only [setMon] at hx
          split at hx
          · rename_i hcond; exact ⟨hcond.2.1, hcond.2.2⟩
          · rw [setPos_mon] at hx; exact ho.at0 j k2 o2 hx
        · intro j hx
          show (setPos (fill n s m k') m).line j k' ≠ .inv
          rw [setPos_line]
          simp only [setMon] at hx
          split at hx
          · rename_i hcond; rw [hcond.1]; exact fill_own
          · rw [setPos_mon] at hx; exact fill_keeps (ho.copy j hx)
        · intro j hx
          show (setPos (fill n s m k') m).pos j = true
          have hlk : (fill n s m k').lock = false := ho.free
          simp only [setPos, hlk]
          show (if j = m then true else s.pos j) = true
          by_cases hj : j = m
          · rw [if_pos hj]
          · rw [if_neg hj]
            simp only [setMon] at hx
            rw [if_neg (fun h => hj h.1), setPos_mon] at hx
            exact ho.flag j hx
  | stx m k' o =>
    simp only [step]
    by_cases hn : n ≤ m
    · rw [if_pos hn]; exact ⟨by simp, hself⟩
    · rw [if_neg hn]
      unfold stx
      by_cases hmon : s.mon m k' o = false
      · rw [if_pos hmon]; exact ⟨by simp, hself⟩
      · rw [if_neg hmon]
        have hmon' : s.mon m k' o = true := by simpa using hmon
        obtain ⟨rfl, rfl⟩ := ho.at0 m k' o hmon'
        cases hl : s.line m k' with
        | uniq =>
          exact ⟨by simp, one_less ho rfl (fun _ _ _ hx => clr_sub hx)
            (fun j hx => ho.copy j (clr_sub hx)) (fun j hx => ho.flag j (clr_sub hx))⟩
        | inv => exact absurd hl (ho.copy m hmon')
        | shared =>
          dsimp only
          rw [if_pos (ho.flag m hmon')]
          refine ⟨by simp, one_own (m := m) (k0 := k') ho rfl rfl (fun _ _ _ hx => clr_sub hx) ?_⟩
          rintro j (hj | hj)
          · show (if j = m then s.pos j else false) = s.pos j
            rw [if_pos hj]
          · exact absurd rfl hj
  | evict m k' =>
    have hne : k' ≠ k := fun h => hop.2 m (h ▸ List.mem_cons_self)
    refine ⟨by simp [step], one_less ho rfl (fun _ _ _ hx => hx) (fun j hx => ?_) ho.flag⟩
    show (drop s m k').line j k ≠ .inv
    simp only [drop]
    rw [if_neg (fun h => hne h.2.symm)]
    exact ho.copy j hx
  | release => exact ⟨by simp [step], hself⟩

theorem one_exec {n k : Nat} : ∀ (ops : List Op) (s : State) (h : List Ev), One k s →
    OneLock k ops → NoRefusal h →
    NoRefusal (exec n s h (ops.flatMap fun op => [op, .release])).2
  | [], _, _, _, _, hn => hn
  | op :: ops, s, h, ho, hl, hn => by
    have hop : OneLock k [op] :=
      ⟨fun m k' o hx => hl.1 m k' o (by
          rw [List.mem_singleton] at hx; rw [hx]; exact List.mem_cons_self),
        fun m hx => hl.2 m (by rw [List.mem_singleton] at hx; rw [hx]; exact List.mem_cons_self)⟩
    obtain ⟨h1, h2⟩ := one_step (n := n) ho op hop
    refine one_exec ops _ _ h2 ⟨fun m k' o hx => hl.1 m k' o (List.mem_cons_of_mem _ hx),
      fun m hx => hl.2 m (List.mem_cons_of_mem _ hx)⟩ ?_
    intro e he
    rcases List.mem_cons.mp he with rfl | he
    · simp [step]
    · rcases List.mem_cons.mp he with rfl | he
      · exact h1
      · exact hn e he

end Verif.AceExcl
