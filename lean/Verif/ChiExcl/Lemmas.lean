import Verif.ChiExcl.Spec

/-! # Invariants of the CHI exclusive accesses -/

namespace Verif.ChiExcl

theorem reach_exec (n : Nat) : ∀ ops s h, Reach n s h →
    Reach n (exec n s h ops).1 (exec n s h ops).2
  | [], _, _, hr => hr
  | op :: ops, s, h, hr => reach_exec n ops _ _ (Reach.step op hr)

theorem held_of {n : Nat} {s : State} {m k j : Nat} (hj : j < n) (hne : j ≠ m)
    (hl : s.line j k ≠ .inv) : held n s m k = true := by
  unfold held
  rw [List.any_eq_true]
  exact ⟨j, List.mem_range.mpr hj, by simp [hne, hl]⟩

/-- Nobody else has a line that is unique, copies are fresh, and only nodes have lines. -/
structure Coh (n : Nat) (s : State) (h : List Ev) : Prop where
  alone : ∀ i j k, s.line i k = .uniq → j ≠ i → s.line j k = .inv
  fresh : ∀ j k, s.line j k ≠ .inv → Fresh j k h
  dom : ∀ j k, n ≤ j → s.line j k = .inv

theorem coh_init (n : Nat) : Coh n init [] :=
  ⟨fun _ _ _ h => by simp [init] at h, fun _ _ h => by simp [init] at h, fun _ _ _ => rfl⟩

theorem fresh_skip {j k : Nat} {h : List Ev} {e : Ev} (hf : Fresh j k h)
    (he : otherWrote j k e = false) : Fresh j k (e :: h) := by
  simp only [Fresh] at *
  simp [since, he, hf]

theorem fresh_got {j k : Nat} {h : List Ev} {e : Ev}
    (he : gotCopy j k e = true) : Fresh j k (e :: h) := by
  unfold Fresh since
  simp [he]

theorem untouched_skip {m k o : Nat} {h : List Ev} {e : Ev} (hf : Untouched m k o h)
    (he : otherWrote m k e = false) : Untouched m k o (e :: h) := by
  simp only [Untouched] at *
  simp [since, he, hf]

theorem coh_same {n : Nat} {s s' : State} {h : List Ev} {e : Ev} (hc : Coh n s h)
    (hl : s'.line = s.line) (he : ∀ j k, s.line j k ≠ .inv → otherWrote j k e = false) :
    Coh n s' (e :: h) := by
  refine ⟨?_, ?_, ?_⟩
  · rw [hl]; exact hc.alone
  · rw [hl]; exact fun j k hj => fresh_skip (hc.fresh j k hj) (he j k hj)
  · rw [hl]; exact hc.dom

theorem coh_fill {n : Nat} {s s' : State} {h : List Ev} {e : Ev} {m k : Nat} (hc : Coh n s h)
    (hm : m < n) (hl : s'.line = (fill n s m k).line) (he : ∀ j k', otherWrote j k' e = false)
    (hg : gotCopy m k e = true) : Coh n s' (e :: h) := by
  have hcase : ∀ j k', s'.line j k' = if k' = k then
        if j = m then (if held n s m k then .shared else .uniq)
        else if s.line j k = .inv then .inv else .shared
      else s.line j k' := fun j k' => by rw [hl]; rfl
  refine ⟨?_, ?_, ?_⟩
  · intro i j k' hu hne
    rw [hcase] at hu ⊢
    by_cases hk : k' = k
    · rw [if_pos hk] at hu ⊢
      by_cases hi : i = m
      · rw [if_pos hi] at hu
        rw [if_neg (fun h => hne (h.trans hi.symm))]
        by_cases hj : s.line j k = .inv
        · rw [if_pos hj]
        · have hjn : j < n := by
            apply Decidable.byContradiction
            intro hcon
            exact hj (hc.dom j k (by omega))
          rw [held_of hjn (fun h => hne (h.trans hi.symm)) hj] at hu
          simp at hu
      · rw [if_neg hi] at hu
        split at hu <;> cases hu
    · rw [if_neg hk] at hu ⊢
      exact hc.alone i j k' hu hne
  · intro j k' hj
    rw [hcase] at hj
    by_cases hk : k' = k
    · by_cases hjm : j = m
      · subst hk hjm; exact fresh_got hg
      · rw [if_pos hk, if_neg hjm] at hj
        subst hk
        by_cases hi : s.line j k' = .inv
        · rw [if_pos hi] at hj; exact absurd rfl hj
        · exact fresh_skip (hc.fresh j k' hi) (he j k')
    · rw [if_neg hk] at hj
      exact fresh_skip (hc.fresh j k' hj) (he j k')
  · intro j k' hj
    rw [hcase]
    have hjm : j ≠ m := by omega
    by_cases hk : k' = k
    · rw [if_pos hk, if_neg hjm, if_pos (hc.dom j k hj)]
    · rw [if_neg hk]; exact hc.dom j k' hj

theorem coh_purge {n : Nat} {s : State} {h : List Ev} {e : Ev} {m k : Nat} (hc : Coh n s h)
    (he : ∀ j k', k' ≠ k ∨ j = m → otherWrote j k' e = false) : Coh n (purge s m k) (e :: h) := by
  refine ⟨?_, ?_, ?_⟩
  · intro i j k' hu hne
    simp only [purge] at hu ⊢
    split at hu
    · cases hu
    · split
      · rfl
      · exact hc.alone i j k' hu hne
  · intro j k' hj
    simp only [purge] at hj
    split at hj
    · exact absurd rfl hj
    · rename_i hcond
      refine fresh_skip (hc.fresh j k' hj) (he j k' ?_)
      by_cases hk : k' = k
      · by_cases hjm : j = m
        · exact Or.inr hjm
        · exact absurd ⟨hk, hjm⟩ hcond
      · exact Or.inl hk
  · intro j k' hj
    simp only [purge]
    split
    · rfl
    · exact hc.dom j k' hj

theorem coh_claim {n : Nat} {s : State} {h : List Ev} {m k : Nat} (hc : Coh n s h) (hm : m < n)
    (ha : ∀ j, j ≠ m → s.line j k = .inv) (hf : Fresh m k h) : Coh n (claim s m k) h := by
  refine ⟨?_, ?_, ?_⟩
  · intro i j k' hu hne
    simp only [claim] at hu ⊢
    by_cases hi : i = m ∧ k' = k
    · rw [if_neg (fun h => hne (h.1.trans hi.1.symm)), hi.2]
      exact ha j (fun h => hne (h.trans hi.1.symm))
    · rw [if_neg hi] at hu
      by_cases hj : j = m ∧ k' = k
      · rw [hj.2] at hu
        have := ha i (fun h => hi ⟨h, hj.2⟩)
        rw [this] at hu; cases hu
      · rw [if_neg hj]; exact hc.alone i j k' hu hne
  · intro j k' hj
    simp only [claim] at hj
    by_cases hjm : j = m ∧ k' = k
    · rw [hjm.1, hjm.2]; exact hf
    · rw [if_neg hjm] at hj; exact hc.fresh j k' hj
  · intro j k' hj
    simp only [claim]
    rw [if_neg (fun h => by omega)]
    exact hc.dom j k' hj

theorem coh_clr {n : Nat} {s : State} {h : List Ev} {m k o : Nat} (hc : Coh n s h) :
    Coh n (clrMon s m k o) h := ⟨hc.alone, hc.fresh, hc.dom⟩

theorem purge_others {s : State} {m k j : Nat} (h : j ≠ m) : (purge s m k).line j k = .inv := by
  simp [purge, h]

theorem coh_drop {n : Nat} {s : State} {h : List Ev} {e : Ev} {m k : Nat} (hc : Coh n s h)
    (he : ∀ j k', otherWrote j k' e = false) : Coh n (drop s m k) (e :: h) := by
  refine ⟨?_, ?_, ?_⟩
  · intro i j k' hu hne
    simp only [drop] at hu ⊢
    split at hu
    · cases hu
    · split
      · rfl
      · exact hc.alone i j k' hu hne
  · intro j k' hj
    simp only [drop] at hj
    split at hj
    · exact absurd rfl hj
    · exact fresh_skip (hc.fresh j k' hj) (he j k')
  · intro j k' hj
    simp only [drop]
    split
    · rfl
    · exact hc.dom j k' hj

theorem ow_self {m k j k' : Nat} {op : Op} {r : Res} (hop : op = .store m k ∨ op = .writeU m k ∨
    ∃ o, op = .stx m k o) (h : k' ≠ k ∨ j = m) : otherWrote j k' (op, r) = false := by
  have hb : (m != j && k == k') = false := by
    rcases h with h | h
    · have : (k == k') = false := by simp; exact fun hc => h hc.symm
      simp [this]
    · simp [h]
  rcases hop with rfl | rfl | ⟨o, rfl⟩ <;> cases r <;> first | rfl | exact hb

theorem ow_uniq {n : Nat} {s : State} {h : List Ev} (hc : Coh n s h) {m k j k' : Nat} {op : Op}
    {r : Res} (hop : op = .store m k ∨ op = .writeU m k ∨ ∃ o, op = .stx m k o)
    (hu : s.line m k = .uniq) (hj : s.line j k' ≠ .inv) : otherWrote j k' (op, r) = false := by
  by_cases hk : k' = k
  · by_cases hjm : j = m
    · exact ow_self hop (Or.inr hjm)
    · rw [hk] at hj; exact absurd (hc.alone m j k hu hjm) hj
  · exact ow_self hop (Or.inl hk)

theorem coh_step {n : Nat} {s : State} {h : List Ev} (hc : Coh n s h) (op : Op) :
    Coh n (step n s op).1 ((op, (step n s op).2) :: h) := by
  cases op with
  | load m k =>
    simp only [step]
    by_cases hn : n ≤ m
    · rw [if_pos hn]; exact coh_same hc rfl fun _ _ _ => rfl
    · rw [if_neg hn]
      split
      · exact coh_same hc rfl fun _ _ _ => rfl
      · exact coh_fill (m := m) (k := k) hc (by omega) rfl (fun _ _ => rfl) (by simp [gotCopy])
  | once m k inv =>
    simp only [step]
    by_cases hn : n ≤ m
    · rw [if_pos hn]; exact coh_same hc rfl fun _ _ _ => rfl
    · rw [if_neg hn]
      split
      · exact coh_same hc rfl fun _ _ _ => rfl
      · split
        · exact coh_purge hc fun _ _ _ => rfl
        · exact coh_same hc rfl fun _ _ _ => rfl
  | store m k =>
    simp only [step]
    by_cases hn : n ≤ m
    · rw [if_pos hn]; exact coh_same hc rfl fun _ _ _ => rfl
    · rw [if_neg hn]
      split
      · rename_i hu
        exact coh_same hc rfl fun j k' hj => ow_uniq hc (Or.inl rfl) hu hj
      · exact coh_claim (coh_purge hc fun _ _ hx => ow_self (Or.inl rfl) hx) (by omega)
          (fun _ hj => purge_others hj) (fresh_got (by simp [gotCopy]))
  | writeU m k =>
    simp only [step]
    by_cases hn : n ≤ m
    · rw [if_pos hn]; exact coh_same hc rfl fun _ _ _ => rfl
    · rw [if_neg hn]
      have hw : ∀ j k', k' ≠ k ∨ j = m → otherWrote j k' (.writeU m k, .ok) = false :=
        fun _ _ hx => ow_self (Or.inr (Or.inl rfl)) hx
      split
      · rename_i hu
        exact coh_same hc rfl fun j k' hj => ow_uniq hc (Or.inr (Or.inl rfl)) hu hj
      · split
        · rename_i hs
          exact coh_claim (coh_purge hc hw) (by omega) (fun _ hj => purge_others hj)
            (fresh_skip (hc.fresh m k (by simp [hs])) (hw m k (Or.inr rfl)))
        · exact coh_purge hc hw
  | ldx m k o =>
    simp only [step]
    by_cases hn : n ≤ m
    · rw [if_pos hn]; exact coh_same hc rfl fun _ _ _ => rfl
    · rw [if_neg hn]
      unfold ldx
      split
      · exact coh_same hc rfl fun _ _ _ => rfl
      · exact coh_fill (m := m) (k := k) hc (by omega) rfl (fun _ _ => rfl) (by simp [gotCopy])
  | stx m k o =>
    simp only [step]
    by_cases hn : n ≤ m
    · rw [if_pos hn]; exact coh_same hc rfl fun _ _ _ => rfl
    · rw [if_neg hn]
      unfold stx
      have hop : Op.stx m k o = .store m k ∨ Op.stx m k o = .writeU m k ∨
          ∃ o', Op.stx m k o = .stx m k o' := Or.inr (Or.inr ⟨o, rfl⟩)
      by_cases hmon : s.mon m k o = false
      · rw [if_pos hmon]; exact coh_same hc rfl fun _ _ _ => rfl
      · rw [if_neg hmon]
        cases hl : s.line m k with
        | uniq => exact coh_same hc rfl fun j k' hj => ow_uniq hc hop hl hj
        | inv =>
          exact coh_clr (coh_claim (coh_purge hc fun _ _ hx => ow_self hop hx) (by omega)
            (fun _ hj => purge_others hj) (fresh_got (by simp [gotCopy])))
        | shared =>
          exact coh_clr (coh_claim (coh_purge hc fun _ _ hx => ow_self hop hx) (by omega)
            (fun _ hj => purge_others hj)
            (fresh_skip (hc.fresh m k (by simp [hl])) (ow_self hop (Or.inr rfl))))
  | evict m k => exact coh_drop hc fun _ _ => rfl

theorem coh_reach {n : Nat} {s : State} {h : List Ev} (hr : Reach n s h) : Coh n s h := by
  induction hr with
  | init => exact coh_init n
  | step op _ ih => exact coh_step ih op

/-- A monitor that is set stands for an exclusive load at the start of a line, of which there is
still a copy, and which nobody else has written since. -/
structure Mon (s : State) (h : List Ev) : Prop where
  seen : ∀ m k o, s.mon m k o = true → ∃ r, (Op.ldx m k o, r) ∈ h
  copy : ∀ m k o, s.mon m k o = true → s.line m k ≠ .inv
  calm : ∀ m k o, s.mon m k o = true → Untouched m k o h

theorem mon_init : Mon init [] :=
  ⟨fun _ _ _ h => by simp [init] at h, fun _ _ _ h => by simp [init] at h,
    fun _ _ _ h => by simp [init] at h⟩

/-- A step that sets no monitor, after which monitored lines are there and not written by others. -/
theorem mon_less {s s' : State} {h : List Ev} {e : Ev} (hm : Mon s h)
    (hs : ∀ m k o, s'.mon m k o = true → s.mon m k o = true)
    (hl : ∀ m k o, s'.mon m k o = true → s'.line m k ≠ .inv)
    (he : ∀ m k o, s'.mon m k o = true → otherWrote m k e = false) : Mon s' (e :: h) := by
  refine ⟨?_, hl, ?_⟩
  · intro m k o hx
    obtain ⟨r, hr⟩ := hm.seen m k o (hs m k o hx)
    exact ⟨r, List.mem_cons_of_mem _ hr⟩
  · intro m k o hx
    exact untouched_skip (hm.calm m k o (hs m k o hx)) (he m k o hx)

theorem fill_keeps {n : Nat} {s : State} {m k j k' : Nat} (h : s.line j k' ≠ .inv) :
    (fill n s m k).line j k' ≠ .inv := by
  simp only [fill]
  by_cases hk : k' = k
  · subst hk
    rw [if_pos rfl]
    by_cases hj : j = m
    · rw [if_pos hj]; split <;> simp
    · rw [if_neg hj, if_neg h]; simp
  · rw [if_neg hk]; exact h

theorem fill_own {n : Nat} {s : State} {m k : Nat} : (fill n s m k).line m k ≠ .inv := by
  simp only [fill, if_true]
  split <;> simp

/-- Purging a line: the others' monitors of it are gone. -/
theorem purge_mon {s : State} {h : List Ev} {m k : Nat} (hm : Mon s h)
    (hz : ∀ m k o, s.mon m k o = true → o = 0) {j k' o : Nat}
    (hx : (purge s m k).mon j k' o = true) : s.mon j k' o = true ∧ (k' ≠ k ∨ j = m) := by
  simp only [purge] at hx
  split at hx
  · cases hx
  · rename_i hcond
    refine ⟨hx, ?_⟩
    by_cases hk : k' = k
    · by_cases hj : j = m
      · exact Or.inr hj
      · refine absurd ⟨hj, hk, hz j k' o hx, ?_⟩ hcond
        exact hk ▸ hm.copy j k' o hx
    · exact Or.inl hk

theorem mon_purge {s s' : State} {h : List Ev} {m k : Nat} {e : Ev} (hm : Mon s h)
    (hz : ∀ m k o, s.mon m k o = true → o = 0)
    (hs : ∀ j k' o, s'.mon j k' o = true → (purge s m k).mon j k' o = true)
    (hl : ∀ j k', (purge s m k).line j k' ≠ .inv → s'.line j k' ≠ .inv)
    (he : ∀ j k', k' ≠ k ∨ j = m → otherWrote j k' e = false) : Mon s' (e :: h) := by
  refine mon_less hm (fun j k' o hx => (purge_mon hm hz (hs j k' o hx)).1) ?_
    (fun j k' o hx => he j k' (purge_mon hm hz (hs j k' o hx)).2)
  intro j k' o hx
  obtain ⟨h1, h2⟩ := purge_mon hm hz (hs j k' o hx)
  refine hl j k' ?_
  simp only [purge]
  rw [if_neg (fun h => h2.elim (fun h3 => h3 h.1) h.2)]
  exact hm.copy j k' o h1

theorem claim_line {s : State} {m k j k' : Nat} (h : s.line j k' ≠ .inv) :
    (claim s m k).line j k' ≠ .inv := by
  simp only [claim]
  split
  · simp
  · exact h

theorem clr_sub {s : State} {m k o j k' o' : Nat} (h : (clrMon s m k o).mon j k' o' = true) :
    s.mon j k' o' = true := by
  simp only [clrMon] at h
  split at h
  · cases h
  · exact h

theorem mon_step {n : Nat} {s : State} {h : List Ev} (hc : Coh n s h) (hm : Mon s h) (op : Op)
    (ht : Tame ((op, (step n s op).2) :: h)) :
    Mon (step n s op).1 ((op, (step n s op).2) :: h) := by
  have hz : ∀ m k o, s.mon m k o = true → o = 0 := by
    intro m k o hx
    obtain ⟨r, hr⟩ := hm.seen m k o hx
    exact ht.1 m k o r (List.mem_cons_of_mem _ hr)
  have hnop : ∀ e : Ev, (∀ j k', otherWrote j k' e = false) → Mon s (e :: h) := fun e he =>
    mon_less hm (fun _ _ _ hx => hx) hm.copy (fun _ _ _ _ => he _ _)
  cases op with
  | load m k =>
    simp only [step]
    by_cases hn : n ≤ m
    · rw [if_pos hn]; exact hnop _ fun _ _ => rfl
    · rw [if_neg hn]
      split
      · exact hnop _ fun _ _ => rfl
      · exact mon_less hm (fun _ _ _ hx => hx) (fun j k' o hx => fill_keeps (hm.copy j k' o hx))
          (fun _ _ _ _ => rfl)
  | once m k inv =>
    simp only [step]
    by_cases hn : n ≤ m
    · rw [if_pos hn]; exact hnop _ fun _ _ => rfl
    · rw [if_neg hn]
      split
      · exact hnop _ fun _ _ => rfl
      · split
        · exact mon_purge hm hz (fun _ _ _ hx => hx) (fun _ _ hx => hx) fun _ _ _ => rfl
        · exact hnop _ fun _ _ => rfl
  | store m k =>
    simp only [step]
    by_cases hn : n ≤ m
    · rw [if_pos hn]; exact hnop _ fun _ _ => rfl
    · rw [if_neg hn]
      split
      · rename_i hu
        exact mon_less hm (fun _ _ _ hx => hx) hm.copy fun j k' o hx =>
          ow_uniq hc (Or.inl rfl) hu (hm.copy j k' o hx)
      · exact mon_purge (m := m) (k := k) hm hz (fun _ _ _ hx => hx) (fun _ _ hx => claim_line hx)
          fun _ _ hx => ow_self (Or.inl rfl) hx
  | writeU m k =>
    simp only [step]
    by_cases hn : n ≤ m
    · rw [if_pos hn]; exact hnop _ fun _ _ => rfl
    · rw [if_neg hn]
      have hw : ∀ j k', k' ≠ k ∨ j = m → otherWrote j k' (.writeU m k, .ok) = false :=
        fun _ _ hx => ow_self (Or.inr (Or.inl rfl)) hx
      split
      · rename_i hu
        exact mon_less hm (fun _ _ _ hx => hx) hm.copy fun j k' o hx =>
          ow_uniq hc (Or.inr (Or.inl rfl)) hu (hm.copy j k' o hx)
      · split
        · exact mon_purge (m := m) (k := k) hm hz (fun _ _ _ hx => hx)
            (fun _ _ hx => claim_line hx) hw
        · exact mon_purge (m := m) (k := k) hm hz (fun _ _ _ hx => hx) (fun _ _ hx => hx) hw
  | ldx m k o =>
    simp only [step]
    by_cases hn : n ≤ m
    · rw [if_pos hn]; exact hnop _ fun _ _ => rfl
    · rw [if_neg hn]
      unfold ldx
      split
      · exact hnop _ fun _ _ => rfl
      · have hback : ∀ j k' o', (setMon (fill n s m k) m k o).mon j k' o' = true →
            (j = m ∧ k' = k ∧ o' = o) ∨ s.mon j k' o' = true := by
          intro j k' o' hx
          simp only [setMon] at hx
          split at hx
          · rename_i hcond; exact Or.inl hcond
          · exact Or.inr hx
        refine ⟨?_, ?_, ?_⟩
        · intro j k' o' hx
          rcases hback j k' o' hx with ⟨rfl, rfl, rfl⟩ | hx
          · exact ⟨_, List.mem_cons_self⟩
          · obtain ⟨r, hr⟩ := hm.seen j k' o' hx
            exact ⟨r, List.mem_cons_of_mem _ hr⟩
        · intro j k' o' hx
          show (fill n s m k).line j k' ≠ .inv
          rcases hback j k' o' hx with ⟨rfl, rfl, rfl⟩ | hx
          · exact fill_own
          · exact fill_keeps (hm.copy j k' o' hx)
        · intro j k' o' hx
          rcases hback j k' o' hx with ⟨rfl, rfl, rfl⟩ | hx
          · simp [Untouched, since, loadedExcl]
          · exact untouched_skip (hm.calm j k' o' hx) rfl
  | stx m k o =>
    simp only [step]
    by_cases hn : n ≤ m
    · rw [if_pos hn]; exact hnop _ fun _ _ => rfl
    · rw [if_neg hn]
      unfold stx
      have hop : Op.stx m k o = .store m k ∨ Op.stx m k o = .writeU m k ∨
          ∃ o', Op.stx m k o = .stx m k o' := Or.inr (Or.inr ⟨o, rfl⟩)
      by_cases hmon : s.mon m k o = false
      · rw [if_pos hmon]; exact hnop _ fun _ _ => rfl
      · rw [if_neg hmon]
        cases hl : s.line m k with
        | uniq =>
          exact mon_less hm (fun _ _ _ hx => clr_sub hx)
            (fun j k' o' hx => hm.copy j k' o' (clr_sub hx)) fun j k' o' hx =>
              ow_uniq hc hop hl (hm.copy j k' o' (clr_sub hx))
        | inv =>
          exact mon_purge (m := m) (k := k) hm hz (fun _ _ _ hx => clr_sub hx)
            (fun _ _ hx => claim_line hx) fun _ _ hx => ow_self hop hx
        | shared =>
          exact mon_purge (m := m) (k := k) hm hz (fun _ _ _ hx => clr_sub hx)
            (fun _ _ hx => claim_line hx) fun _ _ hx => ow_self hop hx
  | evict m k =>
    refine mon_less hm (fun _ _ _ hx => hx) (fun j k' o hx => ?_) (fun _ _ _ _ => rfl)
    simp only [step, drop]
    split
    · rename_i hcond
      obtain ⟨r, hr⟩ := hm.seen j k' o hx
      rw [hcond.1, hcond.2] at hr
      exact absurd List.mem_cons_self (ht.2 m k o r _ (List.mem_cons_of_mem _ hr))
    · exact hm.copy j k' o hx

theorem tame_tail {e : Ev} {h : List Ev} (ht : Tame (e :: h)) : Tame h :=
  ⟨fun m k o r hx => ht.1 m k o r (List.mem_cons_of_mem _ hx),
    fun m k o r r' hx hy => ht.2 m k o r r' (List.mem_cons_of_mem _ hx) (List.mem_cons_of_mem _ hy)⟩

theorem mon_reach {n : Nat} {s : State} {h : List Ev} (hr : Reach n s h) :
    Tame h → Mon s h := by
  induction hr with
  | init => exact fun _ => mon_init
  | step op hr ih => exact fun ht => mon_step (coh_reach hr) (ih (tame_tail ht)) op ht

theorem open_skip {m k o : Nat} {h : List Ev} {e : Ev} (hf : Open m k o h)
    (he : storedExcl m k o e = false) : Open m k o (e :: h) := by
  simp only [Open] at *
  simp [since, he, hf]

theorem purge_sub {s : State} {m k j k' o' : Nat} (h : (purge s m k).mon j k' o' = true) :
    s.mon j k' o' = true := by
  simp only [purge] at h
  split at h
  · cases h
  · exact h

theorem clr_self {s : State} {m k o j k' o' : Nat} (h : (clrMon s m k o).mon j k' o' = true) :
    storedExcl j k' o' (.stx m k o, .ok) = false := by
  simp only [clrMon] at h
  split at h
  · cases h
  · rename_i hc
    cases hx : storedExcl j k' o' (.stx m k o, .ok) with
    | false => rfl
    | true =>
      simp [storedExcl] at hx
      exact absurd ⟨hx.1.1.symm, hx.1.2.symm, hx.2.symm⟩ hc

/-- A monitor which is set stands for an exclusive load not used up yet. -/
theorem open_reach {n : Nat} {s : State} {h : List Ev} (hr : Reach n s h) :
    ∀ m k o, s.mon m k o = true → Open m k o h := by
  induction hr with
  | init => intro m k o hx; simp [init] at hx
  | @step s h op _ ih =>
    have hnop : ∀ (e : Ev) (s' : State), (∀ j k' o', s'.mon j k' o' = true → s.mon j k' o' = true) →
        (∀ j k' o', storedExcl j k' o' e = false) →
        ∀ j k' o', s'.mon j k' o' = true → Open j k' o' (e :: h) :=
      fun e s' hs he j k' o' hx => open_skip (ih j k' o' (hs j k' o' hx)) (he j k' o')
    cases op with
    | load m k =>
      simp only [step]
      by_cases hn : n ≤ m
      · rw [if_pos hn]; exact hnop _ _ (fun _ _ _ hx => hx) fun _ _ _ => rfl
      · rw [if_neg hn]
        split <;> exact hnop _ _ (fun _ _ _ hx => hx) fun _ _ _ => rfl
    | store m k =>
      simp only [step]
      by_cases hn : n ≤ m
      · rw [if_pos hn]; exact hnop _ _ (fun _ _ _ hx => hx) fun _ _ _ => rfl
      · rw [if_neg hn]
        split
        · exact hnop _ _ (fun _ _ _ hx => hx) fun _ _ _ => rfl
        · exact hnop _ _ (fun _ _ _ hx => purge_sub hx) fun _ _ _ => rfl
    | ldx m k o =>
      simp only [step]
      by_cases hn : n ≤ m
      · rw [if_pos hn]; exact hnop _ _ (fun _ _ _ hx => hx) fun _ _ _ => rfl
      · rw [if_neg hn]
        unfold ldx
        split
        · exact hnop _ _ (fun _ _ _ hx => hx) fun _ _ _ => rfl
        · intro j k' o' hx
          simp only [setMon] at hx
          split at hx
          · rename_i hc
            obtain ⟨rfl, rfl, rfl⟩ := hc
            simp [Open, since, loadedExcl]
          · exact open_skip (ih j k' o' hx) rfl
    | once m k inv =>
      simp only [step]
      by_cases hn : n ≤ m
      · rw [if_pos hn]; exact hnop _ _ (fun _ _ _ hx => hx) fun _ _ _ => rfl
      · rw [if_neg hn]
        split
        · exact hnop _ _ (fun _ _ _ hx => hx) fun _ _ _ => rfl
        · split
          · exact hnop _ _ (fun _ _ _ hx => purge_sub hx) fun _ _ _ => rfl
          · exact hnop _ _ (fun _ _ _ hx => hx) fun _ _ _ => rfl
    | writeU m k =>
      simp only [step]
      by_cases hn : n ≤ m
      · rw [if_pos hn]; exact hnop _ _ (fun _ _ _ hx => hx) fun _ _ _ => rfl
      · rw [if_neg hn]
        split
        · exact hnop _ _ (fun _ _ _ hx => hx) fun _ _ _ => rfl
        · split <;> exact hnop _ _ (fun _ _ _ hx => purge_sub hx) fun _ _ _ => rfl
    | stx m k o =>
      simp only [step]
      by_cases hn : n ≤ m
      · rw [if_pos hn]; exact hnop _ _ (fun _ _ _ hx => hx) fun _ _ _ => rfl
      · rw [if_neg hn]
        unfold stx
        by_cases hmon : s.mon m k o = false
        · rw [if_pos hmon]; exact hnop _ _ (fun _ _ _ hx => hx) fun _ _ _ => rfl
        · rw [if_neg hmon]
          cases hl : s.line m k with
          | uniq =>
            intro j k' o' hx
            exact open_skip (ih j k' o' (clr_sub hx)) (clr_self hx)
          | inv =>
            intro j k' o' hx
            exact open_skip (ih j k' o' (purge_sub (m := m) (k := k) (clr_sub hx))) (clr_self hx)
          | shared =>
            exact hnop _ _ (fun _ _ _ hx => purge_sub (m := m) (k := k) (clr_sub hx))
              fun _ _ _ => rfl
    | evict m k => exact hnop _ _ (fun _ _ _ hx => hx) fun _ _ _ => rfl

/-- The interconnect's list is who is entitled. -/
theorem served_list {l : List Nat} {h : List (Rq × Got)} (hs : Served l h) :
    ∀ lp, lp ∈ l ↔ Entitled lp h := by
  induction hs with
  | init => intro lp; simp [Entitled]
  | @step l h r _ ih =>
    intro lp
    cases hx : r.excl with
    | false => simp [route, hx, Entitled, ih]
    | true =>
      by_cases hp : r.opc = .cleanUnique ∧ r.lpid ∈ l
      · simp [route, handle, hx, Entitled, hp.1, hp.2, isExcl, eq_comm]
      · cases he : isExcl r.opc with
        | true =>
          simp only [route, handle, hx, Entitled, hp, he, if_true, if_false, decide_false,
            Bool.and_false, List.mem_append, List.mem_singleton, ih lp]
          constructor
          · rintro (h1 | h1)
            · exact Or.inr ⟨trivial, h1⟩
            · exact Or.inl ⟨trivial, trivial, h1.symm⟩
          · rintro (⟨_, _, h1⟩ | ⟨_, h1⟩)
            · exact Or.inr h1.symm
            · exact Or.inl h1
        | false =>
          simp [route, handle, hx, Entitled, he, ih]

theorem served_serve : ∀ rs l h, Served l h → Served (serve l h rs).1 (serve l h rs).2
  | [], _, _, hs => hs
  | r :: rs, _, _, hs => served_serve rs _ _ (Served.step r hs)

end Verif.ChiExcl
