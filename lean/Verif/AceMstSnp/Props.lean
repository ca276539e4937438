import Verif.AceMstSnp.Lemmas

/-!
# Every snoop gets its own answer

Property **C90**.
-/

namespace Verif.AceMstSnp

/-- **C90** The TLM side is asked for the snoops in the order in which the
hardware gave them, each once; the responses sent are those it gave, in this
order, with their attributes; and the lines sent are the bytes of the answers
which have data, in the same order. -/
theorem snoops_in_order_partial (m : Nat) (l : List Ev) (hp : AllPolite m World.start l) :
    let w := World.start.run m l
    w.answers.map (·.1) <+: w.asked ∧
      w.sentCr.map Bits.of <+: w.answers.map (fun p => p.2.bits) ∧
      w.sentCd.map bytesOf <+: (w.answers.filter fun p => p.2.data).map (fun p => p.2.bytes) := by
  have v := inv_run (inv_start m) l hp
  dsimp only
  generalize World.start.run m l = w at v ⊢
  refine ⟨?_, ?_, ?_⟩
  · rw [v.asked, List.append_assoc]
    exact List.prefix_append _ _
  · have h : w.answers.map (fun p => p.2.bits) = (w.answers.map fun p => crResp p.2).map Bits.of := by
      rw [List.map_map]
      exact List.map_congr_left fun p _ => (resp_bits p.2).symm
    rw [h, v.cr, List.append_assoc, List.map_append]
    exact List.prefix_append _ _
  · have h : (w.answers.filter fun p => p.2.data).map (fun p => p.2.bytes) =
        ((w.answers.filter fun p => p.2.data).map fun p => words p.2.bytes).map bytesOf := by
      rw [List.map_map]
      refine List.map_congr_left fun p hm => ?_
      have := v.whole p (List.mem_filter.mp hm).1
      exact (words_bytes _ m this.1 this.2).symm
    rw [h, v.cd, List.append_assoc, List.map_append]
    exact List.prefix_append _ _

/-- **C90** The first element of an empty list is never taken. -/
theorem list_not_empty_partial (m : Nat) (l : List Ev) (hp : AllPolite m World.start l) : (World.start.run m l).s.bad = false :=
  (inv_run (inv_start m) l hp).bad

/-- The events still needed, at most. -/
def rank (m : Nat) (s : State) : Nat :=
  (m + 13) * s.list.length +
    (match s.cr with
    | .top => 1
    | .wait | .woken => 0
    | .run _ _ => m + 12
    | .resp _ => m + 11
    | .wrote _ => m + 10
    | .pushed _ => m + 8) +
    (m + 6) * s.cdFifo.length +
    (match s.cd with
    | .wait => 0
    | .busy _ k => m - k + 3) + s.hwCr.length + s.hwCd.length

theorem push_len (l : List Nat) (x : Nat) : (if l.length < 16 then l ++ [x] else l).length ≤ l.length + 1 := by
  split <;> simp

/-- **C90** Whatever happens brings the snoops nearer to their end: every event
other than a new snoop, a read or a reset, when it can happen, lowers a number
which cannot fall for ever. -/
theorem snoops_progress_partial (m : Nat) (l : List Ev) (hp : AllPolite m World.start l) (e : Ev) (he : e.inner = true)
    (hc : step m (World.start.run m l).s e ≠ (World.start.run m l).s) :
    rank m (step m (World.start.run m l).s e) < rank m (World.start.run m l).s := by
  have v := inv_run (inv_start m) l hp
  generalize World.start.run m l = w at v hc ⊢
  obtain ⟨⟨list, cdFifo, cr, cd, crIdx, cdIdx, num, resp, ram, hwCr, hwCd, bad⟩, asked, answers, sentCr, sentCd, completes⟩ := w
  have v3 := v.alive
  have v5 := v.woken
  have v6 := v.wCur
  have v8 := v.cdBusy
  simp only at v3 v5 v6 v8 hc ⊢
  clear v
  cases e with
  | snoop x => cases he
  | read c => cases he
  | reset => cases he
  | take =>
    cases cr with
    | top =>
      cases list with
      | nil => simp [step, rank]
      | cons x t => simp [step, rank, taken, Nat.mul_add]; omega
    | woken =>
      cases list with
      | nil => exact absurd rfl (v5 rfl)
      | cons x t => simp [step, rank, taken, Nat.mul_add]
    | _ => exact absurd rfl hc
  | answer a =>
    cases cr with
    | run x d =>
      have := v3 x d rfl
      subst this
      simp [step, rank]
    | _ => exact absurd rfl hc
  | setup =>
    cases cr with
    | resp a => simp [step, rank]
    | _ => exact absurd rfl hc
  | push =>
    cases cr with
    | wrote a =>
      have := push_len hwCr crIdx
      simp only [step, rank]
      omega
    | _ => exact absurd rfl hc
  | finish =>
    cases cr with
    | pushed a =>
      simp only [step] at hc ⊢
      by_cases hd : a.data = true
      · simp only [hd, if_true] at hc ⊢
        by_cases hl : cdFifo.length < 16
        · simp only [if_pos hl, rank, List.length_append, List.length_singleton, Nat.mul_add]
          omega
        · rw [if_neg hl] at hc; exact absurd rfl hc
      · simp only [hd, Bool.false_eq_true, if_false, rank]
        omega
    | _ => exact absurd rfl hc
  | cdTake =>
    cases cd with
    | wait =>
      cases cdFifo with
      | nil => exact absurd rfl hc
      | cons a t => simp only [step, rank, List.length_cons, Nat.mul_add]; omega
    | busy a k => exact absurd rfl hc
  | cdWord =>
    cases cd with
    | wait => exact absurd rfl hc
    | busy a k =>
      have hw := words_len _ _ (v6 a (by simp [cdCur])).1
      simp only [step] at hc ⊢
      by_cases hk : k < (words a.bytes).length
      · simp only [if_pos hk, rank]
        omega
      · rw [if_neg hk] at hc; exact absurd rfl hc
  | cdPush =>
    cases cd with
    | wait => exact absurd rfl hc
    | busy a k =>
      simp only [step] at hc ⊢
      by_cases hk : k < (words a.bytes).length
      · rw [if_pos hk] at hc; exact absurd rfl hc
      · have := push_len hwCd cdIdx
        simp only [if_neg hk, rank]
        omega
  | hwCr =>
    cases hwCr with
    | nil => exact absurd rfl hc
    | cons a t => simp [step, rank]
  | hwCd =>
    cases hwCd with
    | nil => exact absurd rfl hc
    | cons a t => simp [step, rank]

/-- **C90** And when none of them can happen any more, every snoop was answered,
every response and every line sent. -/
theorem snoops_complete_partial (m : Nat) (l : List Ev) (hp : AllPolite m World.start l)
    (hq : ∀ e, e.inner = true → step m (World.start.run m l).s e = (World.start.run m l).s) :
    let w := World.start.run m l
    w.answers.map (·.1) = w.asked ∧
      w.sentCr.map Bits.of = w.answers.map (fun p => p.2.bits) ∧
      w.sentCd.map bytesOf = (w.answers.filter fun p => p.2.data).map (fun p => p.2.bytes) := by
  have v := inv_run (inv_start m) l hp
  dsimp only
  generalize World.start.run m l = w at v hq ⊢
  have hcr : w.s.cr = .wait := by
    cases hc : w.s.cr with
    | wait => rfl
    | top =>
      have := congrArg State.cr (hq .take rfl)
      simp only [step, hc] at this
      split at this
      · cases this
      · cases hl : w.s.list with
        | nil => rename_i h; rw [hl] at h; exact absurd rfl h
        | cons x t => simp [taken, hl] at this
    | woken =>
      have := congrArg State.cr (hq .take rfl)
      simp only [step, hc] at this
      cases hl : w.s.list with
      | nil => exact absurd hl (v.woken hc)
      | cons x t => simp [taken, hl] at this
    | run x d =>
      have := congrArg State.cr (hq (.answer ⟨false, false, false, false, false, false, []⟩) rfl)
      simp only [step, hc] at this
      split at this <;> cases this
    | resp a =>
      have := congrArg State.cr (hq .setup rfl)
      simp [step, hc] at this
    | wrote a =>
      have := congrArg State.cr (hq .push rfl)
      simp [step, hc] at this
    | pushed a =>
      have h1 := congrArg State.cr (hq .finish rfl)
      simp only [step, hc] at h1
      by_cases hd : a.data = true
      · simp only [hd, if_true] at h1
        by_cases hl : w.s.cdFifo.length < 16
        · rw [if_pos hl] at h1; cases h1
        · exfalso
          have hn : w.s.cdFifo ≠ [] := by intro e; rw [e] at hl; simp at hl
          cases hd : w.s.cd with
          | wait =>
            have := congrArg State.cd (hq .cdTake rfl)
            cases hf : w.s.cdFifo with
            | nil => exact hn hf
            | cons b t => simp [step, hd, hf] at this
          | busy b k =>
            by_cases hk : k < (words b.bytes).length
            · have := congrArg State.cd (hq .cdWord rfl)
              simp [step, hd, hk] at this
            · have := congrArg State.cd (hq .cdPush rfl)
              simp [step, hd, hk] at this
      · simp [hd] at h1
  have hcd : w.s.cd = .wait := by
    cases hd : w.s.cd with
    | wait => rfl
    | busy b k =>
      by_cases hk : k < (words b.bytes).length
      · have := congrArg State.cd (hq .cdWord rfl)
        simp [step, hd, hk] at this
      · have := congrArg State.cd (hq .cdPush rfl)
        simp [step, hd, hk] at this
  have hf : w.s.cdFifo = [] := by
    cases hf : w.s.cdFifo with
    | nil => rfl
    | cons b t =>
      have := congrArg State.cd (hq .cdTake rfl)
      simp [step, hcd, hf] at this
  have h1 : w.s.hwCr = [] := by
    have := congrArg State.hwCr (hq .hwCr rfl)
    cases h : w.s.hwCr with
    | nil => rfl
    | cons a t =>
      have := congrArg List.length this
      simp [step, h] at this
  have h2 : w.s.hwCd = [] := by
    have := congrArg State.hwCd (hq .hwCd rfl)
    cases h : w.s.hwCd with
    | nil => rfl
    | cons a t =>
      have := congrArg List.length this
      simp [step, h] at this
  have e1 := v.asked
  have e2 := v.cr
  have e3 := v.cd
  rw [hcr, v.wait hcr] at e1
  rw [hcr, h1] at e2
  rw [hcr, h2, hcd, hf] at e3
  simp only [crAsk, crPend, cdPend, cdCur, List.map_nil, List.append_nil] at e1 e2 e3
  refine ⟨e1.symm, ?_, ?_⟩
  · rw [← e2, List.map_map]
    exact List.map_congr_left fun p _ => resp_bits p.2
  · rw [← e3, List.map_map]
    refine List.map_congr_left fun p hm => ?_
    have := v.whole p (List.mem_filter.mp hm).1
    exact words_bytes _ m this.1 this.2

/-- The counter of DVM Sync responses while nothing but DVM Completes is read:
those whose last step is done, less the Completes sent. -/
theorem count_run {m : Nat} (l : List Ev) : ∀ {w : World}, (∀ e ∈ l, e ≠ .read false ∧ e ≠ .reset) →
    w.s.num + w.completes + (match w.s.cr with | .resp a | .wrote a | .pushed a => if a.sync then 1 else 0 | _ => 0) ≤ w.syncs →
    w.s.num < 2 ^ 32 →
    (w.run m l).s.num + (w.run m l).completes ≤ (w.run m l).syncs := by
  induction l with
  | nil => intro w _ h _; exact Nat.le_trans (Nat.le_add_right _ _) h
  | cons e t ih =>
    intro w hl h hb
    refine ih (fun e hm => hl e (List.mem_cons_of_mem _ hm)) ?_ ?_
    · have he := hl e List.mem_cons_self
      obtain ⟨⟨list, cdFifo, cr, cd, crIdx, cdIdx, num, resp, ram, hwCr, hwCd, bad⟩, asked, answers, sentCr, sentCd, completes⟩ := w
      simp only [World.syncs] at h hb ⊢
      cases e with
      | reset => exact absurd rfl he.2
      | read c =>
        cases c with
        | false => exact absurd rfl he.1
        | true =>
          by_cases hn : num = 0
          · subst hn; simpa [World.next, step, answered, rdOut] using h
          · have e1 : (num + (2 ^ 32 - 1)) % 2 ^ 32 = num - 1 := by omega
            simp only [World.next, step, answered, rdOut, List.append_nil, Bool.true_and, beq_iff_eq, if_neg hn, e1]
            simp
            omega
      | snoop x =>
        cases cr <;> simp [World.next, step, answered, rdOut] <;> simpa using h
      | take =>
        cases cr <;> cases list <;> simp [World.next, step, answered, rdOut, taken] <;> simpa using h
      | answer a =>
        cases cr with
        | run x d =>
          cases d
          · simp [World.next, step, answered, rdOut, List.countP_append] at h ⊢
            cases a.sync <;> first | omega | (simp; omega)
          · simp [World.next, step, answered, rdOut] at h ⊢; exact h
        | _ => simp [World.next, step, answered, rdOut] <;> simpa using h
      | setup => cases cr <;> simp [World.next, step, answered, rdOut] <;> simpa using h
      | push => cases cr <;> simp [World.next, step, answered, rdOut] <;> simpa using h
      | finish =>
        cases cr with
        | pushed a =>
          simp only [World.next, step, answered, rdOut, List.append_nil, List.countP_nil, Nat.add_zero]
          simp only at h
          by_cases hd : a.data = true
          · simp only [hd, if_true]
            by_cases hf : cdFifo.length < 16
            · simp only [if_pos hf]; omega
            · simp only [if_neg hf]; exact h
          · simp only [hd, Bool.false_eq_true, if_false]
            cases hs : a.sync
            · simp only [hs, Bool.false_eq_true, if_false] at h ⊢; exact h
            · simp only [hs, if_true] at h ⊢
              have := Nat.mod_le (num + 1) (2 ^ 32)
              omega
        | _ => simp [World.next, step, answered, rdOut] <;> simpa using h
      | cdTake => cases cd <;> cases cdFifo <;> simpa [World.next, step, answered, rdOut] using h
      | cdWord =>
        cases cd
        · simpa [World.next, step, answered, rdOut] using h
        · simp only [World.next, step, answered, rdOut, List.append_nil, List.countP_nil, Nat.add_zero]
          split <;> exact h
      | cdPush =>
        cases cd
        · simpa [World.next, step, answered, rdOut] using h
        · simp only [World.next, step, answered, rdOut, List.append_nil, List.countP_nil, Nat.add_zero]
          split <;> exact h
      | hwCr => simpa [World.next, step, answered, rdOut] using h
      | hwCd => simpa [World.next, step, answered, rdOut] using h
    · have he := hl e List.mem_cons_self
      obtain ⟨⟨list, cdFifo, cr, cd, crIdx, cdIdx, num, resp, ram, hwCr, hwCd, bad⟩, asked, answers, sentCr, sentCd, completes⟩ := w
      simp only at hb
      cases e with
      | reset => exact absurd rfl he.2
      | read c =>
        simp only [World.next, step]
        split
        · exact hb
        · exact Nat.mod_lt _ (by decide)
      | finish =>
        cases cr with
        | pushed a =>
          simp only [World.next, step]
          split
          · split <;> exact hb
          · simp only
            split
            · exact Nat.mod_lt _ (by decide)
            · exact hb
        | _ => exact hb
      | take => cases cr <;> cases list <;> exact hb
      | cdTake => cases cd <;> cases cdFifo <;> exact hb
      | cdWord =>
        cases cd
        · exact hb
        · simp only [World.next, step]; split <;> exact hb
      | cdPush =>
        cases cd
        · exact hb
        · simp only [World.next, step]; split <;> exact hb
      | answer a => cases cr <;> exact hb
      | setup => cases cr <;> exact hb
      | push => cases cr <;> exact hb
      | _ => exact hb

/-- **C90** While the master reads nothing else, no more DVM Completes are sent
than DVM Syncs were answered. -/
theorem dvm_after_sync_partial (m : Nat) (l : List Ev) (hl : ∀ e ∈ l, e ≠ .read false ∧ e ≠ .reset) :
    (World.start.run m l).completes ≤ (World.start.run m l).syncs := by
  have := count_run (m := m) l (w := World.start) hl (by simp [World.start, start, World.syncs]) (by simp [World.start, start])
  omega

/-- **C90** But one ordinary read is enough to let a DVM Complete go before any
DVM Sync was answered: every read counts down, and the counter passes below
zero. -/
theorem dvm_before_sync (m : Nat) :
    ∃ l, AllPolite m World.start l ∧ (World.start.run m l).completes = 1 ∧ (World.start.run m l).syncs = 0 :=
  ⟨[.read false, .read true], ⟨trivial, trivial, trivial⟩, rfl, rfl⟩

end Verif.AceMstSnp
