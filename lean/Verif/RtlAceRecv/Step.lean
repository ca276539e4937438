import Verif.RtlAceRecv.Lemmas

/-! The invariant is kept. -/

namespace Verif.RtlAceRecv

open RtlFifo (Queue)

section
variable {α : Type}

/-- What is written to a descriptor in this cycle. -/
def fresh (s : Regs α) : List (Nat × α) := if s.st = .new then s.usr.last.toList.map fun x => (s.idx, x) else []

/-- What is under way after the cycle. -/
def after (s : Regs α) (u : List (Nat × α)) (i : In α) : List (Nat × α) := (if oPop s i then u.drop 1 else u) ++ fresh s

theorem usr_items {c : Cfg} {s : Regs α} (i : In α) (h : s.usr.items.length + s.push.toList.length ≤ 8) :
    (step c s i).usr.items = (if s.rden then s.usr.items.drop 1 else s.usr.items) ++ s.push.toList := by
  change (usrNext s).items = _
  unfold usrNext
  cases hp : s.push with
  | none => simp
  | some x =>
    rw [hp] at h
    simp only [Option.toList_some, List.length_singleton] at h
    have : decide (s.usr.items.length < 8) = true := by simp; omega
    simp [Queue.next, this]

theorem usr_last {c : Cfg} {s : Regs α} (i : In α) :
    (step c s i).usr.last = if s.rden && !s.usr.items.isEmpty then s.usr.items.head? else s.usr.last := by
  change (usrNext s).last = _
  unfold usrNext
  cases s.push <;> rfl

theorem rden_txn {s : Regs α} (h : ok s = true) : s.rden = decide (s.st = .txn) := by
  unfold ok at h
  cases hst : s.st <;> rw [hst] at h <;> simp at h <;> simp [h]

theorem st_new {c : Cfg} {s : Regs α} {i : In α} : (step c s i).st = .new ↔ s.st = .txn := by
  change stNext s = .new ↔ _
  unfold stNext
  cases s.st <;> simp <;> split <;> simp

/-- What is taken from the FIFO is not lost. -/
theorem cur_next {c : Cfg} {w : World α} {u : List (Nat × α)} (v : Inv c w u) (i : In α) :
    (cur (step c w.s i)).toList ++ (step c w.s i).usr.items = w.s.usr.items ++ w.s.push.toList := by
  rw [usr_items i v.room, rden_txn v.ok]
  unfold cur
  rw [usr_last, rden_txn v.ok]
  by_cases hs : w.s.st = .txn
  · rw [if_pos (st_new.mpr hs)]
    cases hi : w.s.usr.items with
    | nil => exact absurd hi (v.wt (.inr hs))
    | cons a t => simp [hs]
  · rw [if_neg (fun e => hs (st_new.mp e))]
    simp [hs]

theorem fresh_cur (s : Regs α) : (fresh s).map (·.2) = (cur s).toList := by
  unfold fresh cur
  split
  · cases s.usr.last <;> rfl
  · rfl

theorem fresh_idx {s : Regs α} (h : s.st = .new → s.usr.last.isSome = true) :
    (fresh s).map (·.1) = if s.st = .new then [s.idx] else [] := by
  unfold fresh
  split
  · rename_i hn
    have := h hn
    cases hl : s.usr.last with
    | none => rw [hl] at this; cases this
    | some x => rfl
  · rfl

theorem desc_keep {c : Cfg} {w : World α} {u : List (Nat × α)} (v : Inv c w u) (i : In α) {j : Nat} (hj : w.s.st = .new → j ≠ w.s.idx) :
    (step c w.s i).desc j = w.s.desc j := by
  change descNext w.s j = _
  unfold descNext
  cases hst : w.s.st <;> simp
  intro e
  exact absurd e (hj hst)

/-- A descriptor under way is not written. -/
theorem track_idx {c : Cfg} {w : World α} {u : List (Nat × α)} (v : Inv c w u) {j : Nat} (hm : j ∈ track w.s) (hn : w.s.st = .new) :
    j ≠ w.s.idx := by
  intro e
  have h1 := v.one j (v.tlt j hm)
  have h2 := List.count_pos_iff.mpr hm
  have h3 := held_new v.ok hn
  unfold stock at h1
  rw [h3, ← e, if_pos rfl] at h1
  omega

theorem fld_next {c : Cfg} {w : World α} {u : List (Nat × α)} (v : Inv c w u) (i : In α) {p : Nat × α} (hp : p ∈ u) :
    (step c w.s i).desc p.1 = some p.2 := by
  rw [desc_keep v i (fun hn => track_idx v (by rw [v.tr]; exact List.mem_map_of_mem hp) hn)]
  exact v.fld p hp

/-- What software sees in a cycle. -/
theorem sees {c : Cfg} {w : World α} {u : List (Nat × α)} (v : Inv c w u) (i : In α) :
    (shown (step c w.s i)).toList.map (fun d => (d, (step c w.s i).desc d)) =
      (if oPop w.s i then u.take 1 else []).map fun p => (p.1, some p.2) := by
  rw [shown_next, v.tr]
  cases oPop w.s i
  · rfl
  · cases u with
    | nil => rfl
    | cons p t => simp [fld_next v i (List.mem_cons_self)]

theorem given_next {c : Cfg} {w : World α} {u : List (Nat × α)} (v : Inv c w u) (i : In α) (j : Nat) (hj : j < 16) :
    (w.next c i).givenOf j = w.givenOf j + if freeupNext w.s i j = true then 1 else 0 := by
  unfold World.givenOf
  change (w.given ++ gives w i).count j = _
  rw [List.count_append, gives_count w i j hj v.own]

theorem seen_next {c : Cfg} (w : World α) (i : In α) (j : Nat) :
    (w.next c i).seenOf j = w.seenOf j + if shown (step c w.s i) = some j then 1 else 0 := by
  unfold World.seenOf
  change (w.seen ++ (shown (step c w.s i)).toList.map fun d => (d, (step c w.s i).desc d)).countP _ = _
  rw [List.countP_append]
  cases shown (step c w.s i) with
  | none => simp
  | some a => by_cases e : a = j <;> simp [e]

theorem inv_start (c : Cfg) : Inv c (World.start : World α) [] where
  ok := rfl
  early := fun _ => rfl
  av := by intro h; cases h
  wt := by rintro (h | h) <;> cases h
  nw := by intro h; cases h
  dr := by intro h; cases h
  tr := rfl
  fld := by intro p h; cases h
  acc := rfl
  bal := by intro j _; rfl
  one := by intro j _; exact Nat.zero_le 1
  glt := by intro h; cases h
  qlt := by intro j h; cases h
  hlt := by intro j h; cases h
  tlt := by intro j h; cases h
  slt := by intro p h; cases h
  vlt := by intro p h; cases h
  up := by intro j h; cases h
  din := by intro j h; cases h
  own := rfl
  room := by simp [World.start, reset]
  rdy := by intro h; cases h
  last := by intro j _ x _ h; cases h
  acks := by cases c.late <;> rfl

theorem inv_next {c : Cfg} {w : World α} {u : List (Nat × α)} (v : Inv c w u) {i : In α} (hp : Polite w i) :
    Inv c (w.next c i) (after w.s u i) := by
  have hst : ∀ j < 16, stock (step c w.s i) j + (if shown (step c w.s i) = some j then 1 else 0) =
      stock w.s j + (if freeupNext w.s i j = true then 1 else 0) := fun j hj => stock_next v i j hj
  have htr : track (step c w.s i) = (after w.s u i).map (·.1) := by
    rw [track_next i v.early v.av (oroom v), after, List.map_append, fresh_idx v.nw, v.tr]
    cases oPop w.s i <;> simp
  have hmem : ∀ p ∈ after w.s u i, p ∈ u ∨ p ∈ fresh w.s := by
    intro p hm
    rcases List.mem_append.mp hm with h | h
    · left
      split at h
      · exact List.mem_of_mem_drop h
      · exact h
    · exact .inr h
  have hfr : ∀ p ∈ fresh w.s, w.s.st = .new ∧ w.s.usr.last = some p.2 ∧ p.1 = w.s.idx := by
    intro p hm
    unfold fresh at hm
    split at hm
    · rename_i hn
      refine ⟨hn, ?_⟩
      cases hl : w.s.usr.last with
      | none => rw [hl] at hm; cases hm
      | some x =>
        rw [hl] at hm
        simp only [Option.toList_some, List.map_cons, List.map_nil, List.mem_singleton] at hm
        rw [hm]
        exact ⟨rfl, rfl⟩
    · cases hm
  refine { ok := ok_next v.ok, early := ?_, av := ?_, wt := ?_, nw := ?_, dr := ?_, tr := htr, fld := ?_, acc := ?_, bal := ?_, one := ?_,
           glt := ?_, qlt := ?_, hlt := ?_, tlt := ?_, slt := ?_, vlt := ?_, up := ?_, din := ?_, own := rfl, room := ?_, rdy := ?_, last := ?_, acks := ?_ }
  · intro h
    change (if c.late then w.s.avail else none) = none
    rw [h]; rfl
  · intro h
    change (availNext w.s).isSome = true at h
    change stNext w.s = .idle
    rw [avail_next v.av] at h
    split at h
    · rename_i hn
      unfold stNext; rw [hn]
    · cases h
  · intro h
    change stNext w.s = .wait ∨ stNext w.s = .txn at h
    have hne : w.s.usr.items ≠ [] ∧ w.s.st ≠ .txn := by
      unfold stNext at h
      cases hs : w.s.st
      · rw [hs] at h
        simp only at h
        refine ⟨?_, by simp⟩
        intro e
        rw [e] at h
        simp at h
      · exact ⟨v.wt (.inl hs), by simp⟩
      · rw [hs] at h; simp at h
      · rw [hs] at h; simp at h
    change (step c w.s i).usr.items ≠ []
    rw [usr_items i v.room, rden_txn v.ok]
    intro e
    simp [hne.2] at e
    exact hne.1 e.1
  · intro h
    have h := st_new.mp h
    change (step c w.s i).usr.last.isSome = true
    rw [usr_last, rden_txn v.ok]
    cases hi : w.s.usr.items with
    | nil => exact absurd hi (v.wt (.inr h))
    | cons a t => simp [h]
  · intro h
    change (!w.s.drden && !w.s.q.items.isEmpty && w.s.dreq) = true at h
    simp only [Bool.and_eq_true, Bool.not_eq_true', List.isEmpty_eq_false_iff] at h
    change (if w.s.drden = true then w.s.q.items.drop 1 else w.s.q.items) ++ _ ≠ []
    rw [h.1.1]
    intro e
    exact h.1.2 (List.append_eq_nil_iff.mp e).1
  · intro p hm
    rcases hmem p hm with h | h
    · exact fld_next v i h
    · obtain ⟨h1, h2, h3⟩ := hfr p h
      change descNext w.s p.1 = _
      unfold descNext
      rw [h1]
      simp [h3, h2]
  · change (w.accepted ++ (if w.s.ready then i.req else none).toList).map some =
      (w.seen ++ (shown (step c w.s i)).toList.map fun d => (d, (step c w.s i).desc d)).map (·.2) ++
      ((after w.s u i).map (·.2) ++ (cur (step c w.s i)).toList ++ (step c w.s i).usr.items ++
        (if w.s.ready then i.req else none).toList).map some
    have e1 := cur_next v i
    have e2 : (after w.s u i).map (·.2) = (if oPop w.s i then u.drop 1 else u).map (·.2) ++ (cur w.s).toList := by
      rw [after, List.map_append, fresh_cur]
    rw [sees v i, List.map_append, v.acc, e2]
    rw [List.append_assoc _ _ (step c w.s i).usr.items, e1]
    cases hpo : oPop w.s i
    · simp
    · cases u with
      | nil => simp
      | cons p t => simp
  · intro j hj
    rw [given_next v i j hj, seen_next]
    have := v.bal j hj
    have := hst j hj
    change _ = _ + stock (step c w.s i) j
    omega
  · intro j hj
    have h1 := hst j hj
    have h2 := v.one j hj
    have h3 := v.bal j hj
    change stock (step c w.s i) j ≤ 1
    by_cases hf : freeupNext w.s i j = true
    · have := hp j (mem_gives hj v.own hf)
      rw [if_pos hf] at h1
      omega
    · rw [if_neg hf] at h1
      omega
  · intro h
    change (lowest w.s.greq).getD 0 < 16
    cases hl : lowest w.s.greq with
    | none => decide
    | some a => exact (lowest_req hl).2
  · intro j hm
    rcases RtlDesc.mem_next hm with h | ⟨h, e⟩
    · exact v.qlt j h
    · rw [e]; exact v.glt h
  · intro j hh
    change held (step c w.s i) = some j at hh
    rw [held_next v.ok] at hh
    split at hh
    · rename_i hd
      obtain ⟨a, t, hq, hl⟩ := popped (c := c) (i := i) hd (v.dr hd)
      rw [hl] at hh
      simp only [Option.getD_some, Option.some.injEq] at hh
      rw [← hh]
      exact v.qlt a (by rw [hq]; exact List.mem_cons_self)
    · split at hh
      · cases hh
      · exact v.hlt j hh
  · intro j hm
    change j ∈ track (step c w.s i) at hm
    rw [htr] at hm
    obtain ⟨p, hq, rfl⟩ := List.mem_map.mp hm
    rcases hmem p hq with h | h
    · exact v.tlt _ (by rw [v.tr]; exact List.mem_map_of_mem h)
    · obtain ⟨h1, _, h3⟩ := hfr p h
      rw [h3]
      exact v.hlt _ (held_new v.ok h1)
  · intro p hm
    rcases List.mem_append.mp hm with h | h
    · exact v.slt p h
    · rw [sees v i] at h
      obtain ⟨r, hr, rfl⟩ := List.mem_map.mp h
      have : r ∈ u := by
        split at hr
        · exact List.mem_of_mem_take hr
        · cases hr
      exact v.tlt _ (by rw [v.tr]; exact List.mem_map_of_mem this)
  · intro j hm
    rcases List.mem_append.mp hm with h | h
    · exact v.vlt j h
    · exact List.mem_range.mp (List.mem_filter.mp h).1
  · intro j h
    change (i.own j && !w.s.ownFf j) = true at h
    change i.own j = true
    simp at h
    exact h.1
  · intro j h
    change w.s.freeup j = true at h
    change (i.own j && !w.s.ownFf j) = false
    rw [v.up j h]; simp
  · change (step c w.s i).usr.items.length + (if w.s.ready then i.req else none).toList.length ≤ 8
    rw [usr_items i v.room, List.length_append]
    have h1 : (if w.s.rden then w.s.usr.items.drop 1 else w.s.usr.items).length ≤ w.s.usr.items.length := by
      split
      · rw [List.length_drop]; omega
      · exact Nat.le_refl _
    have h2 := v.room
    cases hr : w.s.ready
    · simp only [Bool.false_eq_true, if_false, Option.toList_none, List.length_nil]; omega
    · have h3 := v.rdy hr
      have h4 : i.req.toList.length ≤ 1 := by cases i.req <;> simp
      simp only [if_true]
      omega
  · intro h
    change (!decide (6 ≤ w.s.usr.items.length)) = true at h
    simp only [Bool.not_eq_true', decide_eq_false_iff_not] at h
    change (step c w.s i).usr.items.length + (if w.s.ready then i.req else none).toList.length ≤ 7
    rw [usr_items i v.room, List.length_append]
    have h1 : (if w.s.rden then w.s.usr.items.drop 1 else w.s.usr.items).length ≤ w.s.usr.items.length := by
      split
      · rw [List.length_drop]; omega
      · exact Nat.le_refl _
    have h2 : w.s.push.toList.length ≤ 1 := by cases w.s.push <;> simp
    have h4 : (if w.s.ready then i.req else none).toList.length ≤ 1 := by cases (if w.s.ready then i.req else none) <;> simp
    omega
  · intro j hj x h0 hx
    change stock (step c w.s i) j = 0 at h0
    change (step c w.s i).desc j = x
    have hs := hst j hj
    have hni : w.s.st = .new → j ≠ w.s.idx := by
      intro hn e
      have : j ∈ track (step c w.s i) := by
        rw [track_next i v.early v.av (oroom v), e, if_pos hn]
        simp
      have := List.count_pos_iff.mpr this
      unfold stock at h0
      omega
    unfold World.lastOf at hx
    change (((w.seen ++ (shown (step c w.s i)).toList.map fun d => (d, (step c w.s i).desc d)).filter fun p => p.1 = j).getLast?).map (·.2) = _ at hx
    by_cases hsh : shown (step c w.s i) = some j
    · rw [hsh] at hx
      simpa using hx
    · rw [if_neg hsh, h0] at hs
      have e : ((shown (step c w.s i)).toList.map fun d => (d, (step c w.s i).desc d)).filter (fun p => p.1 = j) = [] := by
        cases hd : shown (step c w.s i) with
        | none => rfl
        | some a =>
          rw [hd] at hsh
          have : a ≠ j := fun e => hsh (by rw [e])
          simp [this]
      rw [List.filter_append, e, List.append_nil] at hx
      rw [desc_keep v i hni]
      exact v.last j hj x (by omega) hx
  · change w.acks + (if (c.late && w.s.avail.isSome) = true then 1 else 0) + (availNext w.s).toList.length =
      if c.late then (w.seen ++ (shown (step c w.s i)).toList.map fun d => (d, (step c w.s i).desc d)).length + (after w.s u i).length
      else (availNext w.s).toList.length
    have h := v.acks
    have e1 : (w.seen ++ (shown (step c w.s i)).toList.map fun d => (d, (step c w.s i).desc d)).length + (after w.s u i).length =
        w.seen.length + u.length + (fresh w.s).length := by
      rw [sees v i, after]
      cases hpo : oPop w.s i
      · simp; omega
      · cases hu : u with
        | nil => simp
        | cons p t => simp; omega
    have e2 : (availNext w.s).toList.length = (fresh w.s).length := by
      rw [avail_next v.av, ← List.length_map (f := Prod.fst), fresh_idx v.nw]
      split <;> rfl
    have e3 : (if w.s.avail.isSome = true then 1 else 0) = w.s.avail.toList.length := by cases w.s.avail <;> rfl
    rw [e1, e2]
    cases hc : c.late
    · rw [hc] at h; simp at h ⊢; omega
    · rw [hc] at h
      simp only [Bool.true_and, if_true] at h ⊢
      omega

theorem inv_run {c : Cfg} {w : World α} {u : List (Nat × α)} (v : Inv c w u) (l : List (In α)) (hp : AllPolite c w l) :
    ∃ u', Inv c (w.run c l) u' := by
  induction l generalizing w u with
  | nil => exact ⟨u, v⟩
  | cons i t ih => exact ih (inv_next v hp.1) hp.2

end

end Verif.RtlAceRecv
