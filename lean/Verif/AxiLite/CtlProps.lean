import Verif.AxiLite.Ctl

/-! # C46: handshakes, order and reset of the AXI4-Lite bridges -/

namespace Verif.AxiLite.Ctl

variable {ρ β α δ : Type}

/-! ## AXI4-Lite to TLM -/

/-- The request being executed, unless it was aborted. -/
def live : Option (ρ × Bool) → List ρ
  | some (r, false) => [r]
  | _ => []

/-- Nothing is lost, duplicated or reordered between the two ends. -/
structure Pipe.Ok (s : Pipe ρ β) : Prop where
  acc : s.res.map (·.1) ++ live s.cur ++ s.todo = s.acc
  res : s.ans ++ s.drv.toList ++ s.done = s.res

theorem Pipe.Ok.push {s : Pipe ρ β} (h : s.Ok) (r : ρ) : (s.push r).Ok :=
  ⟨by show s.res.map (·.1) ++ live s.cur ++ (s.todo ++ [r]) = s.acc ++ [r]
      rw [← h.acc]; simp, h.res⟩

theorem Pipe.Ok.take {s : Pipe ρ β} (h : s.Ok) : s.take.Ok := by
  unfold Pipe.take
  split
  · rename_i hc ht
    refine ⟨?_, h.res⟩
    have := h.acc
    rw [hc, ht] at this
    simpa [live] using this
  · exact h

theorem Pipe.Ok.ret {s : Pipe ρ β} (h : s.Ok) (b : β) : (s.ret b).Ok := by
  unfold Pipe.ret
  split
  · rename_i r hc
    have h1 := h.acc
    have h2 := h.res
    rw [hc] at h1
    refine ⟨?_, ?_⟩
    · simpa [live] using h1
    · show s.ans ++ s.drv.toList ++ (s.done ++ [(r, b)]) = s.res ++ [(r, b)]
      rw [← h2]; simp
  · rename_i r hc
    have h1 := h.acc
    rw [hc] at h1
    exact ⟨by simpa [live] using h1, h.res⟩
  · exact h

theorem Pipe.Ok.drive {s : Pipe ρ β} (h : s.Ok) : s.drive.Ok := by
  unfold Pipe.drive
  split
  · rename_i hd hl
    have := h.res
    rw [hd, hl] at this
    exact ⟨h.acc, by simpa using this⟩
  · exact h

theorem Pipe.Ok.edge {s : Pipe ρ β} (h : s.Ok) (r : Bool) : (s.edge r).Ok := by
  unfold Pipe.edge
  split
  · rename_i hd
    have := h.res
    rw [hd] at this
    exact ⟨h.acc, by simpa using this⟩
  · exact h

theorem Pipe.Ok.reset (s : Pipe ρ β) : s.reset.Ok := by
  refine ⟨?_, rfl⟩
  show [] ++ live (s.cur.map fun x => (x.1, true)) ++ [] = []
  cases s.cur <;> rfl

theorem load_eq (s : Pipe ρ β) :
    s.load = s.todo.length + (live s.cur).length + s.done.length + s.drv.toList.length := by
  unfold Pipe.load
  rcases s.cur with _ | ⟨r, _ | _⟩ <;> rfl

theorem load_push (s : Pipe ρ β) (r : ρ) : (s.push r).load = s.load + 1 := by
  simp [Pipe.load, Pipe.push]; try omega

theorem load_take (s : Pipe ρ β) : s.take.load = s.load := by
  unfold Pipe.take
  split
  · rename_i hc ht; simp [Pipe.load, hc, ht]; try omega
  · rfl

theorem load_ret (s : Pipe ρ β) (b : β) : (s.ret b).load = s.load := by
  unfold Pipe.ret
  split
  · rename_i hc; simp [Pipe.load, hc]; try omega
  · rename_i hc; simp [Pipe.load, hc]
  · rfl

theorem load_drive (s : Pipe ρ β) : s.drive.load = s.load := by
  unfold Pipe.drive
  split
  · rename_i hc ht; simp [Pipe.load, hc, ht]; try omega
  · rfl

theorem load_edge (s : Pipe ρ β) (r : Bool) :
    (s.edge r).load + (if s.fires r then 1 else 0) = s.load := by
  unfold Pipe.edge Pipe.fires
  rcases hd : s.drv with _ | x
  · simp
  · cases r
    · simp
    · simp [Pipe.load, hd]

theorem load_reset (s : Pipe ρ β) : s.reset.load = 0 := by
  unfold Pipe.reset Pipe.load
  cases s.cur <;> rfl

structure Rd.Ok (s : Rd ρ β) : Prop where
  pipe : s.pipe.Ok
  num : s.num = s.pipe.load
  max : s.num ≤ maxTr
  ready : s.arready = true → s.num < maxTr

theorem Rd.Ok.step {s : Rd ρ β} (h : s.Ok) (a : RAct ρ β) : (s.step a).Ok := by
  obtain ⟨h1, h2, h3, h4⟩ := h
  cases a with
  | ar r =>
    cases r with
    | none => exact ⟨h1, h2, h3, fun e => of_decide_eq_true e⟩
    | some r =>
      simp only [Rd.step]
      by_cases c : s.arready = true
      · rw [if_pos c]
        have := h4 c
        exact ⟨h1.push r, by show s.num + 1 = _; rw [load_push, h2], by show s.num + 1 ≤ maxTr; omega,
          fun e => of_decide_eq_true e⟩
      · rw [if_neg c]; exact ⟨h1, h2, h3, fun e => of_decide_eq_true e⟩
  | take => exact ⟨h1.take, by show s.num = s.pipe.take.load; rw [load_take, h2], h3, h4⟩
  | ret b => exact ⟨h1.ret b, by show s.num = (s.pipe.ret b).load; rw [load_ret, h2], h3, h4⟩
  | drive => exact ⟨h1.drive, by show s.num = s.pipe.drive.load; rw [load_drive, h2], h3, h4⟩
  | edge r =>
    have hl := load_edge s.pipe r
    refine ⟨h1.edge r, ?_, ?_, ?_⟩
    · show (if s.pipe.fires r then s.num - 1 else s.num) = (s.pipe.edge r).load
      split at hl <;> rename_i c <;> simp only [c, if_true, if_false, Bool.false_eq_true] <;> omega
    · show (if s.pipe.fires r then s.num - 1 else s.num) ≤ maxTr
      split <;> omega
    · intro e
      have := h4 e
      show (if s.pipe.fires r then s.num - 1 else s.num) < maxTr
      split <;> omega
  | reset =>
    exact ⟨Pipe.Ok.reset _, (load_reset _).symm, Nat.zero_le _, fun _ => (by decide : 0 < maxTr)⟩

theorem Rd.Ok.run {s : Rd ρ β} (h : s.Ok) (as : List (RAct ρ β)) : (s.run as).Ok := by
  induction as generalizing s with
  | nil => exact h
  | cons a as ih => exact ih (h.step a)

theorem Rd.ok_init : ({} : Rd ρ β).Ok := ⟨⟨rfl, rfl⟩, rfl, Nat.zero_le _, fun _ => (by decide : 0 < maxTr)⟩

structure Wr.Ok (s : Wr α δ β) : Prop where
  pipe : s.pipe.Ok
  num : s.num = s.wd.length + s.hold.toList.length + s.pipe.load
  max : s.num ≤ maxTr
  ready : s.awready = true → s.num < maxTr
  aws : s.pipe.acc.map (·.1) ++ s.hold.toList ++ s.wd = s.aws
  ws : s.pipe.acc.map (·.2) = s.ws

theorem acc_take (s : Pipe ρ β) : s.take.acc = s.acc := by unfold Pipe.take; split <;> rfl
theorem acc_ret (s : Pipe ρ β) (b : β) : (s.ret b).acc = s.acc := by unfold Pipe.ret; split <;> rfl
theorem acc_drive (s : Pipe ρ β) : s.drive.acc = s.acc := by unfold Pipe.drive; split <;> rfl
theorem acc_edge (s : Pipe ρ β) (r : Bool) : (s.edge r).acc = s.acc := by unfold Pipe.edge; split <;> rfl

theorem Wr.Ok.step {s : Wr α δ β} (h : s.Ok) (a : WAct α δ β) : (s.step a).Ok := by
  obtain ⟨h1, h2, h3, h4, h5, h6⟩ := h
  cases a with
  | aw r =>
    cases r with
    | none => exact ⟨h1, h2, h3, fun e => of_decide_eq_true e, h5, h6⟩
    | some r =>
      simp only [Wr.step]
      by_cases c : s.awready = true
      · rw [if_pos c]
        have := h4 c
        exact ⟨h1, by simp only [List.length_append, List.length_cons, List.length_nil]; omega,
          by show s.num + 1 ≤ maxTr; omega, fun e => of_decide_eq_true e,
          by show s.pipe.acc.map (·.1) ++ s.hold.toList ++ (s.wd ++ [r]) = s.aws ++ [r]; rw [← h5]; simp, h6⟩
      · rw [if_neg c]; exact ⟨h1, h2, h3, fun e => of_decide_eq_true e, h5, h6⟩
  | wtake =>
    simp only [Wr.step]
    split
    · rename_i e1 e2
      rw [e1, e2] at h2 h5
      exact ⟨h1, by simp at h2 ⊢; omega, h3, h4, by simpa using h5, h6⟩
    · exact ⟨h1, h2, h3, h4, h5, h6⟩
  | w d =>
    simp only [Wr.step]
    split
    · rename_i a d e1
      rw [e1] at h2 h5
      refine ⟨h1.push _, ?_, h3, h4, ?_, ?_⟩
      · show s.num = s.wd.length + 0 + (s.pipe.push (a, d)).load
        rw [load_push]; simp at h2; omega
      · show (s.pipe.acc ++ [(a, d)]).map (·.1) ++ [] ++ s.wd = s.aws
        rw [← h5]; simp
      · show (s.pipe.acc ++ [(a, d)]).map (·.2) = s.ws ++ [d]
        rw [← h6]; simp
    · exact ⟨h1, h2, h3, h4, h5, h6⟩
  | take =>
    exact ⟨h1.take, by show s.num = _ + _ + s.pipe.take.load; rw [load_take]; exact h2, h3, h4,
      by show s.pipe.take.acc.map (·.1) ++ _ ++ _ = _; rw [acc_take]; exact h5,
      by show s.pipe.take.acc.map (·.2) = _; rw [acc_take]; exact h6⟩
  | ret b =>
    exact ⟨h1.ret b, by show s.num = _ + _ + (s.pipe.ret b).load; rw [load_ret]; exact h2, h3, h4,
      by show (s.pipe.ret b).acc.map (·.1) ++ _ ++ _ = _; rw [acc_ret]; exact h5,
      by show (s.pipe.ret b).acc.map (·.2) = _; rw [acc_ret]; exact h6⟩
  | drive =>
    exact ⟨h1.drive, by show s.num = _ + _ + s.pipe.drive.load; rw [load_drive]; exact h2, h3, h4,
      by show s.pipe.drive.acc.map (·.1) ++ _ ++ _ = _; rw [acc_drive]; exact h5,
      by show s.pipe.drive.acc.map (·.2) = _; rw [acc_drive]; exact h6⟩
  | edge r =>
    have hl := load_edge s.pipe r
    refine ⟨h1.edge r, ?_, ?_, ?_, ?_, ?_⟩
    · show (if s.pipe.fires r then s.num - 1 else s.num) = s.wd.length + s.hold.toList.length + (s.pipe.edge r).load
      split at hl <;> rename_i c <;> simp only [c, if_true, if_false, Bool.false_eq_true] <;> omega
    · show (if s.pipe.fires r then s.num - 1 else s.num) ≤ maxTr
      split <;> omega
    · intro e
      have := h4 e
      show (if s.pipe.fires r then s.num - 1 else s.num) < maxTr
      split <;> omega
    · show (s.pipe.edge r).acc.map (·.1) ++ _ ++ _ = _; rw [acc_edge]; exact h5
    · show (s.pipe.edge r).acc.map (·.2) = _; rw [acc_edge]; exact h6
  | reset =>
    exact ⟨Pipe.Ok.reset _, by show 0 = 0 + 0 + s.pipe.reset.load; rw [load_reset], Nat.zero_le _,
      fun _ => (by decide : 0 < maxTr), rfl, rfl⟩

theorem Wr.Ok.run {s : Wr α δ β} (h : s.Ok) (as : List (WAct α δ β)) : (s.run as).Ok := by
  induction as generalizing s with
  | nil => exact h
  | cons a as ih => exact ih (h.step a)

theorem Wr.ok_init : ({} : Wr α δ β).Ok := ⟨⟨rfl, rfl⟩, rfl, Nat.zero_le _, fun _ => (by decide : 0 < maxTr), rfl, rfl⟩

theorem zip_unzip_append (l : List (α × δ)) (t : List α) : (l.map (·.1) ++ t).zip (l.map (·.2)) = l := by
  induction l with
  | nil => simp
  | cons x l ih => simp [ih]

/-- **Reads are answered in order, once each, with what the target answered**: since the last reset
the responses handed over are a prefix of the results of the TLM calls, whose requests are a prefix of
the requests accepted.  At most 16 are under way, so no queue is ever full. -/
theorem reads_in_order (as : List (RAct ρ β)) :
    let s := ({} : Rd ρ β).run as
    s.pipe.ans <+: s.pipe.res ∧ s.pipe.res.map (·.1) <+: s.pipe.acc ∧
      s.pipe.acc.length = s.pipe.ans.length + s.num ∧ s.num ≤ 16 ∧
      s.pipe.todo.length ≤ 16 ∧ s.pipe.done.length ≤ 16 := by
  intro s
  have h : s.Ok := Rd.ok_init.run as
  clear_value s
  refine ⟨⟨_, by rw [← h.pipe.res, List.append_assoc]⟩, ⟨_, by rw [← h.pipe.acc, List.append_assoc]⟩, ?_, h.max, ?_, ?_⟩
  · have e1 := congrArg List.length h.pipe.acc
    have e2 := congrArg List.length h.pipe.res
    have e3 := h.num
    simp only [List.length_append, List.length_map] at e1 e2
    rw [load_eq] at e3
    omega
  · have := h.num; have := h.max; unfold Pipe.load at *; unfold maxTr at *; omega
  · have := h.num; have := h.max; unfold Pipe.load at *; unfold maxTr at *; omega

/-- **Writes likewise, the n-th data going with the n-th address.** -/
theorem writes_in_order (as : List (WAct α δ β)) :
    let s := ({} : Wr α δ β).run as
    s.pipe.ans <+: s.pipe.res ∧ s.pipe.res.map (·.1) <+: s.pipe.acc ∧
      s.pipe.acc = s.aws.zip s.ws ∧ s.ws.length ≤ s.aws.length ∧
      s.aws.length = s.pipe.ans.length + s.num ∧ s.num ≤ 16 := by
  intro s
  have h : s.Ok := Wr.ok_init.run as
  clear_value s
  have e1 := h.pipe.acc
  have e2 := h.pipe.res
  have e5 := h.aws
  have e6 := h.ws
  refine ⟨⟨_, by rw [← e2, List.append_assoc]⟩, ⟨_, by rw [← e1, List.append_assoc]⟩, ?_, ?_, ?_, h.max⟩
  · rw [← e5, ← e6]
    rw [List.append_assoc]
    exact (zip_unzip_append _ _).symm
  · rw [← e5, ← e6]; simp
  · have e3 := h.num
    have l1 := congrArg List.length e1
    have l2 := congrArg List.length e2
    have l5 := congrArg List.length e5
    simp only [List.length_append, List.length_map] at l1 l2 l5
    rw [load_eq] at e3
    omega

/-! ### Progress -/

/-- Steps still to take for what is under way. -/
def weight (s : Pipe ρ β) : Nat :=
  4 * s.todo.length + (match s.cur with | some (_, false) => 3 | some (_, true) => 1 | none => 0) +
    2 * s.done.length + s.drv.toList.length

/-- The bridge's own steps, the target's answers and the master's readiness; no new request. -/
def Inner : RAct ρ β → Prop
  | .take | .ret _ | .drive | .edge true => True
  | _ => False

theorem weight_zero {s : Pipe ρ β} (h : weight s = 0) : s.load = 0 := by
  unfold weight at h
  unfold Pipe.load
  rcases hc : s.cur with _ | ⟨r, _ | _⟩ <;> rw [hc] at h <;> simp only at h ⊢ <;> omega

theorem progress (s : Rd ρ β) (b : β) (h : weight s.pipe ≠ 0) :
    ∃ a, Inner a ∧ weight (s.step a).pipe < weight s.pipe := by
  obtain ⟨num, arready, todo, cur, done, drv, acc, res, ans⟩ := s
  rcases drv with _ | x
  · rcases done with _ | ⟨y, done⟩
    · rcases cur with _ | ⟨r, _ | _⟩
      · rcases todo with _ | ⟨r, todo⟩
        · exact absurd rfl h
        · exact ⟨.take, trivial, by simp [Rd.step, Pipe.take, weight]; omega⟩
      · exact ⟨.ret b, trivial, by simp [Rd.step, Pipe.ret, weight]⟩
      · exact ⟨.ret b, trivial, by simp [Rd.step, Pipe.ret, weight]⟩
    · exact ⟨.drive, trivial, by simp [Rd.step, Pipe.drive, weight]; omega⟩
  · exact ⟨.edge true, trivial, by simp [Rd.step, Pipe.edge, weight]⟩

/-- **No read is ever stuck**: from every reachable state, with the target answering and the master
ready, everything under way is answered. -/
theorem reads_drain (as : List (RAct ρ β)) (b : β) :
    ∃ bs : List (RAct ρ β), (∀ a ∈ bs, Inner a) ∧
      let s := ({} : Rd ρ β).run (as ++ bs)
      s.num = 0 ∧ s.pipe.ans.map (·.1) = s.pipe.acc ∧ s.pipe.acc = (({} : Rd ρ β).run as).pipe.acc := by
  have key : ∀ (n : Nat) (s : Rd ρ β), s.Ok → weight s.pipe ≤ n → ∃ bs : List (RAct ρ β),
      (∀ a ∈ bs, Inner a) ∧ (s.run bs).num = 0 ∧ (s.run bs).pipe.ans.map (·.1) = (s.run bs).pipe.acc ∧
      (s.run bs).pipe.acc = s.pipe.acc := by
    intro n
    induction n with
    | zero =>
      intro s h hw
      have hl := weight_zero (Nat.le_zero.mp hw)
      refine ⟨[], nofun, by show s.num = 0; rw [h.num, hl], ?_, rfl⟩
      show s.pipe.ans.map (·.1) = s.pipe.acc
      rw [load_eq] at hl
      have t : s.pipe.todo = [] := List.length_eq_zero_iff.mp (by omega)
      have c : live s.pipe.cur = [] := List.length_eq_zero_iff.mp (by omega)
      have d : s.pipe.done = [] := List.length_eq_zero_iff.mp (by omega)
      have e : s.pipe.drv.toList = [] := List.length_eq_zero_iff.mp (by omega)
      rw [← h.pipe.acc, ← h.pipe.res, t, c, d, e]; simp
    | succ n ih =>
      intro s h hw
      by_cases hz : weight s.pipe = 0
      · exact ih s h (by omega)
      · obtain ⟨a, ha, hlt⟩ := progress s b hz
        obtain ⟨bs, h1, h2, h3, h4⟩ := ih _ (h.step a) (by omega)
        refine ⟨a :: bs, ?_, h2, h3, h4.trans ?_⟩
        · intro x hx
          rcases List.mem_cons.mp hx with rfl | hx
          · exact ha
          · exact h1 x hx
        · cases a with
          | ar r => exact ha.elim
          | take => exact acc_take _
          | ret b => exact acc_ret _ _
          | drive => exact acc_drive _
          | edge r => exact acc_edge _ _
          | reset => exact ha.elim
  obtain ⟨bs, h1, h2, h3, h4⟩ := key _ _ (Rd.ok_init.run as) (Nat.le_refl _)
  refine ⟨bs, h1, ?_⟩
  have e : ({} : Rd ρ β).run (as ++ bs) = (({} : Rd ρ β).run as).run bs := by
    unfold Rd.run; rw [List.foldl_append]
  rw [e]
  exact ⟨h2, h3, h4⟩

/-! ## TLM to AXI4-Lite -/

/-- The slave answers a write only after it has taken the address and the data. -/
def LegalB : MWr → List MAct → Prop
  | _, [] => True
  | s, a :: as => (a = .bEdge true → s.nB < s.nAw ∧ s.nB < s.nW) ∧ LegalB (s.step a) as

/-- No reset while write data is on the bus. -/
def NoDataReset : MWr → List MAct → Prop
  | _, [] => True
  | s, a :: as => (a = .reset → s.w = false) ∧ NoDataReset (s.step a) as

/-- Where a call is. -/
structure MWr.Ok (s : MWr) : Prop where
  got : s.got = false
  nB : s.nB = s.done
  idle : s.busy = false → s.tf = false ∧ s.aw = false ∧ s.df = false ∧ s.w = false ∧ s.rf = false ∧
    s.nAw = s.done ∧ s.nW = s.done
  busy : s.busy = true →
    (s.tf = true ∧ s.aw = false ∧ s.df = false ∧ s.w = false ∧ s.rf = false ∧ s.nAw = s.done ∧ s.nW = s.done) ∨
    (s.tf = false ∧ s.nAw = s.done + (if s.aw then 0 else 1) ∧ s.nW = s.done + (if s.rf then 1 else 0) ∧
      ((s.df = true ∧ s.w = false ∧ s.rf = false) ∨ (s.df = false ∧ s.w = true ∧ s.rf = false) ∨
        (s.df = false ∧ s.w = false ∧ s.rf = true)))

theorem MWr.Ok.step {s : MWr} (h : s.Ok) {a : MAct} (hb : a = .bEdge true → s.nB < s.nAw ∧ s.nB < s.nW)
    (hr : a = .reset → s.w = false) : (s.step a).Ok := by
  obtain ⟨h1, h2, h3, h4⟩ := h
  obtain ⟨busy, tf, aw, df, w, rf, got, nAw, nW, nB, done, ab⟩ := s
  simp only at h1 h2 h3 h4 hb hr
  subst h1 h2
  cases a with
  | call =>
    cases busy
    · obtain ⟨rfl, rfl, rfl, rfl, rfl, rfl, rfl⟩ := h3 rfl
      exact ⟨rfl, rfl, nofun, fun _ => Or.inl ⟨rfl, rfl, rfl, rfl, rfl, rfl, rfl⟩⟩
    · exact ⟨rfl, rfl, h3, h4⟩
  | ataken =>
    cases busy
    · obtain ⟨rfl, rfl, rfl, rfl, rfl, rfl, rfl⟩ := h3 rfl
      exact ⟨rfl, rfl, h3, h4⟩
    · rcases h4 rfl with ⟨rfl, rfl, rfl, rfl, rfl, rfl, rfl⟩ | ⟨rfl, e⟩
      · exact ⟨rfl, rfl, nofun, fun _ => Or.inr ⟨rfl, rfl, rfl, Or.inl ⟨rfl, rfl, rfl⟩⟩⟩
      · exact ⟨rfl, rfl, h3, h4⟩
  | awEdge r =>
    cases busy
    · obtain ⟨rfl, rfl, rfl, rfl, rfl, rfl, rfl⟩ := h3 rfl
      exact ⟨rfl, rfl, h3, h4⟩
    · rcases h4 rfl with ⟨rfl, rfl, rfl, rfl, rfl, rfl, rfl⟩ | ⟨rfl, e1, e2, e3⟩
      · exact ⟨rfl, rfl, h3, h4⟩
      · cases aw <;> cases r <;>
          first
          | exact ⟨rfl, rfl, h3, h4⟩
          | exact ⟨rfl, rfl, nofun, fun _ => Or.inr ⟨rfl, by show nAw + 1 = nB + 1; simp at e1; omega, e2, e3⟩⟩
  | wtaken =>
    cases busy
    · obtain ⟨rfl, rfl, rfl, rfl, rfl, rfl, rfl⟩ := h3 rfl
      exact ⟨rfl, rfl, h3, h4⟩
    · rcases h4 rfl with ⟨rfl, rfl, rfl, rfl, rfl, rfl, rfl⟩ | ⟨rfl, e1, e2, e3⟩
      · exact ⟨rfl, rfl, h3, h4⟩
      · rcases e3 with ⟨rfl, rfl, rfl⟩ | ⟨rfl, rfl, rfl⟩ | ⟨rfl, rfl, rfl⟩
        · exact ⟨rfl, rfl, nofun, fun _ => Or.inr ⟨rfl, e1, e2, Or.inr (Or.inl ⟨rfl, rfl, rfl⟩)⟩⟩
        · exact ⟨rfl, rfl, h3, h4⟩
        · exact ⟨rfl, rfl, h3, h4⟩
  | wEdge r =>
    cases busy
    · obtain ⟨rfl, rfl, rfl, rfl, rfl, rfl, rfl⟩ := h3 rfl
      exact ⟨rfl, rfl, h3, h4⟩
    · rcases h4 rfl with ⟨rfl, rfl, rfl, rfl, rfl, rfl, rfl⟩ | ⟨rfl, e1, e2, e3⟩
      · exact ⟨rfl, rfl, h3, h4⟩
      · rcases e3 with ⟨rfl, rfl, rfl⟩ | ⟨rfl, rfl, rfl⟩ | ⟨rfl, rfl, rfl⟩
        · exact ⟨rfl, rfl, h3, h4⟩
        · cases r
          · exact ⟨rfl, rfl, h3, h4⟩
          · exact ⟨rfl, rfl, nofun, fun _ => Or.inr ⟨rfl, e1, by simpa [MWr.step] using e2,
              Or.inr (Or.inr ⟨rfl, rfl, rfl⟩)⟩⟩
        · exact ⟨rfl, rfl, h3, h4⟩
  | bEdge v =>
    cases v
    · exact ⟨rfl, rfl, h3, h4⟩
    · have hb' := hb rfl
      cases busy
      · obtain ⟨rfl, rfl, rfl, rfl, rfl, rfl, rfl⟩ := h3 rfl
        omega
      · rcases h4 rfl with ⟨rfl, rfl, rfl, rfl, rfl, rfl, rfl⟩ | ⟨rfl, e1, e2, e3⟩
        · omega
        · rcases e3 with ⟨rfl, rfl, rfl⟩ | ⟨rfl, rfl, rfl⟩ | ⟨rfl, rfl, rfl⟩
          · simp at e2; omega
          · simp at e2; omega
          · cases aw
            · exact ⟨rfl, rfl, fun _ => ⟨rfl, rfl, rfl, rfl, rfl, e1, e2⟩, nofun⟩
            · simp at e1; omega
  | reset =>
    have hw : w = false := hr rfl
    subst hw
    cases busy
    · obtain ⟨rfl, rfl, rfl, _, rfl, rfl, rfl⟩ := h3 rfl
      exact ⟨rfl, rfl, fun _ => ⟨rfl, rfl, rfl, rfl, rfl, rfl, rfl⟩, nofun⟩
    · rcases h4 rfl with ⟨rfl, rfl, rfl, _, rfl, rfl, rfl⟩ | ⟨rfl, e1, e2, e3⟩
      · exact ⟨rfl, rfl, fun _ => ⟨rfl, rfl, rfl, rfl, rfl, rfl, rfl⟩, nofun⟩
      · rcases e3 with ⟨rfl, _, rfl⟩ | ⟨rfl, e, rfl⟩ | ⟨rfl, _, rfl⟩
        · exact ⟨rfl, rfl, fun _ => ⟨rfl, rfl, rfl, rfl, rfl, rfl, rfl⟩, nofun⟩
        · cases e
        · exact ⟨rfl, rfl, fun _ => ⟨rfl, rfl, rfl, rfl, rfl, rfl, rfl⟩, nofun⟩

theorem MWr.Ok.run {s : MWr} (h : s.Ok) : ∀ (as : List MAct), LegalB s as → NoDataReset s as → (s.run as).Ok := by
  intro as
  induction as generalizing s with
  | nil => intro _ _; exact h
  | cons a as ih => intro h1 h2; exact ih (h.step h1.1 h2.1) h1.2 h2.2

theorem MWr.ok_init : ({} : MWr).Ok :=
  ⟨rfl, rfl, fun _ => ⟨rfl, rfl, rfl, rfl, rfl, rfl, rfl⟩, nofun⟩

/-- **Each write call is one address, one data and one response transfer** (since the last reset), as
long as no reset hits write data on the bus. -/
theorem write_transfers_partial (as : List MAct) (h1 : LegalB {} as) (h2 : NoDataReset {} as) :
    let s := ({} : MWr).run as
    s.nB = s.done ∧ (s.busy = false → s.nAw = s.done ∧ s.nW = s.done) ∧
      s.nAw ≤ s.done + 1 ∧ s.nW ≤ s.done + 1 := by
  intro s
  have h := MWr.ok_init.run as h1 h2
  refine ⟨h.nB, fun e => ⟨(h.idle e).2.2.2.2.2.1, (h.idle e).2.2.2.2.2.2⟩, ?_, ?_⟩
  · cases e : s.busy
    · have := (h.idle e).2.2.2.2.2.1; show (({} : MWr).run as).nAw ≤ (({} : MWr).run as).done + 1; omega
    · rcases h.busy e with e | e
      · have := e.2.2.2.2.2.1; show (({} : MWr).run as).nAw ≤ (({} : MWr).run as).done + 1; omega
      · have := e.2.1; show (({} : MWr).run as).nAw ≤ (({} : MWr).run as).done + 1; split at this <;> omega
  · cases e : s.busy
    · have := (h.idle e).2.2.2.2.2.2; show (({} : MWr).run as).nW ≤ (({} : MWr).run as).done + 1; omega
    · rcases h.busy e with e | e
      · have := e.2.2.2.2.2.2; show (({} : MWr).run as).nW ≤ (({} : MWr).run as).done + 1; omega
      · have := e.2.2.1; show (({} : MWr).run as).nW ≤ (({} : MWr).run as).done + 1; split at this <;> omega

/-- **A reset ends a write call** unless its data is on the bus. -/
theorem reset_ends_write_partial (as : List MAct) (h1 : LegalB {} as) (h2 : NoDataReset {} as)
    (hw : (({} : MWr).run as).w = false) : ((({} : MWr).run as).step .reset).busy = false := by
  have h := MWr.ok_init.run as h1 h2
  have h' := h.step (a := .reset) nofun (fun _ => hw)
  cases e : ((({} : MWr).run as).step .reset).busy
  · rfl
  · exfalso
    revert e
    simp only [MWr.step]
    split
    · simp
    · rename_i hn
      simp only
      intro e
      rcases h.busy e with e' | e'
      · exact hn (Or.inl e'.1)
      · rcases e'.2.2.2 with e' | e' | e'
        · exact hn (Or.inr (Or.inl e'.1))
        · rw [hw] at e'; simp at e'
        · exact hn (Or.inr (Or.inr e'.2.2))

/-- **A reset while write data is on the bus hangs the bridge**: the call never returns, and no later
call is admitted, whatever happens afterwards. -/
theorem data_reset_hangs (as : List MAct) :
    (({} : MWr).run ([.call, .ataken, .wtaken, .reset] ++ as)).busy = true ∧
    (({} : MWr).run ([.call, .ataken, .wtaken, .reset] ++ as)).done = 0 := by
  have key : ∀ (as : List MAct) (s : MWr), s.busy = true → s.tf = false → s.aw = false → s.df = false →
      s.w = false → s.rf = false → s.done = 0 → (s.run as).busy = true ∧ (s.run as).done = 0 := by
    intro as
    induction as with
    | nil => intro s h _ _ _ _ _ hd; exact ⟨h, hd⟩
    | cons a as ih =>
      intro s h1 h2 h3 h4 h5 h6 h7
      obtain ⟨busy, tf, aw, df, w, rf, got, nAw, nW, nB, done, ab⟩ := s
      simp only at h1 h2 h3 h4 h5 h6 h7
      subst h1 h2 h3 h4 h5 h6 h7
      cases a with
      | call => exact ih _ rfl rfl rfl rfl rfl rfl rfl
      | ataken => exact ih _ rfl rfl rfl rfl rfl rfl rfl
      | awEdge r => cases r <;> exact ih _ rfl rfl rfl rfl rfl rfl rfl
      | wtaken => exact ih _ rfl rfl rfl rfl rfl rfl rfl
      | wEdge r => cases r <;> exact ih _ rfl rfl rfl rfl rfl rfl rfl
      | bEdge v =>
        cases v
        · exact ih _ rfl rfl rfl rfl rfl rfl rfl
        · cases got
          · exact ih _ rfl rfl rfl rfl rfl rfl rfl
          · exact ih _ rfl rfl rfl rfl rfl rfl rfl
      | reset => exact ih _ rfl rfl rfl rfl rfl rfl rfl
  exact key as _ rfl rfl rfl rfl rfl rfl rfl

/-! Reads. -/

/-- The slave answers a read only after it has taken the address. -/
def LegalR : MRd → List MRAct → Prop
  | _, [] => True
  | s, a :: as => (a = .rEdge true → s.nR < s.nAr) ∧ LegalR (s.step a) as

structure MRd.Ok (s : MRd) : Prop where
  got : s.got = false
  nR : s.nR = s.done
  where_ : (s.busy = false ∧ s.tf = false ∧ s.ar = false ∧ s.rf = false ∧ s.nAr = s.done) ∨
    (s.busy = true ∧ s.tf = true ∧ s.ar = false ∧ s.rf = false ∧ s.nAr = s.done) ∨
    (s.busy = true ∧ s.tf = false ∧ s.ar = true ∧ s.rf = false ∧ s.nAr = s.done) ∨
    (s.busy = true ∧ s.tf = false ∧ s.ar = false ∧ s.rf = true ∧ s.nAr = s.done + 1)

theorem MRd.Ok.step {s : MRd} (h : s.Ok) {a : MRAct} (hb : a = .rEdge true → s.nR < s.nAr) : (s.step a).Ok := by
  obtain ⟨h1, h2, h3⟩ := h
  obtain ⟨busy, tf, ar, rf, got, nAr, nR, done, ab⟩ := s
  simp only at h1 h2 h3 hb
  subst h1 h2
  rcases h3 with ⟨rfl, rfl, rfl, rfl, rfl⟩ | ⟨rfl, rfl, rfl, rfl, rfl⟩ | ⟨rfl, rfl, rfl, rfl, rfl⟩ |
    ⟨rfl, rfl, rfl, rfl, rfl⟩
  · cases a with
    | rEdge v => cases v
                 · exact ⟨rfl, rfl, Or.inl ⟨rfl, rfl, rfl, rfl, rfl⟩⟩
                 · have := hb rfl; omega
    | call => exact ⟨rfl, rfl, Or.inr (Or.inl ⟨rfl, rfl, rfl, rfl, rfl⟩)⟩
    | arEdge r => exact ⟨by simp [MRd.step], by simp [MRd.step], Or.inl (by simp [MRd.step])⟩
    | _ => exact ⟨rfl, rfl, Or.inl ⟨rfl, rfl, rfl, rfl, rfl⟩⟩
  · cases a with
    | rEdge v => cases v
                 · exact ⟨rfl, rfl, Or.inr (Or.inl ⟨rfl, rfl, rfl, rfl, rfl⟩)⟩
                 · have := hb rfl; omega
    | ataken => exact ⟨rfl, rfl, Or.inr (Or.inr (Or.inl ⟨rfl, rfl, rfl, rfl, rfl⟩))⟩
    | arEdge r => exact ⟨by simp [MRd.step], by simp [MRd.step], Or.inr (Or.inl (by simp [MRd.step]))⟩
    | call => exact ⟨rfl, rfl, Or.inr (Or.inl ⟨rfl, rfl, rfl, rfl, rfl⟩)⟩
    | reset => exact ⟨rfl, rfl, Or.inl ⟨rfl, rfl, rfl, rfl, rfl⟩⟩
  · cases a with
    | rEdge v => cases v
                 · exact ⟨rfl, rfl, Or.inr (Or.inr (Or.inl ⟨rfl, rfl, rfl, rfl, rfl⟩))⟩
                 · have := hb rfl; omega
    | arEdge r => cases r
                  · exact ⟨rfl, rfl, Or.inr (Or.inr (Or.inl ⟨rfl, rfl, rfl, rfl, rfl⟩))⟩
                  · exact ⟨rfl, rfl, Or.inr (Or.inr (Or.inr ⟨rfl, rfl, rfl, rfl, rfl⟩))⟩
    | ataken => exact ⟨rfl, rfl, Or.inr (Or.inr (Or.inl ⟨rfl, rfl, rfl, rfl, rfl⟩))⟩
    | call => exact ⟨rfl, rfl, Or.inr (Or.inr (Or.inl ⟨rfl, rfl, rfl, rfl, rfl⟩))⟩
    | reset => exact ⟨rfl, rfl, Or.inl ⟨rfl, rfl, rfl, rfl, rfl⟩⟩
  · cases a with
    | rEdge v => cases v
                 · exact ⟨rfl, rfl, Or.inr (Or.inr (Or.inr ⟨rfl, rfl, rfl, rfl, rfl⟩))⟩
                 · exact ⟨rfl, rfl, Or.inl ⟨rfl, rfl, rfl, rfl, rfl⟩⟩
    | arEdge r => exact ⟨by simp [MRd.step], by simp [MRd.step], Or.inr (Or.inr (Or.inr (by simp [MRd.step])))⟩
    | ataken => exact ⟨rfl, rfl, Or.inr (Or.inr (Or.inr ⟨rfl, rfl, rfl, rfl, rfl⟩))⟩
    | call => exact ⟨rfl, rfl, Or.inr (Or.inr (Or.inr ⟨rfl, rfl, rfl, rfl, rfl⟩))⟩
    | reset => exact ⟨rfl, rfl, Or.inl ⟨rfl, rfl, rfl, rfl, rfl⟩⟩

theorem MRd.Ok.run {s : MRd} (h : s.Ok) : ∀ (as : List MRAct), LegalR s as → (s.run as).Ok := by
  intro as
  induction as generalizing s with
  | nil => intro _; exact h
  | cons a as ih => intro h1; exact ih (h.step h1.1) h1.2

/-- **Each read call is one address and one data transfer, and a reset always ends it.** -/
theorem read_transfers (as : List MRAct) (h1 : LegalR {} as) :
    let s := ({} : MRd).run as
    s.nR = s.done ∧ (s.busy = false → s.nAr = s.done) ∧ s.nAr ≤ s.done + 1 ∧ (s.step .reset).busy = false := by
  intro s
  have h := (⟨rfl, rfl, Or.inl ⟨rfl, rfl, rfl, rfl, rfl⟩⟩ : ({} : MRd).Ok).run as h1
  have h' := h.step (a := .reset) nofun
  change s.Ok at h
  refine ⟨h.nR, ?_, ?_, ?_⟩
  · intro e
    rcases h.where_ with x | x | x | x
    · exact x.2.2.2.2
    all_goals rw [x.1] at e; cases e
  · rcases h.where_ with x | x | x | x <;> have := x.2.2.2.2 <;> omega
  · rcases h.where_ with ⟨x1, x2, x3, x4, _⟩ | ⟨x1, x2, x3, x4, _⟩ | ⟨x1, x2, x3, x4, _⟩ | ⟨x1, x2, x3, x4, _⟩ <;>
      simp [MRd.step, x1, x2, x3, x4]

/-- **A write call ends once the slave has taken its address and data and answers**, wherever it is,
as long as no reset has hit write data on the bus; and the answer is a legal one. -/
theorem write_ends_partial (as : List MAct) (h1 : LegalB {} as) (h2 : NoDataReset {} as)
    (hb : (({} : MWr).run as).busy = true) :
    let s := (({} : MWr).run as).run [.ataken, .wtaken, .awEdge true, .wEdge true]
    s.nB < s.nAw ∧ s.nB < s.nW ∧ (s.step (.bEdge true)).busy = false ∧
      (s.step (.bEdge true)).done = (({} : MWr).run as).done + 1 := by
  intro s
  have h := MWr.ok_init.run as h1 h2
  simp only [s]
  clear s
  revert hb h
  generalize ({} : MWr).run as = t
  rintro hb ⟨k1, k2, k3, k4⟩
  obtain ⟨busy, tf, aw, df, w, rf, got, nAw, nW, nB, done, ab⟩ := t
  simp only at k1 k2 k3 k4 hb
  subst k1 k2 hb
  rcases k4 rfl with ⟨rfl, rfl, rfl, rfl, rfl, rfl, rfl⟩ | ⟨rfl, e1, e2, e3⟩
  · simp [MWr.run, MWr.step, MWr.finish]
  · rcases e3 with ⟨rfl, rfl, rfl⟩ | ⟨rfl, rfl, rfl⟩ | ⟨rfl, rfl, rfl⟩ <;> cases aw <;>
      simp [MWr.run, MWr.step, MWr.finish] at e1 e2 ⊢ <;> omega

/-- **A read call ends once the slave has taken its address and answers.** -/
theorem read_ends (as : List MRAct) (h1 : LegalR {} as) (hb : (({} : MRd).run as).busy = true) :
    let s := (({} : MRd).run as).run [.ataken, .arEdge true]
    s.nR < s.nAr ∧ (s.step (.rEdge true)).busy = false ∧ (s.step (.rEdge true)).done = (({} : MRd).run as).done + 1 := by
  intro s
  have h := (⟨rfl, rfl, Or.inl ⟨rfl, rfl, rfl, rfl, rfl⟩⟩ : ({} : MRd).Ok).run as h1
  simp only [s]
  clear s
  revert hb h
  generalize ({} : MRd).run as = t
  rintro hb ⟨k1, k2, k3⟩
  obtain ⟨busy, tf, ar, rf, got, nAr, nR, done, ab⟩ := t
  simp only at k1 k2 k3 hb
  subst k1 k2 hb
  rcases k3 with ⟨e, _⟩ | ⟨_, rfl, rfl, rfl, rfl⟩ | ⟨_, rfl, rfl, rfl, rfl⟩ | ⟨_, rfl, rfl, rfl, rfl⟩
  · cases e
  all_goals simp [MRd.run, MRd.step, MRd.finish]

/-! ## Not vacuous -/

/-- Three reads under way, the first answered. -/
example : let s := ({} : Rd Nat Nat).run [.ar (some 10), .take, .ar (some 11), .ret 5, .take, .drive, .ar (some 12),
    .edge false, .edge true]
    s.pipe.ans = [(10, 5)] ∧ s.num = 2 ∧ s.pipe.acc = [10, 11, 12] := by decide

/-- Data waits for the address; a reset in between discards the call under way. -/
example : let s := ({} : Wr Nat Nat Nat).run [.aw (some 1), .wtake, .w (some 7), .take, .reset, .ret 0,
    .w (some 9), .aw (some 2), .wtake, .w (some 8), .take, .ret 3, .drive, .edge true]
    s.pipe.ans = [((2, 8), 3)] ∧ s.aws = [2] ∧ s.ws = [8] ∧ s.num = 0 := by decide

example : LegalB {} [.call, .ataken, .wtaken, .wEdge true, .awEdge true, .bEdge true] ∧
    NoDataReset {} [.call, .ataken, .wtaken, .wEdge true, .awEdge true, .bEdge true] ∧
    (({} : MWr).run [.call, .ataken, .wtaken, .wEdge true, .awEdge true, .bEdge true]).done = 1 := by
  refine ⟨?_, ?_, by decide⟩ <;> simp [LegalB, NoDataReset, MWr.step]

example : LegalR {} [.call, .ataken, .arEdge true, .rEdge true] ∧
    (({} : MRd).run [.call, .ataken, .arEdge true, .rEdge true]).done = 1 := by
  refine ⟨?_, by decide⟩; simp [LegalR, MRd.step]

end Verif.AxiLite.Ctl
