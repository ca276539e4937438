import Verif.Ace.Serve

/-!
# Every process segment that does something brings the system closer to the end
-/

namespace Verif.Ace

variable {c : Cfg} {s : State} {k : Core} {p : Nat}

/-- How far a transaction is from its end. -/
def weight (c : Cfg) : Stage → Nat
  | .waiting => c.masters + 7
  | .snoop todo => 5 + todo.length
  | .snooped => 5
  | .clean => 4
  | .cleaned => 3
  | .queued => 2
  | .done => 1

/-- How far a port is from being idle. -/
def dist (c : Cfg) : Option Act → Nat
  | none => 0
  | some a => phase a.txn a.job * (c.masters + 8) + weight c a.stage

/-- Something happened: nothing lost, nothing invented, and closer to the end. -/
structure Moved (c : Cfg) (s s' : State) : Prop where
  wf : Wf c s'.core
  acc : ∀ q, served s'.log q ++ pend (s'.core.act q) = served s.log q ++ pend (s.core.act q)
  le : ∀ q, dist c (s'.core.act q) ≤ dist c (s.core.act q)
  lt : ∃ q, dist c (s'.core.act q) < dist c (s.core.act q)

theorem served_append (log evs : List Ev) (q : Nat) : served (log ++ evs) q = served log q ++ served evs q := by
  simp [served]

theorem served_other {evs : List Ev} {q : Nat} (h : ∀ e ∈ evs, e.port = p) (hq : q ≠ p) : served evs q = [] := by
  simp only [served, List.map_eq_nil_iff, List.filter_eq_nil_iff, decide_eq_true_eq]
  intro e he; rw [h e he]; exact Ne.symm hq

theorem served_own {evs : List Ev} (h : ∀ e ∈ evs, e.port = p) : served evs p = evs.map Ev.acc := by
  simp only [served]
  rw [List.filter_eq_self.2 (fun e he => by simp [h e he])]

theorem moved1 {s' : State} {evs : List Ev} (hw : Wf c s'.core) (hl : s'.log = s.log ++ evs)
    (he : ∀ e ∈ evs, e.port = p) (ho : ∀ q, q ≠ p → s'.core.act q = s.core.act q)
    (hp : evs.map Ev.acc ++ pend (s'.core.act p) = pend (s.core.act p))
    (hd : dist c (s'.core.act p) < dist c (s.core.act p)) : Moved c s s' := by
  refine ⟨hw, fun q => ?_, fun q => ?_, p, hd⟩
  · rw [hl, served_append]
    by_cases e : q = p
    · subst e; rw [served_own he, List.append_assoc, hp]
    · rw [served_other he e, ho q e, List.append_nil]
  · by_cases e : q = p
    · subst e; omega
    · rw [ho q e]; omega

theorem JobTxn.congr {t t' : Txn} {n : Option Bus} {j : Job} (h : JobTxn c p t n j) (h1 : t'.cmd = t.cmd)
    (h2 : t'.key = t.key) (h3 : t'.ws = t.ws) (h4 : t.cmd.forStore = true → t.shared = false → t'.shared = false)
    (h5 : t.cmd.isWr = true → t.ok = false → t'.ok = false) : JobTxn c p t' n j := by
  rcases j with (_ | ⟨k, cs⟩) | (_ | ⟨k, cs⟩) | _
  · exact h
  · simp only [JobTxn, h1, h2] at h ⊢; exact h
  · exact h
  · simp only [JobTxn, h1, h2, h3] at h ⊢
    rcases h with ⟨a, b, ⟨x, y, z, w⟩ | h | ⟨x, y, z⟩⟩ | h
    · exact Or.inl ⟨a, b, Or.inl ⟨x, y, h5 x z, w⟩⟩
    · exact Or.inl ⟨a, b, Or.inr (Or.inl h)⟩
    · exact Or.inl ⟨a, b, Or.inr (Or.inr ⟨x, h4 x y, z⟩)⟩
    · exact Or.inr h
  · simp only [JobTxn, h1] at h ⊢; exact h

theorem snoop_unshared (l : Line) {b : Bus} (h : b.forStore = true) : (snoopLine l b.ac).2.shared = false := by
  rcases b <;> first | rfl | exact nomatch h

/-- One transaction moves on in the interconnect. -/
theorem moved_stage (h : Wf c s.core) {a a' : Act} {s' : State} {ds' : List Nat} {evs : List Ev}
    (ha : s.core.act p = some a)
    (hc : s'.core = { s.core.set p (some a') with ds := ds' })
    (hcmd : a'.txn.cmd = a.txn.cmd) (hkey : a'.txn.key = a.txn.key) (hlo : a'.txn.lo = a.txn.lo)
    (hhi : a'.txn.hi = a.txn.hi) (hws : a'.txn.ws = a.txn.ws)
    (hsh : a.txn.cmd.forStore = true → a.txn.shared = false → a'.txn.shared = false)
    (hok : a.txn.cmd.isWr = true → a.txn.ok = false → a'.txn.ok = false)
    (hjob : a'.job = a.job) (hnext : a'.next = a.next)
    (hw : a.stage ≠ .waiting) (hw' : a'.stage ≠ .waiting) (hso : StageOk c a'.txn a'.stage)
    (hds : ∀ q, q ≠ p → (q ∈ ds' ↔ q ∈ s.core.ds)) (hp : p ∈ ds' ↔ (a'.stage = .clean ∨ a'.stage = .queued))
    (hn : ds'.Nodup) (hlt : weight c a'.stage < weight c a.stage)
    (hl : s'.log = s.log ++ evs) (he : ∀ e ∈ evs, e.port = p)
    (hpd : evs.map Ev.acc ++ pend (some a') = pend (some a)) : Moved c s s' := by
  have hA := h.act p a ha
  have hwf : ActWf c p a' := ⟨by rw [hjob, hnext]; exact hA.job.congr hcmd hkey hws hsh hok,
    by rw [hjob]; exact hA.pos, by rw [hlo, hhi]; exact hA.range, hso⟩
  have hact : s'.core.act = upd s.core.act p (some a') := by rw [hc]; rfl
  refine moved1 (p := p) (evs := evs) ?_ hl he ?_ ?_ ?_
  · rw [hc]; exact h.move ha hkey hlo hhi hw hw' hwf hds hp hn
  · intro q hq; rw [hact, upd_ne _ _ hq]
  · rw [hact, upd_same, ha]; exact hpd
  · rw [hact, upd_same, ha]
    simp only [dist, phase, hjob, hcmd]
    omega

theorem pend_same {a a' : Act} (hj : a'.job = a.job) (h1 : a.stage ≠ .done) (h2 : a'.stage ≠ .done ∨ a'.txn.cmd.isWr = false) :
    pend (some a') = pend (some a) := by
  have e1 : ¬ (a.txn.cmd.isWr = true ∧ a.stage = .done) := fun h => h1 h.2
  have e2 : ¬ (a'.txn.cmd.isWr = true ∧ a'.stage = .done) := by
    rcases h2 with h2 | h2
    · exact fun h => h2 h.2
    · rw [h2]; simp
  simp only [pend, hj]
  rw [if_neg e1, if_neg e2]

theorem snoop_eff (h : Wf c s.core) {q : Nat} {t : Txn} {todo : List Nat} {job : Job} {next : Option Bus}
    (ha : (s.ports p).act = some ⟨t, .snoop todo, job, next⟩) (hq : q ∈ todo ∧ s.writeOngoing q = false) :
    Moved c s (snoopStep c s p q) := by
  have hA := h.act p _ ha
  obtain ⟨st1, st2, st3⟩ := hA.stage
  have hlen : (todo.filter (· ≠ q)).length < todo.length := by
    refine List.length_filter_lt_length_iff_exists.2 ⟨q, hq.1, by simp⟩
  have haft : StageOk c t (afterSnoop todo q) ∧ afterSnoop todo q ≠ .waiting ∧ afterSnoop todo q ≠ .done ∧
      afterSnoop todo q ≠ .clean ∧ afterSnoop todo q ≠ .queued ∧
      weight c (afterSnoop todo q) < weight c (.snoop todo) := by
    unfold afterSnoop
    split
    · refine ⟨trivial, by simp, by simp, by simp, by simp, ?_⟩
      simp only [weight]
      have : 0 < todo.length := List.length_pos_iff.2 st1
      omega
    · rename_i hne
      refine ⟨⟨hne, Nat.le_trans (Nat.le_of_lt hlen) st2, st3⟩, by simp, by simp, by simp, by simp, ?_⟩
      simp only [weight]
      omega
  have gen : ∀ (r : Resp) (s0 : State), s0.core = s.core → s0.log = s.log → (t.cmd.forStore = true → r.shared = false) →
      Moved c s (s0.setAct p (some { txn := portDone t r, stage := afterSnoop todo q, job, next })) := by
    intro r s0 e1 e2 hr
    refine moved_stage (evs := []) (ds' := s.core.ds) h ha (a' := { txn := portDone t r, stage := afterSnoop todo q, job, next })
      ?_ rfl rfl rfl rfl rfl ?_ ?_ rfl rfl (by simp) haft.2.1 ?_ (fun _ _ => Iff.rfl) ?_ h.dsn haft.2.2.2.2.2 ?_ (by simp) ?_
    · rw [core_setAct, e1]; rfl
    · intro x y
      simp only [portDone]
      simp only at y
      rw [y, hr x]; rfl
    · intro x y
      simp only [portDone]
      simp only at x y
      rw [y]
      rcases hcm : t.cmd <;> rw [hcm] at x <;> first | rfl | exact nomatch x
    · have h1 := haft.1
      revert h1
      rcases afterSnoop todo q <;> exact fun h => h
    · rw [h.dsm, show s.core.act p = _ from ha]
      simp [haft.2.2.2.1, haft.2.2.2.2.1]
    · simp [State.setAct, State.setPort, e2]
    · rw [List.map_nil, List.nil_append]
      exact pend_same rfl (by simp) (Or.inl haft.2.2.1)
  unfold snoopStep
  rw [ha]
  dsimp only
  rw [if_pos hq]
  split
  · exact gen _ _ (core_setLine _ _) rfl (fun hf => snoop_unshared _ hf)
  · exact gen _ _ rfl rfl (fun _ => rfl)

theorem snoop_moved (h : Wf c s.core) (q : Nat) : snoopStep c s p q = s ∨ Moved c s (snoopStep c s p q) := by
  rcases ha : (s.ports p).act with _ | ⟨t, st, job, next⟩
  · left; unfold snoopStep; rw [ha]
  by_cases hst : ∃ todo, st = .snoop todo
  · obtain ⟨todo, rfl⟩ := hst
    by_cases hq : q ∈ todo ∧ s.writeOngoing q = false
    · exact Or.inr (snoop_eff h ha hq)
    · left; unfold snoopStep; rw [ha]; simp only; rw [if_neg hq]
  · left; unfold snoopStep; rw [ha]
    rcases st <;> first | rfl | exact absurd ⟨_, rfl⟩ hst

theorem mem_push {l : List Nat} {q : Nat} (hq : q ≠ p) : q ∈ l ++ [p] ↔ q ∈ l := by simp [hq]

theorem nodup_push {l : List Nat} (h : l.Nodup) (hp : p ∉ l) : (l ++ [p]).Nodup := by
  rw [List.nodup_append]
  refine ⟨h, by simp, ?_⟩
  intro a ha b hb e
  simp only [List.mem_singleton] at hb
  subst hb; subst e; exact hp ha

/-- A transaction that does not write moves to another stage. -/
theorem moved_to (h : Wf c s.core) {a : Act} (ha : s.core.act p = some a) (hs : a.stage = .snooped ∨ a.stage = .cleaned)
    {st : Stage} (hst : st = .clean ∨ st = .queued) (hlt : weight c st < weight c a.stage) :
    Moved c s { s.setAct p (some { a with stage := st }) with ds := s.ds ++ [p] } := by
  have np : p ∉ s.core.ds := by
    rw [h.dsm, ha]
    rcases hs with e | e <;> simp [e]
  refine moved_stage (evs := []) (ds' := s.core.ds ++ [p]) h ha (a' := { a with stage := st })
    ?_ rfl rfl rfl rfl rfl (fun _ x => x) (fun _ x => x) rfl rfl (by rcases hs with e | e <;> rw [e] <;> simp)
    (by rcases hst with e | e <;> rw [e] <;> simp) (by rcases hst with e | e <;> rw [e] <;> trivial)
    (fun _ hq => mem_push hq) ?_ (nodup_push h.dsn np) hlt (List.append_nil _).symm (by simp) ?_
  · rw [← core_setAct]; rfl
  · simp [hst]
  · rw [List.map_nil, List.nil_append]
    exact pend_same rfl (by rcases hs with e | e <;> rw [e] <;> simp)
      (Or.inl (by rcases hst with e | e <;> rw [e] <;> simp))

theorem moved_done (h : Wf c s.core) {a : Act} (ha : s.core.act p = some a) (hs : a.stage = .snooped ∨ a.stage = .cleaned)
    (hwr : a.txn.cmd.isWr = false) : Moved c s (s.setAct p (some { a with stage := .done })) := by
  refine moved_stage (evs := []) (ds' := s.core.ds) h ha (a' := { a with stage := .done })
    ?_ rfl rfl rfl rfl rfl (fun _ x => x) (fun _ x => x) rfl rfl (by rcases hs with e | e <;> rw [e] <;> simp)
    (by simp) trivial (fun _ _ => Iff.rfl) ?_ h.dsn (by rcases hs with e | e <;> rw [e] <;> simp [weight])
    (List.append_nil _).symm (by simp) ?_
  · rw [core_setAct]; rfl
  · rw [h.dsm, ha]
    rcases hs with e | e <;> simp [e]
  · rw [List.map_nil, List.nil_append]
    exact pend_same rfl (by rcases hs with e | e <;> rw [e] <;> simp) (Or.inr hwr)

theorem JobTxn.ok {t : Txn} {n : Option Bus} {j : Job} (h : JobTxn c p t n j) (hw : t.cmd.isWr = true) :
    ∃ x xs, j = .store (x :: xs) ∧ t.ws = x.ws ∧ t.key = x.key ∧ t.ok = false := by
  have no : ∀ {b : Bus}, b.isWr = true → b ≠ .readOnce ∧ b.forLoad = false ∧ b.isOut = false ∧ b ≠ .cleanUnique ∧
      b.forStore = false ∧ b.isMaint = false := by
    intro b hb
    rcases b <;> simp_all [Bus.isWr, Bus.forLoad, Bus.isOut, Bus.forStore, Bus.isMaint]
  obtain ⟨n1, n2, n3, n4, n5, n6⟩ := no hw
  rcases j with (_ | ⟨k, cs⟩) | (_ | ⟨k, cs⟩) | _
  · exact h.elim
  · simp [JobTxn, n1, n2, n3] at h
  · exact h.elim
  · simp [JobTxn, n3, n4, n5] at h
    exact ⟨k, cs, rfl, h.2.2.2.1, h.2.1, h.2.2.2.2.1⟩
  · simp [JobTxn, n3, n6] at h

theorem finish_moved (h : Wf c s.core) {a : Act} (ha : s.core.act p = some a)
    (hs : a.stage = .snooped ∨ a.stage = .cleaned) : Moved c s (finish s p a) := by
  unfold finish
  split
  · rename_i hc
    refine moved_done h ha hs ?_
    rcases hw : a.txn.cmd.isWr
    · rfl
    · obtain ⟨-, -, -, -, -, hok⟩ := (h.act p a ha).job.ok hw
      rcases hc with e | e
      · rw [e] at hw; exact nomatch hw
      · rw [hok] at e; exact nomatch e
  · exact moved_to h ha hs (Or.inr rfl) (by rcases hs with e | e <;> rw [e] <;> simp [weight])

theorem final_eff (h : Wf c s.core) {a : Act} (ha : (s.ports p).act = some a)
    (hs : a.stage = .snooped ∨ a.stage = .cleaned) : Moved c s (finalStep s p) := by
  unfold finalStep
  rw [ha]
  dsimp only
  rcases hs with hst | hst
  · rw [hst]
    dsimp only
    split
    · exact moved_to h ha (Or.inl hst) (Or.inl rfl) (by rw [hst]; simp [weight])
    · exact finish_moved h ha (Or.inl hst)
  · rw [hst]
    exact finish_moved h ha (Or.inr hst)

theorem final_moved (h : Wf c s.core) : finalStep s p = s ∨ Moved c s (finalStep s p) := by
  rcases ha : (s.ports p).act with _ | a
  · left; unfold finalStep; rw [ha]
  · by_cases hs : a.stage = .snooped ∨ a.stage = .cleaned
    · exact Or.inr (final_eff h ha hs)
    · left
      unfold finalStep
      rw [ha]
      dsimp only
      rcases hst : a.stage <;> simp [hst] at hs <;> rfl

theorem ds_eff (h : Wf c s.core) {rest : List Nat} (hds : s.ds = p :: rest) : Moved c s (dsStep c s) := by
  have hn : (p :: rest).Nodup := by rw [← hds]; exact h.dsn
  have hnp : p ∉ rest := (List.nodup_cons.1 hn).1
  obtain ⟨a, ha, hst⟩ := (h.dsm p).1 (by show p ∈ s.ds; rw [hds]; exact List.mem_cons_self ..)
  obtain ⟨⟨cmd, key, lo, hi, ws, sh, dt, got, dsw, ex, ok⟩, st, job, next⟩ := a
  dsimp only at hst
  have hrest : ∀ q, q ≠ p → (q ∈ rest ↔ q ∈ s.core.ds) := by
    intro q hq
    show q ∈ rest ↔ q ∈ s.ds
    rw [hds]; simp [hq]
  have stw : st ≠ .waiting ∧ st ≠ .done := by rcases hst with e | e <;> rw [e] <;> simp
  have gen : ∀ (a' : Act) (s' : State) (evs : List Ev), s'.core = { s.core.set p (some a') with ds := rest } →
      a'.txn.cmd = cmd → a'.txn.key = key → a'.txn.lo = lo → a'.txn.hi = hi →
      a'.txn.ws = ws → a'.txn.shared = sh → a'.txn.ok = ok → a'.job = job → a'.next = next →
      (a'.stage = .cleaned ∧ st = .clean ∨ a'.stage = .done ∧ st = .queued) → s'.log = s.log ++ evs →
      (∀ e ∈ evs, e.port = p) → evs.map Ev.acc ++ pend (some a') = pend (some ⟨⟨cmd, key, lo, hi, ws, sh, dt, got, dsw, ex, ok⟩, st, job, next⟩) → Moved c s s' := by
    intro a' s' evs e1 e2 e3 e4 e5 e6 e7 e8 e9 e10 e11 e12 e13 e14
    refine moved_stage h ha e1 e2 e3 e4 e5 e6 (fun _ x => by rw [e7]; exact x) (fun _ x => by rw [e8]; exact x) e9 e10
      stw.1 ?_ ?_ hrest ?_ (List.nodup_cons.1 hn).2 ?_ e12 e13 e14
    · rcases e11 with ⟨e, -⟩ | ⟨e, -⟩ <;> rw [e] <;> simp
    · rcases e11 with ⟨e, -⟩ | ⟨e, -⟩ <;> rw [e] <;> trivial
    · rcases e11 with ⟨e, -⟩ | ⟨e, -⟩ <;> rw [e] <;> simp [hnp]
    · rcases e11 with ⟨e, e'⟩ | ⟨e, e'⟩ <;> rw [e, e'] <;> simp [weight]
  have hset : ∀ (x : Option Act) (s0 : State), s0.ports = s.ports → s0.ov = s.ov → s0.ongoing = s.ongoing → s0.ds = rest →
      (s0.setAct p x).core = { s.core.set p x with ds := rest } := by
    intro x s0 e1 e2 e3 e4
    rw [core_setAct]
    simp only [Core.set, State.core, e1, e2, e3, e4]
  unfold dsStep
  rw [hds]
  dsimp only
  rw [show (s.ports p).act = some _ from ha]
  dsimp only
  rcases hst with e | e
  · rw [e]
    dsimp only
    have cl : ∀ (t : Txn), ([] : List Ev).map Ev.acc ++ pend (some { txn := t, stage := .cleaned, job, next }) = pend (some ⟨⟨cmd, key, lo, hi, ws, sh, dt, got, dsw, ex, ok⟩, st, job, next⟩) :=
      fun t => by rw [List.map_nil, List.nil_append]; exact pend_same rfl stw.2 (Or.inl (by simp))
    unfold execClean
    split
    · exact gen _ _ []
        (hset _ { s with ds := rest } rfl rfl rfl rfl) rfl rfl rfl rfl rfl rfl rfl rfl rfl (Or.inl ⟨rfl, e⟩)
        (List.append_nil _).symm (by simp) (cl _)
    · split
      · exact gen _ _ []
          (hset _ { s with ds := rest } rfl rfl rfl rfl) rfl rfl rfl rfl rfl rfl rfl rfl rfl (Or.inl ⟨rfl, e⟩)
          (List.append_nil _).symm (by simp) (cl _)
      · exact gen _ _ []
          (hset _ (State.setMem { s with ds := rest } _ _) rfl rfl rfl rfl) rfl rfl rfl rfl rfl rfl rfl rfl rfl (Or.inl ⟨rfl, e⟩)
          (List.append_nil _).symm (by simp) (cl _)
  · rw [e]
    dsimp only
    have nw : ∀ (t : Txn), t.cmd = cmd → cmd.isWr = false →
        ([] : List Ev).map Ev.acc ++ pend (some { txn := t, stage := .done, job, next }) = pend (some ⟨⟨cmd, key, lo, hi, ws, sh, dt, got, dsw, ex, ok⟩, st, job, next⟩) :=
      fun t h1 h2 => by
        rw [List.map_nil, List.nil_append]; exact pend_same rfl stw.2 (Or.inr (by dsimp only; rw [h1]; exact h2))
    have wr : cmd.isWr = true →
        (ws.map fun w => Ev.wr p key w.1 w.2).map Ev.acc ++ pend (some ⟨⟨cmd, key, lo, hi, ws, sh, dt, got, dsw, ex, ok⟩, .done, job, next⟩) = pend (some ⟨⟨cmd, key, lo, hi, ws, sh, dt, got, dsw, ex, ok⟩, st, job, next⟩) := by
      intro hw
      obtain ⟨x, xs, h1, h2, h3, -⟩ := (h.act p _ ha).job.ok hw
      rw [wr_accs]
      simp only [pend, hw, e, true_and, if_true]
      rw [if_neg (by simp)]
      dsimp only at h1 h2 h3
      subst h1; subst h2; subst h3
      rfl
    unfold execMain
    dsimp only
    rcases cmd <;> dsimp only <;>
    first
    | exact gen _ _ []
        (hset _ { s with ds := rest } rfl rfl rfl rfl) rfl rfl rfl rfl rfl rfl rfl rfl rfl (Or.inr ⟨rfl, e⟩)
        (List.append_nil _).symm (by simp) (nw _ rfl rfl)
    | exact gen _ _ (ws.map fun w => Ev.wr p key w.1 w.2)
        (hset _ (State.setMem { s with ds := rest } _ _) rfl rfl rfl rfl) rfl rfl rfl rfl rfl rfl rfl rfl rfl (Or.inr ⟨rfl, e⟩)
        rfl (by intro e he; obtain ⟨w, -, rfl⟩ := List.mem_map.1 he; rfl) (wr rfl)
    | exact gen _ _ []
        (hset _ (State.setMem { s with ds := rest } _ _) rfl rfl rfl rfl) rfl rfl rfl rfl rfl rfl rfl rfl rfl (Or.inr ⟨rfl, e⟩)
        (List.append_nil _).symm (by simp) (nw _ rfl rfl)
    | exact gen _ _ []
        (hset _ { s with ds := rest } rfl rfl rfl rfl) rfl rfl rfl rfl rfl rfl rfl rfl rfl (Or.inr ⟨rfl, e⟩)
        (List.append_nil _).symm (by simp) (nw _ rfl rfl)

theorem ds_moved (h : Wf c s.core) : dsStep c s = s ∨ Moved c s (dsStep c s) := by
  rcases hds : s.ds with _ | ⟨p, rest⟩
  · left; unfold dsStep; rw [hds]
  · exact Or.inr (ds_eff h hds)

end Verif.Ace
