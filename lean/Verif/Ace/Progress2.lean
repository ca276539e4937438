import Verif.Ace.Progress

/-!
# The end of a transaction
-/

namespace Verif.Ace

variable {c : Cfg} {s : State} {p : Nat}

theorem core_commit (a : Act) : (commit c p s a).core = s.core := by
  unfold commit
  dsimp only
  split <;> first | rfl | exact core_setLine _ _ | (split <;> first | rfl | exact core_setLine _ _)

theorem log_commit (a : Act) (h : a.txn.cmd ≠ .readOnce) : (commit c p s a).log = s.log := by
  unfold commit
  dsimp only
  split <;> first | rfl | (rename_i e; exact absurd e h) | (split <;> rfl)

theorem line_setLine (k : LineId) (l : Line) : (s.setLine c p k l).line c p k = l := by
  simp [State.line, State.setLine, State.setPort]

theorem inCache_setLine {k : LineId} {l : Line} (h1 : l.valid = true) (h2 : l.key = k) :
    (s.setLine c p k l).inCache c p k = true := by
  simp [State.inCache, line_setLine, h1, h2]

theorem Goes.pre {s0 s' : State} {j : Job} {b : Nat} (h : Goes c p s0 j b s') (h1 : s0.log = s.log)
    (h2 : s0.core = s.core) : Goes c p s j b s' :=
  Goes.hit (evs := []) h (by rw [h1, List.append_nil]) h2 (by simp) rfl

/-- What the port does after its transaction. -/
theorem proceed_goes (hL : 0 < c.lineSz) {a : Act} (ha : ActWf c p a) (hst : a.stage = .done) :
    ∃ J b, J.accs = pend (some a) ∧ Goes c p s J b (proceed c p (commit c p s a) a) ∧
      (b < phase a.txn a.job ∨ (proceed c p (commit c p s a) a).core = s.core) := by
  obtain ⟨hj, hpos, -, -⟩ := ha
  obtain ⟨t, st, job, next⟩ := a
  dsimp only at hst hj hpos
  subst hst
  have pe : t.cmd.isWr = false → job.accs = pend (some ⟨t, .done, job, next⟩) := by
    intro hw; simp [pend, hw]
  have out : ∀ b (k : Chunk) (cs : List Chunk), t.cmd.isOut = true → next = some b → b ≠ .cleanUnique → b.isOut = false →
      job.pieces = k :: cs → (job = .load (k :: cs) ∨ job = .store (k :: cs)) →
      (∀ t' : Txn, t'.cmd = b → t'.key = k.key → t'.shared = false → JobTxn c p t' none job) →
      ∃ J b, J.accs = pend (some ⟨t, .done, job, next⟩) ∧ Goes c p s J b (proceed c p (commit c p s ⟨t, .done, job, next⟩) ⟨t, .done, job, next⟩) ∧
      (b < phase t job ∨ (proceed c p (commit c p s ⟨t, .done, job, next⟩) ⟨t, .done, job, next⟩).core = s.core) := by
    intro b k cs ho hn hb1 hb2 hpc hjob hjt
    have hro : t.cmd ≠ .readOnce := by intro e; rw [e] at ho; exact nomatch ho
    have hcu : t.cmd ≠ .cleanUnique := by intro e; rw [e] at ho; exact nomatch ho
    have hwr : t.cmd.isWr = false := by revert ho; rcases t.cmd <;> simp [Bus.isOut, Bus.isWr]
    refine ⟨job, 3 * job.pieces.length, pe hwr, ?_, Or.inl ?_⟩
    · have e : proceed c p (commit c p s ⟨t, .done, job, next⟩) ⟨t, .done, job, next⟩ =
          issue c (commit c p s ⟨t, .done, job, next⟩) p (lineTxn c b k.key) job none := by
        unfold proceed
        dsimp only
        rw [hn]
        dsimp only
        rcases hjob with rfl | rfl <;> rfl
      rw [e]
      refine goes_issue (hjt _ rfl rfl rfl) hpos hL ?_ (log_commit _ hro) (core_commit _)
      simp [phase, lineTxn, hb1, hb2]
    · simp only [phase, if_neg hcu, ho]
      simp
  rcases job with (_ | ⟨k, cs⟩) | (_ | ⟨k, cs⟩) | ⟨mc, mk⟩
  · exact hj.elim
  · rcases hj with ⟨rfl, hkey, ⟨hcmd, hm⟩ | ⟨hcmd, hm⟩⟩ | ⟨ho, hm, b, hn, hb⟩
    · -- ReadOnce
      refine ⟨.load (k :: cs), 3 * cs.length + 1, pe (by rw [hcmd]; rfl), ?_, Or.inl ?_⟩
      · have e : proceed c p (commit c p s ⟨t, .done, .load (k :: cs), none⟩) ⟨t, .done, .load (k :: cs), none⟩ =
            goLoad c p (s.emit (k.ws.map fun w => .rd p k.key w.1 ((t.got.getD (s.line c p t.key).data) w.1))) cs := by
          unfold proceed commit
          dsimp only
          rw [hcmd]
          dsimp only [Job.pieces]
          rw [hkey]; rfl
        rw [e]
        refine Goes.hit (s := s) (goes_load hL cs _ (fun x hx => hpos x (List.mem_cons_of_mem _ hx))) rfl rfl ?_ ?_
        · intro e he
          obtain ⟨w, -, rfl⟩ := List.mem_map.1 he; rfl
        · rw [rd_accs]; rfl
      · simp only [phase, Job.pieces, List.length_cons]; omega
    · -- fill
      have hro : t.cmd ≠ .readOnce := by intro e; rw [e] at hcmd; exact nomatch hcmd
      refine ⟨.load (k :: cs), 3 * cs.length + 2, pe (by revert hcmd; rcases t.cmd <;> simp [Bus.forLoad, Bus.isWr]), ?_,
        Or.inl ?_⟩
      · have e : proceed c p (commit c p s ⟨t, .done, .load (k :: cs), none⟩) ⟨t, .done, .load (k :: cs), none⟩ =
            goLoad c p (commit c p s ⟨t, .done, .load (k :: cs), none⟩) (k :: cs) := by
          unfold proceed
          dsimp only
          rcases h : t.cmd <;> rw [h] at hcmd <;> first | rfl | exact nomatch hcmd
        rw [e]
        refine (goes_load_hit hL hpos hm ?_).pre (log_commit _ hro) (core_commit _)
        unfold commit
        dsimp only
        rw [← hkey]
        rcases h : t.cmd <;> rw [h] at hcmd <;> first | exact inCache_setLine rfl rfl | exact nomatch hcmd
      · simp only [phase, Job.pieces, List.length_cons]; omega
    · refine out b k cs ho hn (by intro e; rw [e] at hb; exact nomatch hb)
        (by revert hb; rcases b <;> simp [Bus.forLoad, Bus.isOut]) rfl (Or.inl rfl)
        (fun t' h1 h2 _ => Or.inl ⟨rfl, h2, Or.inr ⟨by rw [h1]; exact hb, hm⟩⟩)
  · exact hj.elim
  · rcases hj with ⟨rfl, hkey, ⟨hcmd, hws, hok, hd⟩ | ⟨hcmd, hd⟩ | ⟨hcmd, hsh, hd⟩⟩ | ⟨ho, hd, b, hn, hb⟩
    · -- WriteUnique, WriteLineUnique
      have hro : t.cmd ≠ .readOnce := by intro e; rw [e] at hcmd; exact nomatch hcmd
      refine ⟨.store cs, 3 * cs.length + 2, by simp [pend, hcmd, Job.tail], ?_, Or.inl ?_⟩
      · have e : proceed c p (commit c p s ⟨t, .done, .store (k :: cs), none⟩) ⟨t, .done, .store (k :: cs), none⟩ =
            goStore c p (commit c p s ⟨t, .done, .store (k :: cs), none⟩) cs := by
          unfold proceed
          dsimp only
          rcases h : t.cmd <;> rw [h] at hcmd <;> first | rfl | exact nomatch hcmd
        rw [e]
        exact (goes_store hL cs _ (fun x hx => hpos x (List.mem_cons_of_mem _ hx))).pre (log_commit _ hro) (core_commit _)
      · simp only [phase, Job.pieces, List.length_cons]; omega
    · -- CleanUnique
      have hro : t.cmd ≠ .readOnce := by rw [hcmd]; simp
      have e : proceed c p (commit c p s ⟨t, .done, .store (k :: cs), none⟩) ⟨t, .done, .store (k :: cs), none⟩ =
          goStore c p (commit c p s ⟨t, .done, .store (k :: cs), none⟩) (k :: cs) := by
        unfold proceed
        dsimp only
        rw [hcmd]; rfl
      have hph : phase t (.store (k :: cs)) = 3 * (cs.length + 1) + 2 := by simp [phase, hcmd, Job.pieces]
      by_cases hc : (commit c p s ⟨t, .done, .store (k :: cs), none⟩).inCache c p k.key = true
      · refine ⟨.store (k :: cs), 3 * cs.length + 2, pe (by rw [hcmd]; rfl), ?_, Or.inl (by dsimp only; rw [hph]; omega)⟩
        rw [e]
        refine (goes_store_hit hL hpos hd hc ?_).pre (log_commit _ hro) (core_commit _)
        revert hc
        unfold commit
        dsimp only
        rw [hcmd]
        dsimp only
        rw [hkey]
        split
        · intro _; rw [line_setLine]
        · rename_i hv
          intro hc
          simp only [State.inCache, Bool.and_eq_true] at hc
          exact absurd hc.1 hv
      · refine ⟨.store (k :: cs), 3 * (cs.length + 1) + 1, pe (by rw [hcmd]; rfl), ?_, Or.inl (by dsimp only; rw [hph]; omega)⟩
        rw [e]
        exact (goes_store_miss hL hpos hd (by simpa using hc)).pre (log_commit _ hro) (core_commit _)
    · -- fill
      have hro : t.cmd ≠ .readOnce := by intro e; rw [e] at hcmd; exact nomatch hcmd
      refine ⟨.store (k :: cs), 3 * cs.length + 2, pe (by revert hcmd; rcases t.cmd <;> simp [Bus.forStore, Bus.isWr]), ?_,
        Or.inl ?_⟩
      · have e : proceed c p (commit c p s ⟨t, .done, .store (k :: cs), none⟩) ⟨t, .done, .store (k :: cs), none⟩ =
            goStore c p (commit c p s ⟨t, .done, .store (k :: cs), none⟩) (k :: cs) := by
          unfold proceed
          dsimp only
          rcases h : t.cmd <;> rw [h] at hcmd <;> first | rfl | exact nomatch hcmd
        rw [e]
        refine (goes_store_hit hL hpos hd ?_ ?_).pre (log_commit _ hro) (core_commit _)
        · unfold commit
          dsimp only
          rw [← hkey]
          rcases h : t.cmd <;> rw [h] at hcmd <;> first | exact inCache_setLine rfl rfl | exact nomatch hcmd
        · unfold commit
          dsimp only
          rw [← hkey]
          rcases h : t.cmd <;> rw [h] at hcmd <;>
            first | (dsimp only; rw [line_setLine]; exact hsh) | (dsimp only; rw [line_setLine]; done) | exact nomatch hcmd
      · simp only [phase, Job.pieces, List.length_cons]; omega
    · refine out b k cs ho hn (by intro e; rw [e] at hb; exact nomatch hb)
        (by revert hb; rcases b <;> simp [Bus.forStore, Bus.isOut]) rfl (Or.inr rfl)
        (fun t' h1 h2 h3 => Or.inl ⟨rfl, h2, Or.inr (Or.inr ⟨by rw [h1]; exact hb, h3, hd⟩)⟩)
  · rcases hj with ⟨rfl, hcmd⟩ | ⟨ho, rfl⟩
    · have hro : t.cmd ≠ .readOnce := by intro e; rw [e] at hcmd; exact nomatch hcmd
      have e : proceed c p (commit c p s ⟨t, .done, .maint mc mk, none⟩) ⟨t, .done, .maint mc mk, none⟩ =
          commit c p s ⟨t, .done, .maint mc mk, none⟩ := by
        unfold proceed
        dsimp only
        rcases h : t.cmd <;> rw [h] at hcmd <;> first | rfl | exact nomatch hcmd
      rw [e]
      refine ⟨.maint mc mk, 0, pe (by revert hcmd; rcases t.cmd <;> simp [Bus.isMaint, Bus.isWr]), ?_, Or.inr (core_commit _)⟩
      exact ⟨[], by rw [log_commit _ hro, List.append_nil], by simp, Or.inl ⟨core_commit _, rfl⟩⟩
    · have hro : t.cmd ≠ .readOnce := by intro e; rw [e] at ho; exact nomatch ho
      have hcu : t.cmd ≠ .cleanUnique := by intro e; rw [e] at ho; exact nomatch ho
      refine ⟨.maint mc mk, 0, pe (by revert ho; rcases t.cmd <;> simp [Bus.isOut, Bus.isWr]), ?_, Or.inl ?_⟩
      · show Goes c p s (.maint mc mk) 0 (issue c (commit c p s _) p (lineTxn c .cleanShared mk) (.maint mc mk) none)
        refine goes_issue (show JobTxn c p _ _ (.maint mc mk) from Or.inl ⟨rfl, rfl⟩) hpos hL ?_ (log_commit _ hro) (core_commit _)
        simp [phase, lineTxn, Job.pieces, Bus.isOut]
      · simp only [phase, if_neg hcu, ho]
        simp

theorem pend_woken {k k' : Core} (h : Woken c k k') (q : Nat) :
    pend (k'.act q) = pend (k.act q) ∧ dist c (k'.act q) ≤ dist c (k.act q) := by
  rcases h q with e | ⟨a, h1, h2, h3⟩
  · rw [e]; exact ⟨rfl, Nat.le_refl _⟩
  · rw [h1, h3]
    refine ⟨pend_same rfl (by rw [h2]; simp) (Or.inl (firstStage_ne c q).2.2.2), ?_⟩
    simp only [dist, h2]
    show _ ≤ _ + (c.masters + 7)
    have : weight c (firstStage c q) ≤ c.masters + 5 := by
      unfold firstStage
      split
      · simp [weight]
      · have : (targets c q).length ≤ c.masters := Nat.le_trans (List.length_filter_le _ _) (by simp)
        simp only [weight]; omega
    omega

theorem dist_enter {k : Core} {t : Txn} {j : Job} {n : Option Bus} :
    dist c ((k.enter c p t j n).act p) < (phase t j + 1) * (c.masters + 8) ∧
    pend ((k.enter c p t j n).act p) = j.accs ∧ ∀ q, q ≠ p → (k.enter c p t j n).act q = k.act q := by
  have hw : weight c (firstStage c p) ≤ c.masters + 5 := by
    unfold firstStage
    split
    · simp [weight]
    · have : (targets c p).length ≤ c.masters := Nat.le_trans (List.length_filter_le _ _) (by simp)
      simp only [weight]; omega
  have := (firstStage_ne c p).2.2.2
  unfold Core.enter
  split
  · split
    · refine ⟨?_, by simp [Core.set, pend], fun q hq => by simp only [Core.set, upd_ne _ _ hq]⟩
      simp only [Core.set, upd_same, dist, weight, Nat.add_mul]; omega
    · refine ⟨?_, by simp [Core.set, pend, this], fun q hq => by simp only [Core.set, upd_ne _ _ hq]⟩
      simp only [Core.set, upd_same, dist, Nat.add_mul]; omega
  · refine ⟨?_, by simp [Core.set, pend], fun q hq => by simp only [Core.set, upd_ne _ _ hq]⟩
    simp only [Core.set, upd_same, dist, weight, Nat.add_mul]; omega

/-- Going on from an idle port. -/
theorem Goes.result {s' : State} {j : Job} {b : Nat} (h : Goes c p s j b s') (hw : Wf c s.core)
    (hp : s.core.act p = none) :
    Wf c s'.core ∧ (∀ q, q ≠ p → s'.core.act q = s.core.act q ∧ served s'.log q = served s.log q) ∧
    served s'.log p ++ pend (s'.core.act p) = served s.log p ++ j.accs ∧
    (s'.core = s.core ∨ dist c (s'.core.act p) < (b + 1) * (c.masters + 8)) := by
  obtain ⟨evs, h1, h2, h3⟩ := h
  have hs : ∀ q, q ≠ p → served s'.log q = served s.log q := by
    intro q hq; rw [h1, served_append, served_other h2 hq, List.append_nil]
  have hs' : served s'.log p = served s.log p ++ evs.map Ev.acc := by
    rw [h1, served_append, served_own h2]
  rcases h3 with ⟨e1, e2⟩ | ⟨t, j', n, e1, e2, e3, e4, e5, e6⟩
  · rw [e1]
    refine ⟨hw, fun q hq => ⟨rfl, hs q hq⟩, ?_, Or.inl rfl⟩
    rw [hs', hp, e2]; simp [pend]
  · obtain ⟨d1, d2, d3⟩ := dist_enter (c := c) (k := s.core) (p := p) (t := t) (j := j') (n := n)
    rw [e1]
    refine ⟨hw.enter hp e2 e3 e4, fun q hq => ⟨d3 q hq, hs q hq⟩, ?_, Or.inr ?_⟩
    · rw [hs', d2, List.append_assoc, e5]
    · refine Nat.lt_of_lt_of_le d1 (Nat.mul_le_mul_right _ (by omega))

theorem resume_eff (hL : 0 < c.lineSz) (h : Wf c s.core) {a : Act} (ha : (s.ports p).act = some a)
    (hst : a.stage = .done) : Moved c s (resumeStep c s p) := by
  have e : resumeStep c s p = proceed c p (commit c p (restart c a.txn (leave s p)) a) a := by
    unfold resumeStep; rw [ha]; dsimp only; rw [if_pos hst]
  rw [e]
  obtain ⟨w1, w2, w3⟩ := h.leaveRestart (p := p) ha hst
  have hcore : (restart c a.txn (leave s p)).core = (s.core.leave p).restart c a.txn := by
    rw [core_restart, core_leave]
  have hlog : (restart c a.txn (leave s p)).log = s.log := log_restartL _ _ _
  obtain ⟨J, b, j1, j2, j3⟩ := proceed_goes (s := restart c a.txn (leave s p)) (p := p) hL (h.act p a ha) hst
  obtain ⟨r1, r2, r3, r4⟩ := j2.result (by rw [hcore]; exact w1) (by rw [hcore]; exact w3)
  have hlv : ∀ q, q ≠ p → (s.core.leave p).act q = s.core.act q := by
    intro q hq; simp only [Core.leave, Core.set, upd_ne _ _ hq]
  refine ⟨r1, fun q => ?_, fun q => ?_, p, ?_⟩
  · by_cases eq : q = p
    · subst eq
      rw [r3, hlog, j1]
      show _ = served s.log q ++ pend ((s.ports q).act)
      rw [ha]
    · obtain ⟨x, y⟩ := r2 q eq
      rw [x, y, hlog, hcore, (pend_woken w2 q).1, hlv q eq]
  · by_cases eq : q = p
    · subst eq
      refine Nat.le_of_lt ?_
      show _ < dist c ((s.ports q).act)
      rw [ha]
      rcases r4 with e | hd
      · rw [e, hcore, w3]; simp [dist, hst, weight]
      · rcases j3 with hb | e
        · refine Nat.lt_of_lt_of_le hd ?_
          simp only [dist]
          have := Nat.mul_le_mul_right (c.masters + 8) hb
          simp only [Nat.succ_eq_add_one] at this
          omega
        · rw [e, hcore, w3]; simp [dist, hst, weight]
    · rw [(r2 q eq).1, hcore]
      have := (pend_woken w2 q).2
      rw [hlv q eq] at this; exact this
  · show _ < dist c ((s.ports p).act)
    rw [ha]
    rcases r4 with e | hd
    · rw [e, hcore, w3]; simp [dist, hst, weight]
    · rcases j3 with hb | e
      · refine Nat.lt_of_lt_of_le hd ?_
        simp only [dist]
        have := Nat.mul_le_mul_right (c.masters + 8) hb
        simp only [Nat.succ_eq_add_one] at this
        omega
      · rw [e, hcore, w3]; simp [dist, hst, weight]

theorem resume_moved (hL : 0 < c.lineSz) (h : Wf c s.core) :
    resumeStep c s p = s ∨ Moved c s (resumeStep c s p) := by
  rcases ha : (s.ports p).act with _ | a
  · left; unfold resumeStep; rw [ha]
  by_cases hst : a.stage = .done
  · exact Or.inr (resume_eff hL h ha hst)
  · left; unfold resumeStep; rw [ha]; dsimp only; rw [if_neg hst]

end Verif.Ace
