import Verif.Ace.Core

/-!
# What each process segment does to the waiting ports
-/

namespace Verif.Ace

variable {c : Cfg} {s : State} {k : Core} {p : Nat}

/-! ## Restarting -/

def Core.leave (k : Core) (p : Nat) : Core := { k.set p none with ongoing := k.ongoing.filter (· ≠ p) }

def Core.restart1 (c : Cfg) (t : Txn) (k : Core) (q : Nat) : Core :=
  match k.act q with
  | none => k
  | some a =>
    if t.overlaps c a.txn && !k.overlapping c a.txn then
      { k.set q (some { a with stage := firstStage c q }) with
        ongoing := k.ongoing ++ [q], ov := k.ov.filter (· ≠ q) }
    else k

def Core.restart (c : Cfg) (t : Txn) (k : Core) : Core := k.ov.foldl (Core.restart1 c t) k

theorem core_leave : (leave s p).core = s.core.leave p := by
  unfold leave Core.leave
  rw [← core_setAct]; rfl

theorem core_restart1 (t : Txn) (q : Nat) : (restart1 c t s q).core = s.core.restart1 c t q := by
  unfold restart1 Core.restart1
  rw [show s.core.act q = (s.ports q).act from rfl]
  rcases h : (s.ports q).act with _ | a
  · rfl
  · simp only
    rw [← core_overlapping]
    split
    · rw [← core_setAct]; rfl
    · rfl

theorem core_restartL (t : Txn) : ∀ (l : List Nat) (s : State),
    (l.foldl (restart1 c t) s).core = l.foldl (Core.restart1 c t) s.core
  | [], _ => rfl
  | q :: l, s => by
    rw [List.foldl_cons, List.foldl_cons, core_restartL t l, core_restart1]

theorem core_restart (t : Txn) : (restart c t s).core = s.core.restart c t := core_restartL t _ s

theorem log_restartL (t : Txn) : ∀ (l : List Nat) (s : State), (l.foldl (restart1 c t) s).log = s.log
  | [], _ => rfl
  | q :: l, s => by
    rw [List.foldl_cons, log_restartL t l]
    unfold restart1
    split
    · rfl
    · split <;> rfl

/-- Some waiting ports have been let in. -/
def Woken (c : Cfg) (k k' : Core) : Prop := ∀ q, k'.act q = k.act q ∨
  ∃ a, k.act q = some a ∧ a.stage = .waiting ∧ k'.act q = some { a with stage := firstStage c q }

theorem firstStage_ne (c : Cfg) (q : Nat) :
    firstStage c q ≠ .waiting ∧ firstStage c q ≠ .clean ∧ firstStage c q ≠ .queued ∧ firstStage c q ≠ .done := by
  unfold firstStage; split <;> simp

theorem firstStage_ok (q : Nat) {t : Txn} (hs : t.cmd.snooping = true) : StageOk c t (firstStage c q) := by
  unfold firstStage
  split
  · trivial
  · rename_i hne
    exact ⟨hne, Nat.le_trans (List.length_filter_le _ _) (by simp), hs⟩

theorem overlaps_self {t : Txn} (h : t.lo < t.hi) : t.overlaps c t = true := by
  have h1 : 0 < t.len := Nat.sub_pos_of_lt h
  unfold Txn.overlaps Txn.inRange
  simp only [Bool.or_eq_true, Bool.and_eq_true, decide_eq_true_eq]
  omega

/-- While restarting. -/
structure Left (c : Cfg) (t : Txn) (l : List Nat) (k : Core) : Prop extends Lists c k where
  wait : ∀ q a, k.act q = some a → a.stage = .waiting →
    k.overlapping c a.txn = true ∨ (t.overlaps c a.txn = true ∧ q ∈ l)

theorem Left.restart1 {t : Txn} {l : List Nat} {q : Nat} (h : Left c t (q :: l) k) :
    Left c t l (k.restart1 c t q) ∧ Woken c k (k.restart1 c t q) := by
  have skip : (∀ a, k.act q = some a → a.stage = .waiting → k.overlapping c a.txn = true) →
      Left c t l k ∧ Woken c k k := by
    intro hq
    refine ⟨⟨h.toLists, fun r a ha hst => ?_⟩, fun r => Or.inl rfl⟩
    rcases h.wait r a ha hst with h1 | ⟨h1, h2⟩
    · exact Or.inl h1
    · rcases List.mem_cons.1 h2 with rfl | h2
      · exact Or.inl (hq a ha hst)
      · exact Or.inr ⟨h1, h2⟩
  unfold Core.restart1
  rcases ha : k.act q with _ | a
  · simp only
    exact skip (fun a h' => by rw [ha] at h'; cases h')
  · simp only
    by_cases hc : (t.overlaps c a.txn && !k.overlapping c a.txn) = true
    · rw [if_pos hc]
      simp only [Bool.and_eq_true, Bool.not_eq_true'] at hc
      have hst : a.stage = .waiting := by
        by_cases hst : a.stage = .waiting
        · exact hst
        · have : k.overlapping c a.txn = true := (overlapping_iff _).2
            ⟨q, a, (h.ong q).2 ⟨a, ha, hst⟩, ha, overlaps_self (h.act q a ha).range⟩
          rw [this] at hc; exact nomatch hc.2
      have fs := firstStage_ne c q
      have nq : q ∉ k.ongoing ∧ q ∉ k.ds := by
        refine ⟨?_, ?_⟩
        · rw [h.ong, ha]; simp [hst]
        · rw [h.dsm, ha]; simp [hst]
      refine ⟨⟨⟨?_, ?_, ?_, ?_, h.dsn⟩, ?_⟩, ?_⟩
      · intro r b hb
        by_cases e : r = q
        · subst e
          simp only [Core.set, upd_same] at hb; cases hb
          have := h.act r a ha
          refine ⟨this.job, this.pos, this.range, firstStage_ok r ?_⟩
          have h2 := this.stage
          rw [hst] at h2; exact h2
        · simp only [Core.set, upd_ne _ _ e] at hb; exact h.act r b hb
      · intro r
        by_cases e : r = q
        · subst e; simp [Core.set, fs.1]
        · simp [Core.set, upd_ne _ _ e, e, h.ovm r]
      · intro r
        by_cases e : r = q
        · subst e; simp [Core.set, fs.1]
        · simp [Core.set, upd_ne _ _ e, e, h.ong r]
      · intro r
        by_cases e : r = q
        · subst e; simp [Core.set, fs.2, nq.2]
        · simp [Core.set, upd_ne _ _ e, h.dsm r]
      · intro r b hb hst'
        have e : r ≠ q := by
          intro e; subst e
          simp only [Core.set, upd_same] at hb; cases hb; exact fs.1 hst'
        simp only [Core.set, upd_ne _ _ e] at hb
        rcases h.wait r b hb hst' with h1 | ⟨h1, h2⟩
        · left
          obtain ⟨z, x, hz, hx, hov⟩ := (overlapping_iff _).1 h1
          have ez : z ≠ q := fun e => nq.1 (e ▸ hz)
          exact (overlapping_iff _).2 ⟨z, x, List.mem_append_left _ hz, by simp only [Core.set, upd_ne _ _ ez]; exact hx, hov⟩
        · right
          rcases List.mem_cons.1 h2 with h2 | h2
          · exact absurd h2 e
          · exact ⟨h1, h2⟩
      · intro r
        by_cases e : r = q
        · subst e
          exact Or.inr ⟨a, ha, hst, by simp [Core.set]⟩
        · exact Or.inl (by simp only [Core.set, upd_ne _ _ e])
    · rw [if_neg hc]
      refine skip (fun b hb hst => ?_)
      rw [ha] at hb; cases hb
      rcases h.wait q a ha hst with h1 | ⟨h1, -⟩
      · exact h1
      · simp only [h1, Bool.true_and, Bool.not_eq_true, Bool.not_eq_false'] at hc
        exact hc

theorem Woken.trans {k1 k2 k3 : Core} (h : Woken c k1 k2) (g : Woken c k2 k3) : Woken c k1 k3 := by
  intro q
  rcases g q with e | ⟨a, h1, h2, h3⟩
  · rw [e]; exact h q
  · rcases h q with e | ⟨b, g1, g2, g3⟩
    · exact Or.inr ⟨a, by rw [← e]; exact h1, h2, h3⟩
    · rw [g3] at h1; cases h1
      exact absurd h2 (firstStage_ne c q).1

theorem Left.restartL {t : Txn} : ∀ (l : List Nat) {k : Core}, Left c t l k →
    Left c t [] (l.foldl (Core.restart1 c t) k) ∧ Woken c k (l.foldl (Core.restart1 c t) k)
  | [], k, h => ⟨h, fun _ => Or.inl rfl⟩
  | q :: l, k, h => by
    obtain ⟨h1, h2⟩ := h.restart1
    obtain ⟨g1, g2⟩ := Left.restartL l h1
    exact ⟨g1, h2.trans g2⟩

/-- A transaction leaves and those that waited for it are let in. -/
theorem Wf.leaveRestart (h : Wf c k) {a : Act} (ha : k.act p = some a) (hst : a.stage = .done) :
    Wf c ((k.leave p).restart c a.txn) ∧ Woken c (k.leave p) ((k.leave p).restart c a.txn) ∧
    ((k.leave p).restart c a.txn).act p = none := by
  have hl : Left c a.txn (k.leave p).ov (k.leave p) := by
    have same : ∀ q, q ≠ p → upd k.act p none q = k.act q := fun q hq => upd_ne _ _ hq
    refine ⟨⟨?_, ?_, ?_, ?_, h.dsn⟩, ?_⟩
    · intro q b hb
      by_cases e : q = p
      · subst e; simp only [Core.leave, Core.set, upd_same] at hb; cases hb
      · simp only [Core.leave, Core.set, same q e] at hb; exact h.act q b hb
    · intro q
      by_cases e : q = p
      · subst e; simp [Core.leave, Core.set, h.ovm q, ha, hst]
      · simp only [Core.leave, Core.set, same q e, h.ovm q]
    · intro q
      by_cases e : q = p
      · subst e; simp [Core.leave, Core.set]
      · simp [Core.leave, Core.set, same q e, h.ong q, e]
    · intro q
      by_cases e : q = p
      · subst e; simp [Core.leave, Core.set, h.dsm q, ha, hst]
      · simp only [Core.leave, Core.set, same q e, h.dsm q]
    · intro q b hb hst'
      have e : q ≠ p := by
        intro e; subst e; simp only [Core.leave, Core.set, upd_same] at hb; cases hb
      simp only [Core.leave, Core.set, same q e] at hb
      obtain ⟨z, x, hz, hx, hov⟩ := (overlapping_iff _).1 (h.wait q b hb hst')
      by_cases ez : z = p
      · subst ez
        rw [ha] at hx; cases hx
        refine Or.inr ⟨overlaps_symm (h.act q b hb).range (h.act z a ha).range hov, ?_⟩
        exact (h.ovm q).2 ⟨b, hb, hst'⟩
      · refine Or.inl ((overlapping_iff _).2 ⟨z, x, ?_, by simp only [Core.leave, Core.set, same z ez]; exact hx, hov⟩)
        simp [Core.leave, ez, hz]
  obtain ⟨g, w⟩ := Left.restartL _ hl
  refine ⟨⟨g.toLists, fun q b hb hst' => ?_⟩, w, ?_⟩
  · rcases g.wait q b hb hst' with h1 | ⟨-, h2⟩
    · exact h1
    · cases h2
  · rcases w p with e | ⟨b, h1, -⟩
    · unfold Core.restart; rw [e]; simp [Core.leave, Core.set]
    · simp [Core.leave, Core.set] at h1

/-! ## Going on with a request -/

/-- How far a request is from its end, in transactions. -/
def phase (t : Txn) (j : Job) : Nat :=
  3 * j.pieces.length + (if t.cmd = .cleanUnique then 2 else if t.cmd.isOut then 1 else 0)

/-- The port goes on with request `j`: it does `es` and then is idle or starts a transaction. -/
def Went (c : Cfg) (p : Nat) (k : Core) (j : Job) (es : List Acc) (b : Nat) (k' : Core) : Prop :=
  (k' = k ∧ es = j.accs) ∨ ∃ t j' n, k' = k.enter c p t j' n ∧ JobTxn c p t n j' ∧ (∀ x ∈ j'.pieces, 0 < x.n) ∧
    t.lo < t.hi ∧ es ++ j'.accs = j.accs ∧ phase t j' ≤ b

theorem Went.mono {j : Job} {es : List Acc} {b b' : Nat} {k' : Core} (h : Went c p k j es b k') (hb : b ≤ b') :
    Went c p k j es b' k' := by
  rcases h with h | ⟨t, j', n, h1, h2, h3, h4, h5, h6⟩
  · exact Or.inl h
  · exact Or.inr ⟨t, j', n, h1, h2, h3, h4, h5, Nat.le_trans h6 hb⟩

/-- The effect on log and waiting ports. -/
def Goes (c : Cfg) (p : Nat) (s : State) (j : Job) (b : Nat) (s' : State) : Prop :=
  ∃ evs, s'.log = s.log ++ evs ∧ (∀ e ∈ evs, e.port = p) ∧ Went c p s.core j (evs.map Ev.acc) b s'.core

theorem log_issue (t : Txn) (j : Job) (n : Option Bus) : (issue c s p t j n).log = s.log := by
  unfold issue enter
  split
  · split <;> rfl
  · rfl

theorem goes_issue {t : Txn} {j : Job} {n : Option Bus} {b : Nat} (hj : JobTxn c p t n j)
    (hk : ∀ x ∈ j.pieces, 0 < x.n) (hr : t.lo < t.hi) (hb : phase t j ≤ b) {s0 : State} (h1 : s0.log = s.log)
    (h2 : s0.core = s.core) : Goes c p s j b (issue c s0 p t j n) := by
  refine ⟨[], by rw [log_issue, h1]; simp, by simp, Or.inr ⟨{ t with exec := t.cmd == .readOnce }, j, n, ?_, ?_, hk, hr, rfl, hb⟩⟩
  · rw [issue, core_enter, h2]
  · rcases j with (_ | ⟨k, cs⟩) | (_ | ⟨k, cs⟩) | _ <;> exact hj

theorem goes_miss (hL : 0 < c.lineSz) {cmd : Bus} {key : LineId} {j : Job} {b : Nat}
    (h0 : ∀ t : Txn, t.cmd = cmd → t.key = key → t.shared = false → JobTxn c p t none j)
    (h1 : ∀ t : Txn, t.cmd.isOut = true → JobTxn c p t (some cmd) j)
    (hk : ∀ x ∈ j.pieces, 0 < x.n) (hcmd : cmd ≠ .cleanUnique ∧ cmd.isOut = false)
    (hb : 3 * j.pieces.length + 1 ≤ b) {s0 : State} (e1 : s0.log = s.log) (e2 : s0.core = s.core) :
    Goes c p s j b (miss c s0 p cmd key j) := by
  have ph : phase (lineTxn c cmd key) j ≤ b := by
    unfold phase lineTxn
    rw [if_neg hcmd.1, hcmd.2]
    simp; omega
  unfold miss
  dsimp only
  split
  · split
    · split
      · refine goes_issue (h1 _ rfl) hk hL ?_ (by rw [← e1]; rfl) (by rw [core_flip, e2])
        unfold phase lineTxn; simp [Bus.isOut]; omega
      · refine goes_issue (h1 _ rfl) hk hL ?_ (by rw [← e1]; rfl) (by rw [core_flip, e2])
        unfold phase lineTxn; simp [Bus.isOut]; omega
    · exact goes_issue (h0 _ rfl rfl rfl) hk hL ph (by rw [← e1]; rfl) (by rw [core_setLine, e2])
  · exact goes_issue (h0 _ rfl rfl rfl) hk hL ph e1 e2

theorem Goes.hit {j j' : Job} {b : Nat} {s0 s' : State} {evs : List Ev} (h : Goes c p s0 j' b s')
    (h1 : s0.log = s.log ++ evs) (h2 : s0.core = s.core) (h3 : ∀ e ∈ evs, e.port = p)
    (h4 : evs.map Ev.acc ++ j'.accs = j.accs) : Goes c p s j b s' := by
  obtain ⟨es, g1, g2, g3⟩ := h
  refine ⟨evs ++ es, by rw [g1, h1, List.append_assoc], ?_, ?_⟩
  · intro e he
    rcases List.mem_append.1 he with he | he
    · exact h3 e he
    · exact g2 e he
  · rw [h2] at g3
    rcases g3 with ⟨e1, e2⟩ | ⟨t, j'', n, e1, e2, e3, e4, e5, e6⟩
    · exact Or.inl ⟨e1, by rw [List.map_append, e2]; exact h4⟩
    · exact Or.inr ⟨t, j'', n, e1, e2, e3, e4, by rw [List.map_append, List.append_assoc, e5]; exact h4, e6⟩

theorem Goes.mono {j : Job} {b b' : Nat} {s' : State} (h : Goes c p s j b s') (hb : b ≤ b') : Goes c p s j b' s' := by
  obtain ⟨es, g1, g2, g3⟩ := h
  exact ⟨es, g1, g2, g3.mono hb⟩

theorem rd_accs (k : Chunk) (d : Mem) :
    (k.ws.map fun w => Ev.rd p k.key w.1 (d w.1)).map Ev.acc = k.rds := by
  simp [Chunk.rds, Ev.acc, Function.comp_def]

theorem wr_accs (key : LineId) (ws : List (Nat × Byte)) :
    (ws.map fun w => Ev.wr p key w.1 w.2).map Ev.acc = ws.map fun w => Acc.wr key w.1 w.2 := by
  simp [Ev.acc, Function.comp_def]

theorem goes_load (hL : 0 < c.lineSz) : ∀ (cs : List Chunk) (s : State), (∀ x ∈ cs, 0 < x.n) →
    Goes c p s (.load cs) (3 * cs.length + 1) (goLoad c p s cs)
  | [], s, _ => ⟨[], by simp [goLoad], by simp, Or.inl ⟨rfl, rfl⟩⟩
  | k :: cs, s, hk => by
    unfold goLoad
    by_cases hm : c.masters ≤ p
    · rw [if_pos hm]
      refine goes_issue (show JobTxn c p _ _ (.load (k :: cs)) from Or.inl ⟨rfl, rfl, Or.inl ⟨rfl, hm⟩⟩) hk ?_ ?_ rfl rfl
      · have := hk k (List.mem_cons_self ..); simp only; omega
      · unfold phase; simp [Job.pieces, Bus.isOut]
    · rw [if_neg hm]
      by_cases hc : s.inCache c p k.key = true
      · rw [if_pos hc]
        refine Goes.mono (b := 3 * cs.length + 1)
          (Goes.hit (s := s) (evs := k.ws.map fun w => .rd p k.key w.1 ((s.line c p k.key).data w.1))
          (goes_load hL cs (s.emit _) (fun x hx => hk x (List.mem_cons_of_mem _ hx))) rfl rfl ?_ ?_)
          (by simp; omega)
        · intro e he
          obtain ⟨w, -, rfl⟩ := List.mem_map.1 he; rfl
        · rw [rd_accs]; rfl
      · rw [if_neg hc]
        have gen : ∀ (b : Bus) (s0 : State), s0.log = s.log → s0.core = s.core → b.forLoad = true →
            Goes c p s (.load (k :: cs)) (3 * (k :: cs).length + 1) (miss c s0 p b k.key (.load (k :: cs))) := by
          intro b s0 e1 e2 hb
          refine goes_miss (j := .load (k :: cs)) hL (fun t h1 h2 _ => Or.inl ⟨rfl, h2, Or.inr ⟨by rw [h1]; exact hb, hm⟩⟩)
            (fun t h => Or.inr ⟨h, hm, b, rfl, hb⟩) hk ?_ (Nat.le_refl _) e1 e2
          rcases b <;> simp_all [Bus.forLoad, Bus.isOut]
        split
        · exact gen .readClean s rfl rfl rfl
        · dsimp only
          refine gen _ _ rfl core_flip ?_
          split <;> rfl

/-- The head of a load is in the cache. -/
theorem goes_load_hit (hL : 0 < c.lineSz) {k : Chunk} {cs : List Chunk} (hk : ∀ x ∈ k :: cs, 0 < x.n)
    (hm : ¬ c.masters ≤ p) (hc : s.inCache c p k.key = true) :
    Goes c p s (.load (k :: cs)) (3 * cs.length + 2) (goLoad c p s (k :: cs)) := by
  unfold goLoad
  rw [if_neg hm, if_pos hc]
  refine Goes.mono (b := 3 * cs.length + 1)
    (Goes.hit (s := s) (evs := k.ws.map fun w => .rd p k.key w.1 ((s.line c p k.key).data w.1))
    (goes_load hL cs (s.emit _) (fun x hx => hk x (List.mem_cons_of_mem _ hx))) rfl rfl ?_ ?_) (by omega)
  · intro e he
    obtain ⟨w, -, rfl⟩ := List.mem_map.1 he; rfl
  · rw [rd_accs]; rfl

theorem goes_store_miss (hL : 0 < c.lineSz) {k : Chunk} {cs : List Chunk} (hk : ∀ x ∈ k :: cs, 0 < x.n)
    (hd : ¬ c.direct p) (hc : s.inCache c p k.key = false) :
    Goes c p s (.store (k :: cs)) (3 * (cs.length + 1) + 1) (goStore c p s (k :: cs)) := by
  unfold goStore
  rw [if_neg (show ¬ (c.masters ≤ p ∨ c.wt p = true) from hd)]
  dsimp only
  rw [if_neg (by rw [hc]; simp)]
  have gen : ∀ (b : Bus), b.forStore = true →
      Goes c p s (.store (k :: cs)) (3 * (cs.length + 1) + 1) (miss c s p b k.key (.store (k :: cs))) := by
    intro b hb
    refine goes_miss (j := .store (k :: cs)) hL (fun t h1 h2 h3 => Or.inl ⟨rfl, h2, Or.inr (Or.inr ⟨by rw [h1]; exact hb, h3, hd⟩)⟩)
      (fun t h => Or.inr ⟨h, hd, b, rfl, hb⟩) hk ?_ (Nat.le_refl _) rfl rfl
    rcases b <;> simp_all [Bus.forStore, Bus.isOut]
  split
  · exact gen _ rfl
  · exact gen _ rfl

theorem goes_store (hL : 0 < c.lineSz) : ∀ (cs : List Chunk) (s : State), (∀ x ∈ cs, 0 < x.n) →
    Goes c p s (.store cs) (3 * cs.length + 2) (goStore c p s cs)
  | [], s, _ => ⟨[], by simp [goStore], by simp, Or.inl ⟨rfl, rfl⟩⟩
  | k :: cs, s, hk => by
    by_cases hd : c.masters ≤ p ∨ c.wt p = true
    · unfold goStore
      rw [if_pos hd]
      unfold issueWrite
      have hn := hk k (List.mem_cons_self ..)
      split
      · refine goes_issue (show JobTxn c p _ _ (.store (k :: cs)) from Or.inl ⟨rfl, rfl, Or.inl ⟨rfl, rfl, rfl, hd⟩⟩) hk hL ?_ rfl rfl
        unfold phase; simp [Job.pieces, Bus.isOut, lineTxn]
      · refine goes_issue (show JobTxn c p _ _ (.store (k :: cs)) from Or.inl ⟨rfl, rfl, Or.inl ⟨rfl, rfl, rfl, hd⟩⟩) hk ?_ ?_ rfl rfl
        · simp only; omega
        · unfold phase; simp [Job.pieces, Bus.isOut]
    · by_cases hc : s.inCache c p k.key = true
      · unfold goStore
        rw [if_neg hd]
        dsimp only
        rw [if_pos hc]
        split
        · have hkey : (s.line c p k.key).key = k.key := by
            simp only [State.inCache, Bool.and_eq_true, beq_iff_eq] at hc; exact hc.2
          refine goes_issue (show JobTxn c p _ _ (.store (k :: cs)) from Or.inl ⟨rfl, hkey, Or.inr (Or.inl ⟨rfl, hd⟩)⟩) hk hL ?_ rfl rfl
          unfold phase; simp [Job.pieces, lineTxn]
        · refine Goes.mono (b := 3 * cs.length + 2) (Goes.hit (s := s) (evs := k.ws.map fun w => .wr p k.key w.1 w.2)
            (goes_store hL cs (State.emit (s.setLine c p k.key { s.line c p k.key with
              data := writeBytes (s.line c p k.key).data k.ws, dirty := true }) _)
              (fun x hx => hk x (List.mem_cons_of_mem _ hx)))
            rfl (by rw [core_emit, core_setLine]) ?_ ?_) (by simp; omega)
          · intro e he
            obtain ⟨w, -, rfl⟩ := List.mem_map.1 he; rfl
          · rw [wr_accs]; rfl
      · obtain ⟨es, g1, g2, g3⟩ := goes_store_miss (s := s) hL hk hd (by simpa using hc)
        exact ⟨es, g1, g2, g3.mono (by simp)⟩

/-- The head of a store is in the cache, uniquely. -/
theorem goes_store_hit (hL : 0 < c.lineSz) {k : Chunk} {cs : List Chunk} (hk : ∀ x ∈ k :: cs, 0 < x.n)
    (hd : ¬ c.direct p) (hc : s.inCache c p k.key = true) (hu : (s.line c p k.key).shared = false) :
    Goes c p s (.store (k :: cs)) (3 * cs.length + 2) (goStore c p s (k :: cs)) := by
  unfold goStore
  rw [if_neg (show ¬ (c.masters ≤ p ∨ c.wt p = true) from hd)]
  dsimp only
  rw [if_pos hc, if_neg (by rw [hu]; simp)]
  refine Goes.hit (s := s) (evs := k.ws.map fun w => .wr p k.key w.1 w.2)
    (goes_store hL cs (State.emit (s.setLine c p k.key { s.line c p k.key with
      data := writeBytes (s.line c p k.key).data k.ws, dirty := true }) _)
      (fun x hx => hk x (List.mem_cons_of_mem _ hx)))
    rfl (by rw [core_emit, core_setLine]) ?_ ?_
  · intro e he
    obtain ⟨w, -, rfl⟩ := List.mem_map.1 he; rfl
  · rw [wr_accs]; rfl

theorem goes_maint (hL : 0 < c.lineSz) {cmd : Bus} (key : LineId) (hc : cmd.isMaint = true) :
    Goes c p s (.maint cmd key) 1 (goMaint c p s cmd key) := by
  have hph : ∀ k', phase (lineTxn c cmd k') (.maint cmd key) ≤ 1 := by
    intro k'
    rcases cmd <;> simp_all [Bus.isMaint, phase, lineTxn, Job.pieces, Bus.isOut]
  have hpo : ∀ x ∈ (Job.maint cmd key).pieces, 0 < x.n := by simp [Job.pieces]
  have hj : ∀ t : Txn, t.cmd = cmd → JobTxn c p t none (.maint cmd key) :=
    fun t h => Or.inl ⟨rfl, by rw [h]; exact hc⟩
  unfold goMaint
  dsimp only
  split
  · split
    · rename_i e; subst e
      split
      · refine goes_issue (show JobTxn c p _ _ (.maint .cleanShared key) from Or.inr ⟨rfl, rfl⟩) hpo hL ?_ rfl rfl
        simp [phase, lineTxn, Job.pieces, Bus.isOut]
      · exact goes_issue (hj _ rfl) hpo hL (hph _) rfl rfl
    · exact goes_issue (hj _ rfl) hpo hL (hph _) rfl (core_setLine _ _)
  · exact goes_issue (hj _ rfl) hpo hL (hph _) rfl rfl

end Verif.Ace
