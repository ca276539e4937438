import Verif.Ace.View
import Verif.Ace.Spec

/-!
# Who waits for what

The part of the state that decides progress: the transactions of the ports and the lists of the
interconnect.  Helper notions for the progress and accounting theorems.
-/

namespace Verif.Ace

structure Core where
  act : Nat → Option Act
  ov : List Nat
  ongoing : List Nat
  ds : List Nat

def State.core (s : State) : Core := ⟨fun p => (s.ports p).act, s.ov, s.ongoing, s.ds⟩

def Core.overlapping (c : Cfg) (k : Core) (t : Txn) : Bool :=
  k.ongoing.any fun q =>
    match k.act q with
    | none => false
    | some a => t.overlaps c a.txn

def Core.set (k : Core) (p : Nat) (x : Option Act) : Core := { k with act := upd k.act p x }

def Core.enter (c : Cfg) (k : Core) (p : Nat) (t : Txn) (job : Job) (next : Option Bus) : Core :=
  if t.cmd.snooping then
    if k.overlapping c t then
      { k.set p (some { txn := t, stage := .waiting, job, next }) with ov := k.ov ++ [p] }
    else
      { k.set p (some { txn := t, stage := firstStage c p, job, next }) with ongoing := k.ongoing ++ [p] }
  else
    { k.set p (some { txn := t, stage := .queued, job, next }) with
      ongoing := k.ongoing ++ [p], ds := k.ds ++ [p] }

variable {c : Cfg} {s : State} {p : Nat}

theorem core_overlapping (t : Txn) : s.overlapping c t = s.core.overlapping c t := by
  unfold State.overlapping Core.overlapping State.core State.txn?
  congr 1
  funext q
  rcases h : (s.ports q).act with _ | a <;> simp [h]

theorem core_setAct (x : Option Act) : (s.setAct p x).core = s.core.set p x := by
  simp only [State.core, Core.set, State.setAct, State.setPort, Core.mk.injEq, and_true]
  funext q
  simp only [upd]
  split <;> simp_all

theorem core_setPort {x : Port} (h : x.act = (s.ports p).act) : (s.setPort p x).core = s.core := by
  simp only [State.core, State.setPort, Core.mk.injEq, and_true]
  funext q
  split <;> simp_all

theorem core_setLine (k : LineId) (l : Line) : (s.setLine c p k l).core = s.core := core_setPort rfl
theorem core_flip : (s.flip p).core = s.core := core_setPort rfl
theorem core_setMem (k : LineId) (m : Mem) : (s.setMem k m).core = s.core := rfl
theorem core_emit (es : List Ev) : (s.emit es).core = s.core := rfl

theorem core_enter (t : Txn) (j : Job) (n : Option Bus) :
    (Verif.Ace.enter c s p t j n).core = s.core.enter c p t j n := by
  unfold Verif.Ace.enter Core.enter
  rw [core_overlapping]
  split
  · split
    · rw [← core_setAct]; rfl
    · rw [← core_setAct]; rfl
  · rw [← core_setAct]; rfl

/-! ## What a waiting port waits for -/

def Chunk.rds (k : Chunk) : List Acc := k.ws.map fun w => .rd k.key w.1
def Chunk.wrs (k : Chunk) : List Acc := k.ws.map fun w => .wr k.key w.1 w.2

/-- What is left of a request. -/
def Job.accs : Job → List Acc
  | .load cs => cs.flatMap Chunk.rds
  | .store cs => cs.flatMap Chunk.wrs
  | .maint .. => []

/-- What is left to be served for a port. -/
def pend : Option Act → List Acc
  | none => []
  | some a => if a.txn.cmd.isWr = true ∧ a.stage = .done then a.job.tail.accs else a.job.accs

/-- Reads that fill a line for a load. -/
def Bus.forLoad : Bus → Bool
  | .readShared | .readNotSharedDirty | .readClean => true
  | _ => false

/-- Transactions that get a line for a store. -/
def Bus.forStore : Bus → Bool
  | .readUnique | .makeUnique => true
  | _ => false

def Bus.isOut : Bus → Bool
  | .writeBack | .writeClean => true
  | _ => false

/-- Cache maintenance. -/
def Bus.isMaint : Bus → Bool
  | .cleanShared | .cleanInvalid | .makeInvalid => true
  | _ => false

/-- Masters that write straight through. -/
def Cfg.direct (c : Cfg) (p : Nat) : Prop := c.masters ≤ p ∨ c.wt p = true

/-- Which transactions a request of port `p` is in. -/
def JobTxn (c : Cfg) (p : Nat) (t : Txn) (next : Option Bus) : Job → Prop
  | .load [] | .store [] => False
  | .load (k :: _) =>
    (next = none ∧ t.key = k.key ∧ ((t.cmd = .readOnce ∧ c.masters ≤ p) ∨ (t.cmd.forLoad = true ∧ ¬ c.masters ≤ p))) ∨
    (t.cmd.isOut = true ∧ ¬ c.masters ≤ p ∧ ∃ b, next = some b ∧ b.forLoad = true)
  | .store (k :: _) =>
    (next = none ∧ t.key = k.key ∧ ((t.cmd.isWr = true ∧ t.ws = k.ws ∧ t.ok = false ∧ c.direct p) ∨
      (t.cmd = .cleanUnique ∧ ¬ c.direct p) ∨ (t.cmd.forStore = true ∧ t.shared = false ∧ ¬ c.direct p))) ∨
    (t.cmd.isOut = true ∧ ¬ c.direct p ∧ ∃ b, next = some b ∧ b.forStore = true)
  | .maint _ _ =>
    (next = none ∧ t.cmd.isMaint = true) ∨ (t.cmd.isOut = true ∧ next = some .cleanShared)

/-- A stage a transaction can be in. -/
def StageOk (c : Cfg) (t : Txn) : Stage → Prop
  | .waiting => t.cmd.snooping = true
  | .snoop todo => todo ≠ [] ∧ todo.length ≤ c.masters ∧ t.cmd.snooping = true
  | _ => True

structure ActWf (c : Cfg) (p : Nat) (a : Act) : Prop where
  job : JobTxn c p a.txn a.next a.job
  pos : ∀ k ∈ a.job.pieces, 0 < k.n
  range : a.txn.lo < a.txn.hi
  stage : StageOk c a.txn a.stage

/-- The lists say where the transactions are. -/
structure Lists (c : Cfg) (k : Core) : Prop where
  act : ∀ p a, k.act p = some a → ActWf c p a
  ovm : ∀ q, q ∈ k.ov ↔ ∃ a, k.act q = some a ∧ a.stage = .waiting
  ong : ∀ q, q ∈ k.ongoing ↔ ∃ a, k.act q = some a ∧ a.stage ≠ .waiting
  dsm : ∀ q, q ∈ k.ds ↔ ∃ a, k.act q = some a ∧ (a.stage = .clean ∨ a.stage = .queued)
  dsn : k.ds.Nodup

/-- ... and who waits, waits for somebody. -/
structure Wf (c : Cfg) (k : Core) : Prop extends Lists c k where
  wait : ∀ q a, k.act q = some a → a.stage = .waiting → k.overlapping c a.txn = true

theorem wf_init (mem : LineId → Mem) (junk : Nat → Nat → Mem) : Wf c (init mem junk).core := by
  refine ⟨⟨?_, ?_, ?_, ?_, ?_⟩, ?_⟩
  · intro p a h; exact nomatch h
  · intro q; simp [State.core, init]
  · intro q; simp [State.core, init]
  · intro q; simp [State.core, init]
  · simp [State.core, init]
  · intro p a h; exact nomatch h

variable {k : Core}

theorem overlapping_iff (t : Txn) : k.overlapping c t = true ↔
    ∃ q a, q ∈ k.ongoing ∧ k.act q = some a ∧ t.overlaps c a.txn = true := by
  unfold Core.overlapping
  rw [List.any_eq_true]
  constructor
  · rintro ⟨q, hq, h⟩
    rcases ha : k.act q with _ | a
    · rw [ha] at h; cases h
    · rw [ha] at h; exact ⟨q, a, hq, ha, h⟩
  · rintro ⟨q, a, hq, ha, h⟩
    exact ⟨q, hq, by rw [ha]; exact h⟩

theorem overlaps_congr {t u u' : Txn} (h1 : u'.key = u.key) (h2 : u'.lo = u.lo) (h3 : u'.hi = u.hi) :
    t.overlaps c u' = t.overlaps c u := by
  cases u; cases u'
  simp only at h1 h2 h3
  subst h1; subst h2; subst h3
  rfl

theorem overlaps_symm {t u : Txn} (ht : t.lo < t.hi) (hu : u.lo < u.hi) :
    t.overlaps c u = true → u.overlaps c t = true := by
  have h1 : 0 < t.len := Nat.sub_pos_of_lt ht
  have h2 : 0 < u.len := Nat.sub_pos_of_lt hu
  unfold Txn.overlaps Txn.inRange
  generalize t.start c = x, u.start c = y, t.len = a, u.len = b at *
  intro h
  simp only [Bool.or_eq_true, Bool.and_eq_true, decide_eq_true_eq] at h ⊢
  omega

/-- One transaction moves on, without leaving. -/
theorem Wf.move (h : Wf c k) {p : Nat} {a a' : Act} {ds' : List Nat} (ha : k.act p = some a)
    (h1 : a'.txn.key = a.txn.key) (h2 : a'.txn.lo = a.txn.lo) (h3 : a'.txn.hi = a.txn.hi)
    (hw : a.stage ≠ .waiting) (hw' : a'.stage ≠ .waiting) (hwf : ActWf c p a')
    (hds : ∀ q, q ≠ p → (q ∈ ds' ↔ q ∈ k.ds)) (hp : p ∈ ds' ↔ (a'.stage = .clean ∨ a'.stage = .queued))
    (hn : ds'.Nodup) : Wf c { k.set p (some a') with ds := ds' } := by
  have same : ∀ q, q ≠ p → upd k.act p (some a') q = k.act q := fun q hq => upd_ne _ _ hq
  refine ⟨⟨?_, ?_, ?_, ?_, hn⟩, ?_⟩
  · intro q b hb
    by_cases e : q = p
    · subst e
      simp only [Core.set, upd_same] at hb; cases hb; exact hwf
    · simp only [Core.set, same q e] at hb; exact h.act q b hb
  · intro q
    by_cases e : q = p
    · subst e
      simp only [Core.set, upd_same, h.ovm q, ha]
      simp [hw, hw']
    · simp only [Core.set, same q e, h.ovm q]
  · intro q
    by_cases e : q = p
    · subst e
      simp only [Core.set, upd_same, h.ong q, ha]
      simp [hw, hw']
    · simp only [Core.set, same q e, h.ong q]
  · intro q
    by_cases e : q = p
    · subst e
      simp only [Core.set, upd_same]
      simp [hp]
    · simp only [Core.set, same q e, hds q e, h.dsm q]
  · intro q b hb hst
    by_cases e : q = p
    · subst e
      simp only [Core.set, upd_same] at hb; cases hb; exact absurd hst hw'
    · simp only [Core.set, same q e] at hb
      obtain ⟨r, x, hr, hx, hov⟩ := (overlapping_iff _).1 (h.wait q b hb hst)
      refine (overlapping_iff _).2 ?_
      by_cases er : r = p
      · subst er
        rw [ha] at hx; cases hx
        exact ⟨r, a', hr, by simp [Core.set], by rw [overlaps_congr h1 h2 h3]; exact hov⟩
      · exact ⟨r, x, hr, by simp only [Core.set, same r er]; exact hx, hov⟩

/-- A new transaction. -/
theorem Wf.enter (h : Wf c k) {p : Nat} {t : Txn} {j : Job} {n : Option Bus} (hp : k.act p = none)
    (hj : JobTxn c p t n j) (hk : ∀ x ∈ j.pieces, 0 < x.n) (hr : t.lo < t.hi) : Wf c (k.enter c p t j n) := by
  have np : p ∉ k.ov ∧ p ∉ k.ongoing ∧ p ∉ k.ds := by
    refine ⟨?_, ?_, ?_⟩
    · rw [h.ovm, hp]; simp
    · rw [h.ong, hp]; simp
    · rw [h.dsm, hp]; simp
  have fs : firstStage c p ≠ .waiting ∧ firstStage c p ≠ .clean ∧ firstStage c p ≠ .queued := by
    unfold firstStage; split <;> simp
  have fo : t.cmd.snooping = true → StageOk c t (firstStage c p) := by
    intro hs
    unfold firstStage
    split
    · trivial
    · rename_i hne
      refine ⟨hne, ?_, hs⟩
      exact Nat.le_trans (List.length_filter_le _ _) (by simp)
  have gen : ∀ (st : Stage) (ov ong ds : List Nat), StageOk c t st →
      (∀ q, q ∈ ov ↔ q ∈ k.ov ∨ (q = p ∧ st = .waiting)) →
      (∀ q, q ∈ ong ↔ q ∈ k.ongoing ∨ (q = p ∧ st ≠ .waiting)) →
      (∀ q, q ∈ ds ↔ q ∈ k.ds ∨ (q = p ∧ (st = .clean ∨ st = .queued))) → ds.Nodup →
      (st = .waiting → k.overlapping c t = true) →
      Wf c { act := upd k.act p (some { txn := t, stage := st, job := j, next := n }), ov := ov, ongoing := ong, ds := ds } := by
    intro st ov ong ds hso ho hg hd hn hw
    have mono : ∀ u, k.overlapping c u = true → Core.overlapping c
        { act := upd k.act p (some { txn := t, stage := st, job := j, next := n }), ov := ov, ongoing := ong, ds := ds } u = true := by
      intro u hu
      obtain ⟨r, x, hr, hx, hov⟩ := (overlapping_iff _).1 hu
      have er : r ≠ p := fun e => np.2.1 (e ▸ hr)
      exact (overlapping_iff _).2 ⟨r, x, (hg r).2 (Or.inl hr), by simp only [upd_ne _ _ er]; exact hx, hov⟩
    refine ⟨⟨?_, ?_, ?_, ?_, hn⟩, ?_⟩
    · intro q b hb
      by_cases e : q = p
      · subst e
        simp only [upd_same] at hb; cases hb; exact ⟨hj, hk, hr, hso⟩
      · simp only [upd_ne _ _ e] at hb; exact h.act q b hb
    · intro q
      by_cases e : q = p
      · subst e; simp [ho, np.1]
      · simp only [ho, upd_ne _ _ e, e, false_and, or_false]; exact h.ovm q
    · intro q
      by_cases e : q = p
      · subst e; simp [hg, np.2.1]
      · simp only [hg, upd_ne _ _ e, e, false_and, or_false]; exact h.ong q
    · intro q
      by_cases e : q = p
      · subst e; simp [hd, np.2.2]
      · simp only [hd, upd_ne _ _ e, e, false_and, or_false]; exact h.dsm q
    · intro q b hb hst
      apply mono
      by_cases e : q = p
      · subst e
        simp only [upd_same] at hb; cases hb; exact hw hst
      · simp only [upd_ne _ _ e] at hb; exact h.wait q b hb hst
  unfold Core.enter
  split
  · rename_i hs
    split
    · rename_i ho
      exact gen .waiting _ _ _ hs (by simp) (by simp [Core.set]) (by simp [Core.set]) h.dsn (fun _ => ho)
    · exact gen (firstStage c p) _ _ _ (fo hs) (by simp [fs, Core.set]) (by simp [fs]) (by simp [fs, Core.set]) h.dsn
        (fun e => absurd e fs.1)
  · refine gen .queued _ _ _ trivial (by simp [Core.set]) (by simp) (by simp) ?_ (fun e => nomatch e)
    rw [List.nodup_append]
    refine ⟨h.dsn, by simp, ?_⟩
    intro a ha b hb e
    simp only [List.mem_singleton] at hb
    subst hb; subst e; exact np.2.2 ha

end Verif.Ace
