import Verif.Ace.Sim

/-!
# The invariant is kept: issuing transactions, restarting them, local changes of a cache
-/

set_option linter.unusedSimpArgs false

namespace Verif.Ace

variable {c : Cfg} {w : Bool} {m0 : LineId → Mem} {s : State}

theorem slot_line {k k' : LineId} (h : c.slot k = c.slot k') (p : Nat) : s.line c p k = s.line c p k' := by
  simp [State.line, h]

theorem setLine_slot {k k' : LineId} (h : c.slot k = c.slot k') (p : Nat) (l : Line) :
    s.setLine c p k l = s.setLine c p k' l := by
  simp [State.setLine, h]

theorem phys_inj {X K : LineId} (hX : X.2 = w) (hK : K.2 = w) (h : c.phys X = c.phys K) : X = K := by
  obtain ⟨x, a⟩ := X; obtain ⟨k, b⟩ := K
  simp only at hX hK
  subst hX; subst hK
  unfold Cfg.phys at h
  split at h
  · exact h
  · simp only [Prod.mk.injEq, and_true] at h; rw [h]

theorem phys_ds {K : LineId} (hK : K.2 = w) (hs : c.split = false ∨ w = true) :
    c.phys (dsKey K) = c.phys K := by
  obtain ⟨k, b⟩ := K
  simp only at hK
  subst hK
  unfold Cfg.phys dsKey
  rcases hs with hs | hs
  · simp [hs]
  · subst hs; rfl

theorem overlaps_same (hL : 0 < c.lineSz) {t u : Txn} (h : t.key = u.key)
    (ht : t.lo = 0 ∧ t.hi = c.lineSz) (hu : u.lo = 0 ∧ u.hi = c.lineSz) : t.overlaps c u = true := by
  have : u.inRange c (t.start c) = true := by
    simp [Txn.inRange, Txn.start, Txn.len, h, ht.1, hu.1, hu.2, hL]
  simp [Txn.overlaps, this]

theorem lineCopy_none {X : LineId} {l : Line} (h : l.valid = false) : lineCopy X l = none := by
  simp [lineCopy, h]

theorem lineCopy_some {X : LineId} {l : Line} {a : Copy} (h : lineCopy X l = some a) :
    l.valid = true ∧ l.key = X ∧ a = ⟨l.shared, l.dirty, l.data⟩ := by
  unfold lineCopy at h
  split at h
  · rename_i e; cases h; exact ⟨e.1, e.2, rfl⟩
  · cases h

theorem lineCopy_of {X : LineId} {l : Line} (h1 : l.valid = true) (h2 : l.key = X) :
    lineCopy X l = some ⟨l.shared, l.dirty, l.data⟩ := by
  simp [lineCopy, h1, h2]

theorem lineCopy_ne {X : LineId} {l : Line} (h : l.key ≠ X) : lineCopy X l = none := by
  simp [lineCopy, h]

theorem inCache_iff {p : Nat} {k : LineId} :
    s.inCache c p k = true ↔ (s.line c p k).valid = true ∧ (s.line c p k).key = k := by
  simp [State.inCache]

/-- Nobody else works on the line. -/
theorem Inv.noTx (h : Inv c w m0 s) (hL : 0 < c.lineSz) {t : Txn} (ht : t.lo = 0 ∧ t.hi = c.lineSz)
    (ho : s.overlapping c t = false) (q : Nat) : (viewOf c m0 s t.key).tx q = none := by
  show txOf t.key (s.ports q).act = none
  rcases ha : (s.ports q).act with _ | a
  · rfl
  · simp only [txOf]
    rw [if_neg]
    rintro ⟨e1, e2, -⟩
    have hq := h.ong q a ha e2
    have : s.overlapping c t = true := by
      simp only [State.overlapping, List.any_eq_true]
      refine ⟨q, hq, ?_⟩
      simp only [State.txn?, ha, Option.map_some]
      exact overlaps_same hL e1.symm ht (h.act q a ha).range
    rw [ho] at this; cases this

theorem TxnOk.setExec {lines : Nat → Line} {p : Nat} {t : Txn} {job : Job} {next : Option Bus}
    (h : TxnOk c w lines p t job next) (e : Bool) : TxnOk c w lines p { t with exec := e } job next :=
  { key := h.key, range := h.range, fine := h.fine, jobOk := h.jobOk, fill := h.fill, cu := h.cu
    out := h.out, outNext := h.outNext, nextOk := h.nextOk, wr := h.wr, wlu := h.wlu, ro := h.ro }

/-- Starting a transaction, at the level of its line. -/
theorem Inv.beginView (h : Inv c w m0 s) (hL : 0 < c.lineSz) {p : Nat} {t : Txn} {job : Job}
    {next : Option Bus} (htx : TxnOk c w (s.ports p).lines p t job next) (hf : Fresh t)
    (hsn : t.cmd.snooping = true) (ho : s.overlapping c t = false)
    (hwb : (viewOf c m0 s t.key).wb p = none) :
    LInv c.masters c.lineSz c.wt { viewOf c m0 s t.key with
      tx := upd (viewOf c m0 s t.key).tx p (some (t, firstStage c p)) } := by
  have hv := h.view t.key htx.key
  refine hv.begin hf (h.noTx hL htx.range ho) hwb htx.fine hsn (fun x => ?_) (fun x a ha => ?_)
    (fun x a ha => ?_)
  · rcases x with x | x
    · exact lineCopy_none (htx.fill x).2
    · rcases e : (viewOf c m0 s t.key).copy p with _ | a
      · rfl
      · exact absurd (hv.lite p a e) (Nat.not_lt.2 (htx.ro x).1)
  · obtain ⟨h1, h2, rfl⟩ := lineCopy_some ha
    exact ((htx.cu x).2.2 h1).2
  · rcases (htx.wr x).1 with e | e
    · exact absurd (hv.lite p a ha) (Nat.not_lt.2 e)
    · exact hv.wtc p a e ha

theorem txOf_ne {X : LineId} {a : Act} (h : a.txn.key ≠ X) : txOf X (some a) = none := by
  simp [txOf, h]
theorem wbOf_ne {X : LineId} {a : Act} (h : a.txn.key ≠ X) : wbOf X (some a) = none := by
  simp [wbOf, h]
theorem txOf_eq {X : LineId} {a : Act} (h : a.txn.key = X) (h1 : a.stage ≠ .waiting)
    (h2 : a.txn.cmd.snooping = true) : txOf X (some a) = some (a.txn, a.stage) := by
  simp [txOf, h, h1, h2]
theorem txOf_wait {X : LineId} {a : Act} (h : a.stage = .waiting) : txOf X (some a) = none := by
  simp [txOf, h]
theorem txOf_out {X : LineId} {a : Act} (h : a.txn.cmd.snooping = false) : txOf X (some a) = none := by
  simp [txOf, h]
theorem wbOf_in {X : LineId} {a : Act} (h : a.txn.cmd.snooping = true) : wbOf X (some a) = none := by
  simp [wbOf, h]
theorem wbOf_eq {X : LineId} {a : Act} (h : a.txn.key = X) (h2 : a.txn.cmd.snooping = false) :
    wbOf X (some a) = some (decide (a.stage = .done)) := by
  simp [wbOf, h, h2]

/-- The invariant after the transaction of a port changed. -/
theorem Inv.setActG (h : Inv c w m0 s) {p : Nat} {a : Act} {s' : State}
    (hs : s'.ports = (s.setAct p (some a)).ports) (hlog : Consistent m0 s'.log)
    (hong : ∀ q, q ∈ s.ongoing → q ∈ s'.ongoing) (hin : a.stage ≠ .waiting → p ∈ s'.ongoing)
    (ha : ActOk c w (s.ports p).lines p a)
    (hmem : ∀ X : LineId, X.2 = w → X ≠ a.txn.key → s'.mem (c.phys X) = s.mem (c.phys X))
    (hgold : ∀ X : LineId, X ≠ a.txn.key → replay m0 s'.log X = replay m0 s.log X)
    (hold : ∀ b, (s.ports p).act = some b → b.txn.key = a.txn.key)
    {x : Option (Txn × Stage)} {y : Option Bool} {m g : Mem}
    (hx : txOf a.txn.key (some a) = x) (hy : wbOf a.txn.key (some a) = y)
    (hm : s'.mem (c.phys a.txn.key) = m) (hg : replay m0 s'.log a.txn.key = g)
    (hview : LInv c.masters c.lineSz c.wt { viewOf c m0 s a.txn.key with
      tx := upd (viewOf c m0 s a.txn.key).tx p x
      wb := upd (viewOf c m0 s a.txn.key).wb p y
      mem := m, gold := g }) : Inv c w m0 s' := by
  subst hx; subst hy; subst hm; subst hg
  have hv : ∀ X, viewOf c m0 s' X = { viewOf c m0 s X with
      tx := upd (viewOf c m0 s X).tx p (txOf X (some a))
      wb := upd (viewOf c m0 s X).wb p (wbOf X (some a))
      mem := s'.mem (c.phys X), gold := replay m0 s'.log X } := by
    intro X
    have := view_setAct (c := c) (m0 := m0) (s := s) (X := X) p (some a)
    rw [show viewOf c m0 s' X = { viewOf c m0 (s.setAct p (some a)) X with
      mem := s'.mem (c.phys X), gold := replay m0 s'.log X } by
      simp [viewOf, State.line, hs], this]
  refine
    { line := fun q i hq => ?_, act := fun q b hb => ?_, ong := fun q b hb hst => ?_
      view := fun X hX => ?_, log := hlog }
  · rw [hs] at hq ⊢
    rw [setAct_lines] at hq ⊢
    exact h.line q i hq
  · rw [hs] at hb ⊢
    by_cases e : q = p
    · subst e
      rw [setAct_act] at hb; cases hb
      rw [setAct_lines]; exact ha
    · rw [setAct_ne _ _ e] at hb ⊢
      exact h.act q b hb
  · rw [hs] at hb
    by_cases e : q = p
    · subst e
      rw [setAct_act] at hb; cases hb
      exact hin hst
    · rw [setAct_ne _ _ e] at hb
      exact hong q (h.ong q b hb hst)
  · by_cases e : X = a.txn.key
    · subst e; rw [hv]; exact hview
    · rw [hv, hmem X hX e, hgold X e, txOf_ne (Ne.symm e), wbOf_ne (Ne.symm e), upd_self, upd_self]
      · exact h.view X hX
      · show wbOf X (s.ports p).act = none
        rcases e' : (s.ports p).act with _ | b
        · rfl
        · exact wbOf_ne (fun x => e (by rw [← hold b e', x]))
      · show txOf X (s.ports p).act = none
        rcases e' : (s.ports p).act with _ | b
        · rfl
        · exact txOf_ne (fun x => e (by rw [← hold b e', x]))

/-- The invariant after the transaction of a port changed. -/
theorem Inv.setAct (h : Inv c w m0 s) {p : Nat} {a : Act} {s' : State}
    (hs : s'.ports = (s.setAct p (some a)).ports) (hl : s'.log = s.log)
    (hong : ∀ q, q ∈ s.ongoing → q ∈ s'.ongoing) (hin : a.stage ≠ .waiting → p ∈ s'.ongoing)
    (ha : ActOk c w (s.ports p).lines p a)
    (hmem : ∀ X : LineId, X.2 = w → X ≠ a.txn.key → s'.mem (c.phys X) = s.mem (c.phys X))
    (hold : ∀ b, (s.ports p).act = some b → b.txn.key = a.txn.key)
    {x : Option (Txn × Stage)} {y : Option Bool} {m : Mem}
    (hx : txOf a.txn.key (some a) = x) (hy : wbOf a.txn.key (some a) = y)
    (hm : s'.mem (c.phys a.txn.key) = m)
    (hview : LInv c.masters c.lineSz c.wt { viewOf c m0 s a.txn.key with
      tx := upd (viewOf c m0 s a.txn.key).tx p x
      wb := upd (viewOf c m0 s a.txn.key).wb p y
      mem := m }) : Inv c w m0 s' :=
  h.setActG hs (by rw [hl]; exact h.log) hong hin ha hmem (fun X _ => by rw [hl]) hold hx hy hm rfl
    (by rw [hl]; exact hview)

/-- Issuing a transaction. -/
theorem Inv.issue (h : Inv c w m0 s) (hL : 0 < c.lineSz) {p : Nat} (hp : (s.ports p).act = none)
    {t : Txn} {job : Job} {next : Option Bus} (htx : TxnOk c w (s.ports p).lines p t job next)
    (hf : Fresh { t with exec := t.cmd == .readOnce }) : Inv c w m0 (issue c s p t job next) := by
  unfold Verif.Ace.issue
  have htx' := htx.setExec (t.cmd == .readOnce)
  generalize ({ t with exec := t.cmd == .readOnce } : Txn) = t' at hf htx' ⊢
  unfold enter
  have hold : ∀ b, (s.ports p).act = some b → b.txn.key = t'.key := by
    intro b hb; rw [hp] at hb; cases hb
  have hwb : ∀ X, (viewOf c m0 s X).wb p = none := by
    intro X; show wbOf X (s.ports p).act = none; rw [hp]; rfl
  have htn : ∀ X, (viewOf c m0 s X).tx p = none := by
    intro X; show txOf X (s.ports p).act = none; rw [hp]; rfl
  by_cases hsn : t'.cmd.snooping = true
  · rw [if_pos (by rw [hsn])]
    by_cases ho : s.overlapping c t' = true
    · rw [if_pos ho]
      refine h.setAct (a := ⟨t', .waiting, job, next⟩) rfl rfl (fun _ hq => hq) (fun e => absurd rfl e)
        { htx' with outStage := fun e => ?_, fresh := fun _ => hf } (fun _ _ _ => rfl) hold
        (txOf_wait rfl) (wbOf_in hsn) rfl ?_
      · simp only at e; rw [hsn] at e; cases e
      · rw [upd_self (htn _), upd_self (hwb _)]
        exact h.view _ htx'.key
    · rw [if_neg ho]
      have ho' : s.overlapping c t' = false := by simpa using ho
      have hfs : firstStage c p ≠ .waiting := by
        rcases firstStage_cases c p with e | ⟨l, e⟩ <;> rw [e] <;> simp
      refine h.setAct (a := ⟨t', firstStage c p, job, next⟩) rfl rfl
        (fun _ hq => List.mem_append_left _ hq) (fun _ => by simp)
        { htx' with outStage := fun e => ?_, fresh := fun e => absurd e hfs } (fun _ _ _ => rfl) hold
        (txOf_eq rfl hfs hsn) (wbOf_in hsn) rfl ?_
      · simp only at e; rw [hsn] at e; cases e
      · rw [upd_self (hwb _)]
        exact h.beginView hL htx' hf hsn ho' (hwb _)
  · rw [if_neg (by simpa using hsn)]
    have hsn' : t'.cmd.snooping = false := by simpa using hsn
    refine h.setAct (a := ⟨t', .queued, job, next⟩) rfl rfl
      (fun _ hq => List.mem_append_left _ hq) (fun _ => by simp)
      { htx' with outStage := fun e => Or.inl rfl, fresh := fun e => (nomatch e) } (fun _ _ _ => rfl) hold
      (txOf_out hsn') (wbOf_eq rfl hsn') rfl ?_
    rw [upd_self (htn _)]
    obtain ⟨o1, o2, o3⟩ := htx'.out hsn'
    exact (h.view _ htx'.key).wbBegin (lineCopy_of o1 o2) o3 (htn _)

theorem Inv.flip (h : Inv c w m0 s) (p : Nat) : Inv c w m0 (s.flip p) := by
  have h1 : ∀ q, ((s.flip p).ports q).act = (s.ports q).act ∧ ((s.flip p).ports q).lines = (s.ports q).lines := by
    intro q
    by_cases e : q = p
    · subst e; simp [State.flip]
    · rw [State.flip, setPort_ne _ _ e]; exact ⟨rfl, rfl⟩
  refine
    { line := fun q i hq => ?_, act := fun q b hb => ?_, ong := fun q b hb hst => ?_
      view := fun X hX => by rw [view_flip]; exact h.view X hX, log := h.log }
  · rw [(h1 q).2] at hq ⊢; exact h.line q i hq
  · rw [(h1 q).1] at hb; rw [(h1 q).2]; exact h.act q b hb
  · rw [(h1 q).1] at hb; exact h.ong q b hb hst

theorem flip_act (s : State) (p : Nat) : ((s.flip p).ports p).act = (s.ports p).act := by
  simp [State.flip]
theorem flip_line (s : State) (p : Nat) (k : LineId) : (s.flip p).line c p k = s.line c p k := by
  simp [State.flip, State.line]

/-- The invariant after an idle port changed one of its lines, and perhaps stored something. -/
theorem Inv.setLine (h : Inv c w m0 s) {p : Nat} (hp : (s.ports p).act = none) {K : LineId} {l : Line}
    {s' : State} (hs : s'.ports = (s.setLine c p K l).ports) (hong : s'.ongoing = s.ongoing)
    (hmem : s'.mem = s.mem) (hlog : Consistent m0 s'.log)
    (hgold : ∀ X, X ≠ K → replay m0 s'.log X = replay m0 s.log X)
    (hk : l.valid = true → l.key = K) (hK : K.2 = w)
    (hk2 : (s.line c p K).valid = true → (s.line c p K).key = K)
    {x : Option Copy} {g : Mem} (hx : lineCopy K l = x) (hg : replay m0 s'.log K = g)
    (hview : LInv c.masters c.lineSz c.wt { viewOf c m0 s K with
      copy := upd (viewOf c m0 s K).copy p x
      gold := g }) : Inv c w m0 s' := by
  subst hx; subst hg
  have hv : ∀ X, viewOf c m0 s' X = { viewOf c m0 (s.setLine c p K l) X with
      gold := replay m0 s'.log X } := by
    intro X
    simp [viewOf, State.line, hs, hmem]; rfl
  refine
    { line := fun q i hq => ?_, act := fun q b hb => ?_, ong := fun q b hb hst => ?_
      view := fun X hX => ?_, log := hlog }
  · rw [hs] at hq ⊢
    by_cases e : q = p
    · subst e
      rw [setLine_lines] at hq ⊢
      split at hq
      · rename_i e; rw [if_pos e, hk hq]; exact ⟨e.symm, hK⟩
      · rename_i e; rw [if_neg e]; exact h.line q i hq
    · rw [setLine_ne _ _ _ _ e] at hq ⊢; exact h.line q i hq
  · rw [hs, setLine_act] at hb
    have e : q ≠ p := by rintro rfl; rw [hp] at hb; cases hb
    rw [hs, setLine_ne _ _ _ _ e]
    exact h.act q b hb
  · rw [hs, setLine_act] at hb
    rw [hong]; exact h.ong q b hb hst
  · by_cases e : X = K
    · subst e
      rw [hv, view_setLine, if_pos rfl]
      exact hview
    · rw [hv, view_setLine_other (Ne.symm e) hk hk2, hgold X e]
      exact h.view X hX

/-- A clean line is dropped. -/
theorem Inv.dropLine (h : Inv c w m0 s) {p : Nat} (hp : (s.ports p).act = none) {k : LineId}
    (hv : (s.line c p k).valid = true) (hd : (s.line c p k).dirty = false) :
    Inv c w m0 (s.setLine c p k { s.line c p k with valid := false }) := by
  obtain ⟨e1, e2⟩ := h.line p (c.slot k) hv
  have e1' : c.slot (s.line c p k).key = c.slot k := e1
  rw [← setLine_slot e1' p]
  have hl := slot_line (s := s) e1' p
  refine h.setLine hp (K := (s.line c p k).key) rfl rfl rfl h.log (fun _ _ => rfl) nofun e2
    (fun _ => by rw [hl]) (lineCopy_none rfl) rfl ?_
  exact (h.view _ e2).drop (a := ⟨(s.line c p k).shared, (s.line c p k).dirty, (s.line c p k).data⟩)
    (by show lineCopy _ (s.line c p (s.line c p k).key) = _; rw [hl]; exact lineCopy_of hv rfl) hd

/-- A store to a unique line. -/
theorem Inv.storeLine (h : Inv c w m0 s) {p : Nat} (hp : (s.ports p).act = none) {k : LineId}
    (hk : k.2 = w) (hin : s.inCache c p k = true) (hu : (s.line c p k).shared = false)
    (hwt : c.wt p = false) (ws : List (Nat × Byte)) :
    Inv c w m0 ((s.setLine c p k { s.line c p k with
      data := writeBytes (s.line c p k).data ws, dirty := true }).emit
        (ws.map fun e => .wr p k e.1 e.2)) := by
  obtain ⟨h1, h2⟩ := inCache_iff.1 hin
  have hr : ∀ X, replay m0 (s.log ++ ws.map fun e => .wr p k e.1 e.2) X =
      if X = k then writeBytes (replay m0 s.log X) ws else replay m0 s.log X := by
    intro X; rw [replay_append, replay_wrs]
  refine h.setLine hp (K := k)
    (l := { s.line c p k with data := writeBytes (s.line c p k).data ws, dirty := true })
    rfl rfl rfl ?_ (fun X e => ?_) (fun _ => h2) hk (fun _ => h2)
    (lineCopy_of h1 h2) ((hr k).trans (if_pos rfl)) ?_
  · exact (consistent_append _ _ _).2 ⟨h.log, consistent_wrs ..⟩
  · show replay m0 (s.log ++ _) X = _
    rw [hr, if_neg e]
  · exact (h.view k hk).store (a := ⟨(s.line c p k).shared, (s.line c p k).dirty, (s.line c p k).data⟩)
      (lineCopy_of h1 h2) hu (by show txOf k (s.ports p).act = none; rw [hp]; rfl)
      (by show wbOf k (s.ports p).act = none; rw [hp]; rfl) hwt ws

/-- Bytes read are logged. -/
theorem Inv.emitRd (h : Inv c w m0 s) (p : Nat) (k : LineId) (f : Nat → Byte) (ws : List (Nat × Byte))
    (hf : ∀ e ∈ ws, f e.1 = replay m0 s.log k e.1) :
    Inv c w m0 (s.emit (ws.map fun e => .rd p k e.1 (f e.1))) :=
  { line := h.line, act := h.act, ong := h.ong
    view := fun X hX => by
      rw [view_emit, replay_rds]
      exact h.view X hX
    log := (consistent_append _ _ _).2 ⟨h.log, consistent_rds _ _ _ _ _ hf⟩ }

theorem fresh_lineTxn (c : Cfg) (cmd : Bus) (k : LineId) :
    Fresh { lineTxn c cmd k with exec := (lineTxn c cmd k).cmd == .readOnce } :=
  ⟨rfl, rfl, rfl, rfl, rfl, rfl⟩

/-! ## Restarting -/

theorem Inv.restart1 (h : Inv c w m0 s) (hL : 0 < c.lineSz) (t : Txn) (q : Nat) :
    Inv c w m0 (restart1 c t s q) := by
  unfold Verif.Ace.restart1
  rcases ha : (s.ports q).act with _ | a
  · exact h
  · dsimp only
    by_cases hb : (t.overlaps c a.txn && !s.overlapping c a.txn) = true
    · rw [if_pos hb]
      have ho : s.overlapping c a.txn = false := by simp at hb; exact hb.2
      have hA := h.act q a ha
      have hw : a.stage = .waiting := by
        apply Classical.byContradiction
        intro hn
        have hq := h.ong q a ha hn
        have : s.overlapping c a.txn = true := by
          simp only [State.overlapping, List.any_eq_true]
          refine ⟨q, hq, ?_⟩
          simp only [State.txn?, ha, Option.map_some]
          exact overlaps_same hL rfl hA.range hA.range
        rw [ho] at this; cases this
      have hsn : a.txn.cmd.snooping = true := by
        cases e : a.txn.cmd.snooping
        · rcases hA.outStage e with x | x <;> rw [hw] at x <;> cases x
        · rfl
      have hfs : firstStage c q ≠ .waiting := by
        rcases firstStage_cases c q with e | ⟨l, e⟩ <;> rw [e] <;> simp
      have hwb : ∀ X, (viewOf c m0 s X).wb q = none := by
        intro X; show wbOf X (s.ports q).act = none; rw [ha]; exact wbOf_in hsn
      refine h.setAct (a := { a with stage := firstStage c q }) rfl rfl
        (fun _ hq => List.mem_append_left _ hq) (fun _ => by simp)
        { hA.toTxnOk with outStage := fun e => ?_, fresh := fun e => absurd e hfs } (fun _ _ _ => rfl)
        (fun b hb => by rw [ha] at hb; cases hb; rfl)
        (txOf_eq rfl hfs hsn) (wbOf_in hsn) rfl ?_
      · rw [show a.txn.cmd.snooping = true from hsn] at e; cases e
      · rw [upd_self (hwb _)]
        exact h.beginView hL hA.toTxnOk (hA.fresh hw) hsn ho (hwb _)
    · rw [if_neg hb]; exact h

theorem restart1_act {t : Txn} {p q : Nat} (hp : (s.ports p).act = none) :
    ((restart1 c t s q).ports p).act = none := by
  unfold Verif.Ace.restart1
  rcases ha : (s.ports q).act with _ | a
  · exact hp
  · have e : p ≠ q := by rintro rfl; rw [hp] at ha; cases ha
    dsimp only
    split
    · show ((s.setAct q _).ports p).act = none
      rw [setAct_ne _ _ e]; exact hp
    · exact hp

theorem restart1_lines (t : Txn) (p q : Nat) : ((restart1 c t s q).ports p).lines = (s.ports p).lines := by
  unfold Verif.Ace.restart1
  rcases ha : (s.ports q).act with _ | a
  · rfl
  · dsimp only
    split
    · exact setAct_lines ..
    · rfl

theorem setLine_setAct (s : State) (c : Cfg) (p q : Nat) (k : LineId) (l : Line) (a : Option Act) :
    (s.setLine c p k l).setAct q a = (s.setAct q a).setLine c p k l := by
  simp only [State.setLine, State.setAct, State.setPort]
  congr 1
  funext r
  by_cases h1 : r = q <;> by_cases h2 : r = p <;> by_cases h3 : p = q <;>
    simp_all

theorem overlapping_congr {s' : State} {t : Txn} (h1 : s'.ongoing = s.ongoing)
    (h2 : ∀ q, (s'.ports q).act = (s.ports q).act) : s'.overlapping c t = s.overlapping c t := by
  simp only [State.overlapping, State.txn?, h1, h2]

theorem restart1_setLine (t : Txn) (p q : Nat) (k : LineId) (l : Line) :
    restart1 c t (s.setLine c p k l) q = (restart1 c t s q).setLine c p k l := by
  have ho : ∀ u, (s.setLine c p k l).overlapping c u = s.overlapping c u := fun u =>
    overlapping_congr rfl (fun q => setLine_act ..)
  unfold Verif.Ace.restart1
  rw [setLine_act]
  rcases ha : (s.ports q).act with _ | a
  · rfl
  · dsimp only
    rw [ho]
    split
    · rw [setLine_setAct]
      rfl
    · rfl

theorem restart1_emit (t : Txn) (q : Nat) (es : List Ev) :
    restart1 c t (s.emit es) q = (restart1 c t s q).emit es := by
  unfold Verif.Ace.restart1
  show (match (s.ports q).act with | none => _ | some a => _) = _
  rcases ha : (s.ports q).act with _ | a
  · rfl
  · dsimp only
    rw [show (s.emit es).overlapping c a.txn = s.overlapping c a.txn from rfl]
    split <;> rfl

theorem foldl_restart {P : State → Prop} {t : Txn} (h : ∀ s q, P s → P (restart1 c t s q)) :
    ∀ (l : List Nat) (s : State), P s → P (l.foldl (restart1 c t) s)
  | [], _, hs => hs
  | q :: l, s, hs => foldl_restart h l _ (h s q hs)

theorem Inv.restart (h : Inv c w m0 s) (hL : 0 < c.lineSz) (t : Txn) : Inv c w m0 (restart c t s) :=
  foldl_restart (P := Inv c w m0) (fun _ q h => h.restart1 hL t q) _ _ h

theorem restart_act {t : Txn} {p : Nat} (hp : (s.ports p).act = none) :
    ((restart c t s).ports p).act = none :=
  foldl_restart (P := fun s => (s.ports p).act = none) (fun _ _ h => restart1_act h) _ _ hp

theorem restart_lines (t : Txn) (p : Nat) : ((restart c t s).ports p).lines = (s.ports p).lines :=
  foldl_restart (P := fun s' => (s'.ports p).lines = (s.ports p).lines)
    (fun _ _ h => (restart1_lines ..).trans h) _ _ rfl

theorem restart_line (t : Txn) (p : Nat) (k : LineId) : (restart c t s).line c p k = s.line c p k := by
  simp [State.line, restart_lines]

theorem restart_setLine (t : Txn) (p : Nat) (k : LineId) (l : Line) :
    restart c t (s.setLine c p k l) = (restart c t s).setLine c p k l := by
  unfold Verif.Ace.restart
  show s.ov.foldl _ _ = _
  generalize s.ov = ov
  induction ov generalizing s with
  | nil => rfl
  | cons q ov ih => rw [List.foldl_cons, restart1_setLine, ih]; rfl

theorem restart_emit (t : Txn) (es : List Ev) :
    restart c t (s.emit es) = (restart c t s).emit es := by
  unfold Verif.Ace.restart
  show s.ov.foldl _ _ = _
  generalize s.ov = ov
  induction ov generalizing s with
  | nil => rfl
  | cons q ov ih => rw [List.foldl_cons, restart1_emit, ih]; rfl

theorem restart_inCache (t : Txn) (p : Nat) (k : LineId) :
    (restart c t s).inCache c p k = s.inCache c p k := by
  simp [State.inCache, restart_line]

/-- Restarting waiting transactions does not interfere with what the initiator does to its cache. -/
theorem commit_restart (t : Txn) (p : Nat) (a : Act) :
    commit c p (restart c t s) a = restart c t (commit c p s a) := by
  unfold commit
  dsimp only
  rw [restart_line, restart_inCache]
  cases a.txn.cmd <;> dsimp only <;> try rw [restart_setLine]
  · split <;> first | rw [restart_setLine] | rfl
  · cases a.job.pieces
    · rfl
    · exact (restart_emit ..).symm
  · split <;> first | rw [restart_setLine] | rfl
  · split <;> first | rw [restart_setLine] | rfl
  · cases a.job <;> dsimp only <;> rw [restart_setLine]

end Verif.Ace
