import Verif.ChiLive.Keep

/-! # The request being served can always be served to its end -/

namespace Verif.ChiLive

open Verif.ChiCoh

/-- The steps that serve the current request. -/
def Svc : Label → Bool
  | .snoop _ | .resp _ _ | .snAck | .memRead | .rxDat | .rxComp | .rxDbid | .wrDat | .snWr | .ack => true
  | _ => false

/-! ### A measure of what is left to do -/

def rank : Phase → Nat
  | .ack => 1
  | .wrMem .. => 2
  | .wr .. => 3
  | .dbid | .comp | .dat .. => 4
  | .rdMem => 5
  | .wrDirty => 6
  | .snoop => 7

def left1 : SnpSt → Nat
  | .sent => 2
  | .handled _ => 1
  | _ => 0

def pend (n : Nat) (f : Nat → SnpSt) : Nat := ((List.range n).map fun j => left1 (f j)).sum

def todo (n : Nat) (k : Cur) : Nat := rank k.phase + pend n k.snp

theorem pend_upd (f : Nat → SnpSt) (j : Nat) (x : SnpSt) : ∀ n, pend n (upd f j x) + (if j < n then left1 (f j) else 0) =
    pend n f + (if j < n then left1 x else 0)
  | 0 => by simp [pend]
  | n + 1 => by
    have ih := pend_upd f j x n
    unfold pend at *
    rw [List.range_succ, List.map_append, List.map_append, List.sum_append, List.sum_append]
    simp only [List.map_cons, List.map_nil, List.sum_cons, List.sum_nil]
    by_cases c : j = n
    · subst c
      rw [if_neg (Nat.lt_irrefl j), if_neg (Nat.lt_irrefl j)] at ih
      rw [if_pos (Nat.lt_succ_self j), if_pos (Nat.lt_succ_self j), upd_same]
      omega
    · rw [upd_ne f j x (fun e => c e.symm)]
      by_cases d : j < n
      · rw [if_pos d, if_pos d] at ih
        rw [if_pos (by omega), if_pos (by omega)]; omega
      · rw [if_neg d, if_neg d] at ih
        rw [if_neg (by omega), if_neg (by omega)]; omega

theorem rank_early {p : Phase} (h : p.early = true) : rank p ≤ 7 := by cases p <;> simp [rank]

/-- **A serving step exists** and brings the request nearer its end. -/
theorem serve_step {cfg : Cfg} (hl : cfg.link = true) {s : St} (h : WF cfg s) {k : Cur} (hc : s.cur = some k) :
    ∃ l s' es, Svc l = true ∧ step cfg s l = .next s' es ∧
      ∀ k', s'.cur = some k' → todo cfg.n k' < todo cfg.n k := by
  have K := h.k k hc
  have P := K.ph
  unfold POk at P
  cases hp : k.phase with
  | snoop =>
    obtain ⟨j, j1, j2, j3⟩ := K.open' hp
    rw [hp] at P
    cases hj : k.snp j with
    | off => exact absurd hj j2
    | done => exact absurd hj j3
    | sent =>
      obtain ⟨op, ho⟩ := Option.isSome_iff_exists.1 P
      refine ⟨.snoop j, { setCache s j { s.cache j with
            slot := upd (s.cache j).slot (k.tag % cfg.num) (snpLine op k.tag ((s.cache j).slot (k.tag % cfg.num))).1 } with
          cur := some { k with
            snp := upd k.snp j (.handled (snpLine op k.tag ((s.cache j).slot (k.tag % cfg.num))).2) } }, [],
        rfl, ?_, ?_⟩
      · simp only [step, stepSnoop]
        rw [hc]
        simp only
        rw [hj, ho]
      · intro k' hk'
        injection hk' with hk'
        subst hk'
        have := pend_upd k.snp j (.handled (snpLine op k.tag ((s.cache j).slot (k.tag % cfg.num))).2) cfg.n
        rw [if_pos j1, if_pos j1, hj] at this
        simp only [left1] at this
        show rank k.phase + pend cfg.n (upd k.snp j _) < rank k.phase + pend cfg.n k.snp
        omega
    | handled r =>
      refine ⟨.resp j noBytes, { s with
        filt := if r.valid then s.filt else updFilt s.filt j k.tag false
        cur := some (takeResp cfg k j r ((s.cache j).slot (k.tag % cfg.num)) noBytes) }, [], rfl, ?_, ?_⟩
      · simp only [step, stepResp]
        rw [hc]
        simp only
        rw [hj]
      · intro k' hk'
        injection hk' with hk'
        obtain ⟨_, b, _, _, _, f⟩ := takeResp_ok K hj ((s.cache j).slot (k.tag % cfg.num)) noBytes
        rw [hk'] at b f
        have := pend_upd k.snp j .done cfg.n
        rw [if_pos j1, if_pos j1, hj] at this
        simp only [left1] at this
        have := rank_early b
        unfold todo
        rw [f, hp, show rank Phase.snoop = 7 from rfl]
        omega
  | wrDirty =>
    rw [hp] at P
    obtain ⟨_, b, c, d, e⟩ := procSnpd_cok K (K.closed (by rw [hp]; nofun)) P false
    refine ⟨.snAck, { s with posted := s.posted ++ [(k.tag, k.data, k.be)]
                             cur := some (procSnpd { k with pd := false }) }, [], rfl, ?_, ?_⟩
    · simp only [step, stepSnAck]
      rw [hc]
      simp only
      rw [hp]
    · intro k' hk'
      injection hk' with hk'
      rw [hk'] at b c d e
      have d := d rfl
      unfold todo
      rw [c.snp, hp]
      simp only [rank]
      cases hq : k'.phase <;> rw [hq] at b d e <;> first
        | exact absurd rfl d
        | exact absurd rfl e
        | (cases b; done)
        | simp [rank]
  | rdMem =>
    refine ⟨.memRead, { s with cur := some { k with
        phase := .dat (if k.shared || k.pd then ⟨true, k.shared, k.pd⟩ else .uc) (s.mem k.tag)
                   (if cfg.link then some allBytes else none) } }, [], rfl, ?_, ?_⟩
    · simp only [step, stepMemRead]
      rw [hc]
      simp only
      rw [hp]
    · intro k' hk'
      injection hk' with hk'
      subst hk'
      unfold todo
      rw [hp]
      simp [rank]
  | dat g d e =>
    rw [hp] at P
    obtain ⟨w, w1, _⟩ := h.early k hc (by rw [hp]; rfl)
    have hx : ∃ ca, rxDatCache cfg.num k g d e w (s.cache k.src) = some ca := by
      unfold rxDatCache
      split
      · obtain ⟨b, hb⟩ := Option.isSome_iff_exists.1 P.1
        rw [hb]; exact ⟨_, rfl⟩
      · exact ⟨_, rfl⟩
    obtain ⟨ca, hca⟩ := hx
    refine ⟨.rxDat, { setCache s k.src ca with cur := some { k with phase := .ack } }, [], rfl, ?_, ?_⟩
    · simp only [step, stepRxDat]
      rw [hc]
      simp only
      rw [hp, w1]
      simp only
      rw [hca]
    · intro k' hk'
      injection hk' with hk'
      subst hk'
      unfold todo
      rw [hp]
      simp [rank]
  | comp =>
    obtain ⟨w, w1, _⟩ := h.early k hc (by rw [hp]; rfl)
    refine ⟨.rxComp, { setCache s k.src (rxCompCache cfg.num w (s.cache k.src)) with
      cur := some { k with phase := .ack } }, [], rfl, ?_, ?_⟩
    · simp only [step, stepRxComp]
      rw [hc]
      simp only
      rw [hp, w1]
    · intro k' hk'
      injection hk' with hk'
      subst hk'
      unfold todo
      rw [hp]
      simp [rank]
  | dbid =>
    obtain ⟨w, w1, _⟩ := h.early k hc (by rw [hp]; rfl)
    refine ⟨.rxDbid, { setCache s k.src (rxDbidCache cfg.num w (s.cache k.src)).1 with
      cur := some { k with phase := (rxDbidCache cfg.num w (s.cache k.src)).2 } },
      (if w.op.isWrU then [.commit k.src] else []), rfl, ?_, ?_⟩
    · simp only [step, stepRxDbid]
      rw [hc]
      simp only
      rw [hp, w1]
    · intro k' hk'
      injection hk' with hk'
      subst hk'
      have := (rxDbid_pc cfg.num w (s.cache k.src)).2
      unfold todo
      rw [hp]
      simp only [rank]
      cases hq : (rxDbidCache cfg.num w (s.cache k.src)).2 <;> rw [hq] at this <;> first
        | (cases this; done)
        | simp [rank]
  | wr pd d e =>
    refine ⟨.wrDat, { s with
        filt := if k.kind.isWrU then s.filt else filtEnd k.kind s.filt k.src k.tag
        cur := if pd then some { k with phase := .wrMem d e } else none }, [], rfl, ?_, ?_⟩
    · simp only [step, stepWrDat]
      rw [hc]
      simp only
      rw [hp]
    · intro k' hk'
      have hk' : (if pd = true then some { k with phase := .wrMem d e } else none : Option Cur) = some k' := hk'
      split at hk'
      · injection hk' with hk'
        subst hk'
        unfold todo
        rw [hp]
        simp [rank]
      · cases hk'
  | wrMem d e =>
    refine ⟨.snWr, { s with
        posted := s.posted ++ [(k.tag, d, e)]
        cur := if k.exp then some { k with phase := .ack } else none }, [], rfl, ?_, ?_⟩
    · simp only [step, stepSnWr]
      rw [hc]
      simp only
      rw [hp]
    · intro k' hk'
      have hk' : (if k.exp = true then some { k with phase := .ack } else none : Option Cur) = some k' := hk'
      split at hk'
      · injection hk' with hk'
        subst hk'
        unfold todo
        rw [hp]
        simp [rank]
      · cases hk'
  | ack =>
    refine ⟨.ack, { s with
        filt := if k.kind.isWrU then s.filt else filtEnd k.kind s.filt k.src k.tag
        cur := none }, [], rfl, ?_, ?_⟩
    · simp only [step, stepAck]
      rw [hc]
      simp only
      rw [hp]
    · intro k' hk'
      have hk' : (none : Option Cur) = some k' := hk'
      cases hk'

/-! ### What serving does for the requester -/

/-- The same transaction, possibly further on. -/
structure Like (w0 w : Wait) : Prop where
  c : w.c = w0.c
  f : w.f = w0.f
  op : w.op = w0.op
  tag : w.tag = w0.tag

/-- The answer has been put into the cache. -/
structure Post (cfg : Cfg) (op : Kind) (tag : Nat) (ca : Cache) : Prop where
  rd : op.isRd = true → (ca.slot (tag % cfg.num)).valid = true ∧ (ca.slot (tag % cfg.num)).tag = tag ∧
    (ca.slot (tag % cfg.num)).full = true ∧ (op = .readUnique → (ca.slot (tag % cfg.num)).shared = false)
  un : op = .cleanUnique ∨ op = .makeUnique → (ca.slot (tag % cfg.num)).valid = true ∧
    (ca.slot (tag % cfg.num)).tag = tag ∧ (ca.slot (tag % cfg.num)).shared = false

/-- Transaction `w0` of cache `i` has been answered. -/
def Answered (cfg : Cfg) (i : Nat) (w0 : Wait) (s : St) : Prop :=
  ∃ w, (s.cache i).pc = some w ∧ Like w0 w ∧ w.st = .done ∧ Post cfg w0.op w0.tag (s.cache i)

/-- Transaction `w0` of cache `i` is being served, or has been and nothing is. -/
def Served (cfg : Cfg) (i : Nat) (w0 : Wait) (s : St) : Prop :=
  match s.cur with
  | none => Answered cfg i w0 s
  | some k => k.src = i ∧ k.kind = w0.op ∧ k.tag = w0.tag ∧
      if k.phase.early then ∃ w, (s.cache i).pc = some w ∧ Like w0 w else Answered cfg i w0 s

theorem rxDat_post {cfg : Cfg} {k : Cur} {g : Grant} {d : Data} {e : Option Be} {w : Wait} {ca ca' : Cache}
    (hg : k.kind.isRd = true → g.valid = true ∧ (k.kind = .readUnique → g.shared = false))
    (hk : k.kind.isRd = true ∨ k.kind.isOnce = true)
    (h : rxDatCache cfg.num k g d e w ca = some ca') : Post cfg k.kind w.tag ca' := by
  have hnc : ¬ (k.kind = .cleanUnique ∨ k.kind = .makeUnique) := by
    revert hk; cases k.kind <;> simp [Kind.isRd, Kind.isOnce]
  refine ⟨fun hr => ?_, fun hc => absurd hc hnc⟩
  have ho : k.kind.isOnce = false := by revert hr; cases k.kind <;> simp [Kind.isRd, Kind.isOnce]
  unfold rxDatCache at h
  rw [ho] at h
  simp only [Bool.false_eq_true, if_false] at h
  injection h with h
  subst h
  obtain ⟨g1, g2⟩ := hg hr
  simp only [upd_same, g1, if_true]
  refine ⟨trivial, trivial, ?_, g2⟩
  simp [Line.full, allBytes]

theorem rxComp_post {cfg : Cfg} {w : Wait} {ca : Cache} (hk : w.op = .cleanUnique ∨ w.op = .makeUnique) :
    Post cfg w.op w.tag (rxCompCache cfg.num w ca) := by
  refine ⟨fun hr => ?_, fun _ => ?_⟩
  · exfalso; rcases hk with e | e <;> rw [e] at hr <;> cases hr
  · unfold rxCompCache
    simp only [upd_same]
    exact ⟨trivial, trivial, trivial⟩

theorem post_none {cfg : Cfg} {op : Kind} {tag : Nat} {ca : Cache} (h : op.isCb = true ∨ op.isWrU = true) :
    Post cfg op tag ca := by
  refine ⟨fun hr => ?_, fun hr => ?_⟩ <;> exfalso <;> revert h hr <;>
    cases op <;> simp [Kind.isCb, Kind.isWrU, Kind.isRd]

/-- An early step: the requester's cache is untouched. -/
theorem served_move {cfg : Cfg} {s s' : St} {i : Nat} {w0 : Wait} {k k' : Cur} (h : Served cfg i w0 s)
    (hc : s.cur = some k) (he : k.phase.early = true) (hp : (s'.cache k.src).pc = (s.cache k.src).pc)
    (hc' : s'.cur = some k') (he' : k'.phase.early = true) (e1 : k'.src = k.src) (e2 : k'.kind = k.kind)
    (e3 : k'.tag = k.tag) : Served cfg i w0 s' := by
  unfold Served at h ⊢
  rw [hc] at h
  rw [hc']
  obtain ⟨a, b, c, d⟩ := h
  rw [if_pos he] at d
  refine ⟨e1.trans a, e2.trans b, e3.trans c, ?_⟩
  rw [if_pos he']
  rw [a] at hp
  rw [hp]; exact d

/-- A late step: no cache is touched. -/
theorem served_late {cfg : Cfg} {s s' : St} {i : Nat} {w0 : Wait} {k : Cur} (h : Served cfg i w0 s)
    (hc : s.cur = some k) (he : k.phase.early = false) (hp : s'.cache = s.cache)
    (hk : ∀ k', s'.cur = some k' → k'.src = k.src ∧ k'.kind = k.kind ∧ k'.tag = k.tag ∧ k'.phase.early = false) :
    Served cfg i w0 s' := by
  unfold Served at h ⊢
  rw [hc] at h
  obtain ⟨a, b, c, d⟩ := h
  simp only [he, Bool.false_eq_true, if_false] at d
  have d' : Answered cfg i w0 s' := by unfold Answered at d ⊢; rw [hp]; exact d
  cases hc' : s'.cur with
  | none => exact d'
  | some k' =>
    obtain ⟨x1, x2, x3, x4⟩ := hk k' hc'
    refine ⟨x1.trans a, x2.trans b, x3.trans c, ?_⟩
    simp only [x4, Bool.false_eq_true, if_false]
    exact d'

/-- The answer arrives. -/
theorem served_answer {cfg : Cfg} {s s' : St} {i : Nat} {w0 w w' : Wait} {k k' : Cur} (h : Served cfg i w0 s)
    (hc : s.cur = some k) (he : k.phase.early = true) (hw : (s.cache k.src).pc = some w)
    (hw' : (s'.cache k.src).pc = some w') (hl : Like w w') (hst : w'.st = .done)
    (hp : Post cfg k.kind k.tag (s'.cache k.src)) (hc' : s'.cur = some k') (e1 : k'.src = k.src)
    (e2 : k'.kind = k.kind) (e3 : k'.tag = k.tag) (he' : k'.phase.early = false) : Served cfg i w0 s' := by
  unfold Served at h ⊢
  rw [hc] at h
  obtain ⟨a, b, c, d⟩ := h
  rw [if_pos he] at d
  obtain ⟨x, d1, d2⟩ := d
  rw [a] at hw hw' hp
  rw [hw] at d1
  injection d1 with d1
  subst d1
  rw [hc']
  refine ⟨e1.trans a, e2.trans b, e3.trans c, ?_⟩
  simp only [he', Bool.false_eq_true, if_false]
  refine ⟨w', hw', ⟨hl.c.trans d2.c, hl.f.trans d2.f, hl.op.trans d2.op, hl.tag.trans d2.tag⟩, hst, ?_⟩
  rw [← b, ← c]; exact hp

theorem served_step {cfg : Cfg} {s s' : St} {es : List Ev} {l : Label} (hl : Svc l = true) (h : WF cfg s)
    {i : Nat} {w0 : Wait} (hS : Served cfg i w0 s) (hs : step cfg s l = .next s' es) : Served cfg i w0 s' := by
  cases hc : s.cur with
  | none =>
    exfalso
    cases l <;> simp only [Svc, Bool.false_eq_true] at hl <;>
      simp only [step, stepSnoop, stepResp, stepSnAck, stepMemRead, stepRxDat, stepRxComp, stepRxDbid, stepWrDat,
        stepSnWr, stepAck, hc, reduceCtorEq] at hs
  | some k =>
    have K := h.k k hc
    have P := K.ph
    unfold POk at P
    cases l with
    | start i c r => cases hl
    | resume i r => cases hl
    | pick i => cases hl
    | memWrite => cases hl
    | rxEvict i => cases hl
    | snoop j =>
      simp only [step, stepSnoop, hc] at hs
      cases hj : k.snp j with
      | sent =>
        cases ho : snpOp k.fwd k.kind with
        | none => rw [hj, ho] at hs; cases hs
        | some op =>
          rw [hj, ho] at hs
          injection hs with hs _
          subst hs
          have hph := early_of_snoop K (j := j) (by rw [hj]; nofun) (by rw [hj]; nofun)
          exact served_move hS hc (by rw [hph]; rfl) (pc_slot s j { s.cache j with slot := upd (s.cache j).slot (k.tag % cfg.num) (snpLine op k.tag ((s.cache j).slot (k.tag % cfg.num))).1 } rfl k.src) rfl
            (by show k.phase.early = true; rw [hph]; rfl) rfl rfl rfl
      | off => rw [hj] at hs; cases hs
      | handled r => rw [hj] at hs; cases hs
      | done => rw [hj] at hs; cases hs
    | resp j junk =>
      simp only [step, stepResp, hc] at hs
      cases hj : k.snp j with
      | handled r =>
        rw [hj] at hs
        injection hs with hs _
        subst hs
        have hph := early_of_snoop K (j := j) (by rw [hj]; nofun) (by rw [hj]; nofun)
        obtain ⟨_, b, c, d, e, _⟩ := takeResp_ok K hj ((s.cache j).slot (k.tag % cfg.num)) junk
        exact served_move hS hc (by rw [hph]; rfl) rfl rfl b c d e
      | off => rw [hj] at hs; cases hs
      | sent => rw [hj] at hs; cases hs
      | done => rw [hj] at hs; cases hs
    | snAck =>
      simp only [step, stepSnAck, hc] at hs
      cases hp : k.phase <;> rw [hp] at hs <;> try cases hs
      rw [hp] at P
      obtain ⟨_, b, c, _⟩ := procSnpd_cok K (K.closed (by rw [hp]; nofun)) P false
      exact served_move hS hc (by rw [hp]; rfl) rfl rfl b c.src c.kind c.tag
    | memRead =>
      simp only [step, stepMemRead, hc] at hs
      cases hp : k.phase <;> rw [hp] at hs <;> try cases hs
      exact served_move hS hc (by rw [hp]; rfl) rfl rfl rfl rfl rfl rfl
    | rxDat =>
      simp only [step, stepRxDat, hc] at hs
      cases hw : (s.cache k.src).pc with
      | none => rw [hw] at hs; cases hp : k.phase <;> rw [hp] at hs <;> cases hs
      | some w =>
        rw [hw] at hs
        cases hp : k.phase <;> rw [hp] at hs <;> try cases hs
        rename_i g d e
        simp only at hs
        rw [hp] at P
        obtain ⟨x, x1, _, x3, x4⟩ := h.early k hc (by rw [hp]; rfl)
        rw [hw] at x1; injection x1 with x1; subst x1
        cases hr : rxDatCache cfg.num k g d e w (s.cache k.src) with
        | none => rw [hr] at hs; cases hs
        | some ca =>
          rw [hr] at hs
          injection hs with hs _
          subst hs
          obtain ⟨w', a1, a2, a3, a4, a5, a6⟩ := rxDat_pc hr
          have e1 : ((setCache s k.src ca).cache k.src) = ca := cache_set _ _ _
          refine served_answer hS hc (by rw [hp]; rfl) hw (w' := w') ((congrArg Cache.pc e1).trans a1)
            ⟨a2, a3, a4, a5⟩ a6 ?_ rfl rfl rfl rfl rfl
          show Post cfg k.kind k.tag ((setCache s k.src ca).cache k.src)
          rw [e1, ← x4]
          exact rxDat_post P.2.2 P.2.1 hr
    | rxComp =>
      simp only [step, stepRxComp, hc] at hs
      cases hw : (s.cache k.src).pc with
      | none => rw [hw] at hs; cases hp : k.phase <;> rw [hp] at hs <;> cases hs
      | some w =>
        rw [hw] at hs
        cases hp : k.phase <;> rw [hp] at hs <;> try cases hs
        rw [hp] at P
        obtain ⟨x, x1, _, x3, x4⟩ := h.early k hc (by rw [hp]; rfl)
        rw [hw] at x1; injection x1 with x1; subst x1
        have e1 : ((setCache s k.src (rxCompCache cfg.num w (s.cache k.src))).cache k.src) = _ := cache_set _ _ _
        refine served_answer hS hc (by rw [hp]; rfl) hw (w' := { w with st := .done }) (congrArg Cache.pc e1)
            ⟨rfl, rfl, rfl, rfl⟩ rfl ?_ rfl rfl rfl rfl rfl
        show Post cfg k.kind k.tag ((setCache s k.src _).cache k.src)
        rw [e1, ← x4, ← x3]
        exact rxComp_post (by rw [x3]; exact P)
    | rxDbid =>
      simp only [step, stepRxDbid, hc] at hs
      cases hw : (s.cache k.src).pc with
      | none => rw [hw] at hs; cases hp : k.phase <;> rw [hp] at hs <;> cases hs
      | some w =>
        rw [hw] at hs
        cases hp : k.phase <;> rw [hp] at hs <;> try cases hs
        rw [hp] at P
        have e1 : ((setCache s k.src (rxDbidCache cfg.num w (s.cache k.src)).1).cache k.src) = _ := cache_set _ _ _
        obtain ⟨p1, p2⟩ := rxDbid_pc cfg.num w (s.cache k.src)
        exact served_answer hS hc (by rw [hp]; rfl) hw (w' := { w with st := .done }) ((congrArg Cache.pc e1).trans p1)
            ⟨rfl, rfl, rfl, rfl⟩ rfl (post_none P) rfl rfl rfl rfl p2
    | wrDat =>
      simp only [step, stepWrDat, hc] at hs
      cases hp : k.phase <;> rw [hp] at hs <;> try cases hs
      rename_i pd d e
      refine served_late hS hc (by rw [hp]; rfl) rfl ?_
      intro k' hk'
      have hk' : (if pd = true then some { k with phase := .wrMem d e } else none : Option Cur) = some k' := hk'
      split at hk'
      · injection hk' with hk'; subst hk'; exact ⟨rfl, rfl, rfl, rfl⟩
      · cases hk'
    | snWr =>
      simp only [step, stepSnWr, hc] at hs
      cases hp : k.phase <;> rw [hp] at hs <;> try cases hs
      refine served_late hS hc (by rw [hp]; rfl) rfl ?_
      intro k' hk'
      have hk' : (if k.exp = true then some { k with phase := .ack } else none : Option Cur) = some k' := hk'
      split at hk'
      · injection hk' with hk'; subst hk'; exact ⟨rfl, rfl, rfl, rfl⟩
      · cases hk'
    | ack =>
      simp only [step, stepAck, hc] at hs
      cases hp : k.phase <;> rw [hp] at hs <;> try cases hs
      refine served_late hS hc (by rw [hp]; rfl) rfl ?_
      intro k' hk'
      have hk' : (none : Option Cur) = some k' := hk'
      cases hk'

end Verif.ChiLive
