import Verif.ChiCoh.Inv

/-!
# Structure of the reachable states of the CHI system

What every reachable state satisfies, whatever the schedule: which transaction waits for
what, and in which phase its request is. Nothing about data.
-/

namespace Verif.ChiLive

open Verif.ChiCoh

/-- The requests that can serve a chunk. -/
def FOk (c : Chunk) (f : Kind) : Prop :=
  if c.wr then f = .cleanUnique ∨ f = .makeUnique ∨ f = .readUnique ∨ f.isWrU = true
  else f ≠ .readUnique ∧ (f.isRd = true ∨ f.isOnce = true)

structure WOk (w : Wait) : Prop where
  f : FOk w.c w.f
  op : (w.op = w.f ∧ w.tag = w.c.tag) ∨ w.op.isCb = true ∨ w.op = .evict
  comp : w.st = .comp → w.op = .evict
  act : w.st = .active → w.op ≠ .evict

/-- Responses a snoop of a ReadUnique or a forwarding snoop can have. -/
structure ROk (k : Cur) (r : Resp) : Prop where
  uniq : k.kind = .readUnique → r.valid = false
  fwdK : r.fwd ≠ none → k.kind.isRd = true ∨ k.kind.isOnce = true
  fwdG : ∀ g, r.fwd = some g → k.kind.isRd = true → g.valid = true ∧ (k.kind = .readUnique → g.shared = false)

/-- Each phase belongs to its kind of request. -/
def POk (k : Cur) : Prop :=
  match k.phase with
  | .snoop | .wrDirty => (snpOp k.fwd k.kind).isSome = true
  | .rdMem => k.kind.isRd = true ∨ k.kind.isOnce = true
  | .dat g _ e => e.isSome = true ∧ (k.kind.isRd = true ∨ k.kind.isOnce = true) ∧
      (k.kind.isRd = true → g.valid = true ∧ (k.kind = .readUnique → g.shared = false))
  | .comp => k.kind = .cleanUnique ∨ k.kind = .makeUnique
  | .dbid => k.kind.isCb = true ∨ k.kind.isWrU = true
  | _ => True

structure COk (cfg : Cfg) (k : Cur) : Prop where
  noEv : k.kind ≠ .evict
  srcOff : k.snp k.src = .off
  lt : ∀ j, k.snp j ≠ .off → j < cfg.n
  snpSome : ∀ j, k.snp j ≠ .off → (snpOp k.fwd k.kind).isSome = true
  open' : k.phase = .snoop → ∃ j, j < cfg.n ∧ k.snp j ≠ .off ∧ k.snp j ≠ .done
  closed : k.phase ≠ .snoop → ∀ j, k.snp j = .off ∨ k.snp j = .done
  uniq : k.kind = .readUnique → k.shared = false
  resp : ∀ j r, k.snp j = .handled r → ROk k r
  ph : POk k

structure WF (cfg : Cfg) (s : St) : Prop where
  w : ∀ i w, (s.cache i).pc = some w → WOk w
  k : ∀ k, s.cur = some k → COk cfg k
  early : ∀ k, s.cur = some k → k.phase.early = true →
    ∃ w, (s.cache k.src).pc = some w ∧ w.st = .active ∧ w.op = k.kind ∧ w.tag = k.tag
  act : ∀ i w, (s.cache i).pc = some w → w.st = .active →
    ∃ k, s.cur = some k ∧ k.src = i ∧ k.phase.early = true

/-! ### The CPU side -/

theorem loadKind_FOk (c : Chunk) (n : Nat) (h : c.wr = false) : FOk c (loadKind n) := by
  unfold FOk
  rw [h]
  simp only [Bool.false_eq_true, if_false]
  unfold loadKind
  split <;> simp [Kind.isRd, Kind.isOnce]

/-- A request just made. -/
structure New (c : Chunk) (f : Kind) (w : Wait) : Prop where
  ok : WOk w
  st : w.st = .issued
  c : w.c = c
  f : w.f = f

theorem new_fill {c : Chunk} {f : Kind} (h : FOk c f) (a : Bool) : New c f (fillReq c f a) :=
  ⟨⟨h, .inl ⟨rfl, rfl⟩, nofun, nofun⟩, rfl, rfl, rfl⟩

theorem new_victim {c : Chunk} {f : Kind} (h : FOk c f) {op : Kind} (ho : op.isCb = true ∨ op = .evict) (l : Line) :
    New c f (victimReq c f op l) :=
  ⟨⟨h, .inr ho, nofun, nofun⟩, rfl, rfl, rfl⟩

theorem new_evict {c : Chunk} {f : Kind} (h : FOk c f) (r : Rnd) (l : Line) :
    New c f (evictNext c f r l).2 ∧ (evictNext c f r l).2.op ≠ .writeClean := by
  have hf : f ≠ .writeClean := by
    intro e; subst e; unfold FOk at h; cases c.wr <;> simp [Kind.isRd, Kind.isOnce, Kind.isWrU] at h
  unfold evictNext
  by_cases h1 : l.valid = true
  · rw [if_pos h1]
    by_cases h2 : (l.dirty && !l.full && !l.empty) = true
    · rw [if_pos h2]; exact ⟨new_victim h (.inl rfl) l, nofun⟩
    · rw [if_neg h2]
      by_cases h3 : l.dirty = true
      · rw [if_pos h3]; exact ⟨new_victim h (.inl rfl) l, nofun⟩
      · rw [if_neg h3]
        by_cases h4 : (l.full && r.evict) = true
        · rw [if_pos h4]; exact ⟨new_victim h (.inl rfl) l, nofun⟩
        · rw [if_neg h4]; exact ⟨new_victim h (.inr rfl) l, nofun⟩
  · rw [if_neg h1]; exact ⟨new_fill h false, hf⟩

theorem new_clear {c : Chunk} {f : Kind} (h : FOk c f) (r : Rnd) (l : Line) :
    New c f (clearFill c f r l).2 := by
  unfold clearFill
  by_cases h1 : (l.valid && l.dirty && l.full && r.clean) = true
  · rw [if_pos h1]; exact new_victim h (.inl rfl) l
  · rw [if_neg h1]; exact (new_evict h r l).1

/-- After a turn of the CPU side: the chunk is finished, or a new request for it is made. -/
def Turned (i : Nat) (c : Chunk) (p : Cache × List Ev) : Prop :=
  (p.1.pc = none ∧ ∃ d, Ev.finish i d ∈ p.2) ∨ ∃ w, p.1.pc = some w ∧ New c w.f w

theorem turned_top (num i : Nat) (c : Chunk) (r : Rnd) (ca : Cache) : Turned i c (top num i c r ca) := by
  unfold top
  cases hw : c.wr with
  | false =>
    simp only [Bool.false_eq_true, if_false, topLoad]
    split
    · exact .inl ⟨rfl, _, List.mem_singleton.2 rfl⟩
    · refine .inr ⟨_, rfl, ?_⟩
      have := new_clear (loadKind_FOk c r.load hw) r (ca.slot (c.tag % num))
      exact ⟨this.ok, this.st, this.c, rfl⟩
  | true =>
    have fk : ∀ f, (f = .cleanUnique ∨ f = .makeUnique ∨ f = .readUnique ∨ f.isWrU = true) → FOk c f := by
      intro f hf; unfold FOk; rw [hw]; exact hf
    simp only [if_true, topStore]
    split
    · split
      · exact .inl ⟨rfl, c.data, by simp⟩
      · exact .inr ⟨_, rfl, new_fill (fk _ (.inl rfl)) false⟩
    · split
      · refine .inr ⟨_, rfl, ?_⟩
        have := new_clear (fk (if c.whole = true then .makeUnique else .readUnique)
          (by split <;> simp)) r (ca.slot (c.tag % num))
        exact ⟨this.ok, this.st, this.c, rfl⟩
      · have hk : FOk c (if c.allBe = true then .wrUFull else .wrUPtl) := fk _ (by split <;> simp [Kind.isWrU])
        exact .inr ⟨_, rfl, new_fill hk r.ack⟩

theorem turned_resume (num i : Nat) (w : Wait) (r : Rnd) (ca : Cache) (h : WOk w) :
    Turned i w.c (resumeAt num i w r ca) := by
  unfold resumeAt
  split
  · have := (new_evict h.f r (ca.slot (w.c.tag % num))).1
    exact .inr ⟨_, rfl, ⟨this.ok, this.st, this.c, rfl⟩⟩
  all_goals first
    | exact turned_top num i w.c r ca
    | exact .inr ⟨_, rfl, new_fill h.f false⟩
    | exact .inl ⟨rfl, _, List.mem_singleton.2 rfl⟩

/-! ### The home node -/

theorem snp_ROk (k : Cur) (op : SnpOp) (h : snpOp k.fwd k.kind = some op) (l : Line) (t : Nat) :
    ROk k (snpLine op t l).2 := by
  unfold snpLine
  by_cases c : l.valid = true ∧ l.tag = t
  · rw [if_pos c]
    refine ⟨?_, ?_, ?_⟩
    · intro hk
      rw [hk] at h
      cases hf : k.fwd <;> rw [hf] at h <;> simp only [snpOp, if_true, Bool.false_eq_true, if_false,
        Option.some.injEq] at h <;> subst h <;> simp only [snpTable, snpUnique, snpUniqueFwd] <;> split <;> rfl
    · intro hr
      cases hk : k.kind <;> rw [hk] at h <;> cases hf : k.fwd <;> rw [hf] at h <;>
        simp only [snpOp, if_true, Bool.false_eq_true, if_false, Option.some.injEq, reduceCtorEq] at h <;>
        first
          | exact .inl rfl
          | exact .inr rfl
          | (exfalso; subst h; apply hr
             simp only [snpTable, snpCleanInvalid, snpMakeInvalid]
             first
               | rfl
               | (split <;> rfl))
    · intro g hg hrd
      cases hk : k.kind <;> rw [hk] at h hrd <;> simp only [Kind.isRd, Bool.false_eq_true] at hrd <;>
        cases hf : k.fwd <;> rw [hf] at h <;>
        simp only [snpOp, if_true, Bool.false_eq_true, if_false, Option.some.injEq] at h <;> subst h <;>
        simp only [snpTable, snpShare, snpShareFwd, snpUnique, snpUniqueFwd] at hg <;>
        split at hg <;> simp_all [rsp, Grant.sc, Grant.uc, Grant.udpd] <;> subst hg <;> simp
  · rw [if_neg c]
    exact ⟨fun _ => rfl, fun x => absurd rfl x, nofun⟩

theorem procReq_ok (k : Cur) (h : k.kind ≠ .evict) :
    POk (procReq k) ∧ (procReq k).phase.early = true ∧ (procReq k).phase ≠ .snoop ∧
    procReq k = { k with phase := (procReq k).phase } := by
  unfold procReq
  by_cases h1 : (k.kind.isRd || k.kind.isOnce) = true
  · rw [if_pos h1]
    exact ⟨by simpa [POk] using h1, rfl, nofun, rfl⟩
  · rw [if_neg h1]
    by_cases h2 : (k.kind.isCb || k.kind.isWrU) = true
    · rw [if_pos h2]
      exact ⟨by simpa [POk] using h2, rfl, nofun, rfl⟩
    · rw [if_neg h2]
      refine ⟨?_, rfl, nofun, rfl⟩
      show k.kind = .cleanUnique ∨ k.kind = .makeUnique
      revert h h1 h2
      cases k.kind <;> simp [Kind.isRd, Kind.isOnce, Kind.isCb, Kind.isWrU]

/-- What stays of a request when its phase moves on. -/
structure Same (k k' : Cur) : Prop where
  src : k'.src = k.src
  kind : k'.kind = k.kind
  tag : k'.tag = k.tag
  fwd : k'.fwd = k.fwd
  snp : k'.snp = k.snp
  shared : k'.shared = k.shared

theorem procSnpd_ok (k : Cur) (h : k.kind ≠ .evict) (hs : (snpOp k.fwd k.kind).isSome = true)
    (hu : k.kind = .readUnique → k.shared = false) :
    POk (procSnpd k) ∧ (procSnpd k).phase.early = true ∧ (procSnpd k).phase ≠ .snoop ∧ Same k (procSnpd k) ∧
    (k.pd = false → (procSnpd k).phase ≠ .wrDirty) := by
  unfold procSnpd
  by_cases h1 : (k.got && k.pd && !((k.kind = .readShared || k.kind = .readUnique) && !k.ptl)) = true
  · rw [if_pos h1]
    refine ⟨hs, rfl, nofun, ⟨rfl, rfl, rfl, rfl, rfl, rfl⟩, fun hp => ?_⟩
    rw [hp] at h1; simp at h1
  · rw [if_neg h1]
    by_cases h2 : (k.got && (k.kind.isRd || k.kind.isOnce) && !k.ptl) = true
    · rw [if_pos h2]
      refine ⟨⟨rfl, ?_, ?_⟩, rfl, nofun, ⟨rfl, rfl, rfl, rfl, rfl, rfl⟩, fun _ => nofun⟩
      · simp only [Bool.and_eq_true, Bool.or_eq_true] at h2
        exact h2.1.2
      · intro hr
        have hr : k.kind.isRd = true := hr
        have ho : k.kind.isOnce = false := by revert hr; cases k.kind <;> simp [Kind.isRd, Kind.isOnce]
        have hg : k.grant = ⟨true, k.shared, k.pd⟩ := by unfold Cur.grant; rw [ho]; rfl
        rw [hg]
        exact ⟨rfl, hu⟩
    · rw [if_neg h2]
      obtain ⟨p1, p2, p3, p4⟩ := procReq_ok { k with got := false } h
      refine ⟨p1, p2, p3, ?_, fun _ => ?_⟩
      · rw [p4]; exact ⟨rfl, rfl, rfl, rfl, rfl, rfl⟩
      · unfold procReq; split
        · nofun
        · split <;> nofun

theorem allDone_false {n : Nat} {k : Cur} (h : k.allDone n = false) :
    ∃ j, j < n ∧ k.snp j ≠ .off ∧ k.snp j ≠ .done := by
  unfold Cur.allDone at h
  rw [List.all_eq_false] at h
  obtain ⟨j, h1, h2⟩ := h
  refine ⟨j, List.mem_range.1 h1, ?_, ?_⟩ <;> intro e <;> rw [e] at h2 <;> simp at h2

theorem Same.cok {cfg : Cfg} {k k' : Cur} (h : COk cfg k) (e : Same k k') (hp : POk k') (ho : k'.phase ≠ .snoop)
    (hc : ∀ j, k.snp j = .off ∨ k.snp j = .done) : COk cfg k' := by
  refine ⟨e.kind ▸ h.noEv, ?_, ?_, ?_, fun x => absurd x ho, fun _ => by rw [e.snp]; exact hc, ?_, ?_, hp⟩
  · rw [e.src, e.snp]; exact h.srcOff
  · rw [e.snp]; exact h.lt
  · rw [e.snp, e.fwd, e.kind]; exact h.snpSome
  · rw [e.kind, e.shared]; exact h.uniq
  · intro j r hr
    rw [e.snp] at hr
    have := h.resp j r hr
    exact ⟨e.kind ▸ this.uniq, e.kind ▸ this.fwdK, e.kind ▸ this.fwdG⟩

theorem allDone_true {n : Nat} {k : Cur} (h : k.allDone n = true) (hl : ∀ j, k.snp j ≠ .off → j < n) (j : Nat) :
    k.snp j = .off ∨ k.snp j = .done := by
  unfold Cur.allDone at h
  rw [List.all_eq_true] at h
  by_cases c : k.snp j = .off
  · exact .inl c
  · have := h j (List.mem_range.2 (hl j c))
    simpa using this

/-- What a snoop response adds to the request. -/
def resp1 (k : Cur) (j : Nat) (r : Resp) (l : Line) : Cur :=
  { k with
    snp := upd k.snp j .done
    shared := k.shared || r.valid
    pd := k.pd || r.pd
    got := k.got || r.data
    ptl := k.ptl || r.ptl
    data := if r.data then (fun o => if l.be o then l.data o else 0) else k.data
    be := if r.data then l.be else k.be }

theorem takeResp_eq (cfg : Cfg) (k : Cur) (j : Nat) (r : Resp) (l : Line) (junk : Be) :
    takeResp cfg k j r l junk =
      if (resp1 k j r l).allDone cfg.n then
        match r.fwd with
        | some g => { resp1 k j r l with
            phase := .dat g l.data (some (if r.data then l.be else if cfg.link then allBytes else junk)) }
        | none => procSnpd (resp1 k j r l)
      else resp1 k j r l := rfl

/-- A snoop response taken. -/
theorem takeResp_ok {cfg : Cfg} {k : Cur} (h : COk cfg k) {j : Nat} {r : Resp} (hj : k.snp j = .handled r)
    (l : Line) (junk : Be) :
    COk cfg (takeResp cfg k j r l junk) ∧ (takeResp cfg k j r l junk).phase.early = true ∧
    (takeResp cfg k j r l junk).src = k.src ∧ (takeResp cfg k j r l junk).kind = k.kind ∧
    (takeResp cfg k j r l junk).tag = k.tag ∧ (takeResp cfg k j r l junk).snp = upd k.snp j .done := by
  have hph : k.phase = .snoop := by
    by_cases c : k.phase = .snoop
    · exact c
    · rcases h.closed c j with e | e <;> rw [e] at hj <;> cases hj
  have hso := h.snpSome j (by rw [hj]; nofun)
  have hR := h.resp j r hj
  rw [takeResp_eq]
  generalize hk1 : resp1 k j r l = k1
  have e1 : k1.src = k.src := by rw [← hk1]; rfl
  have e2 : k1.kind = k.kind := by rw [← hk1]; rfl
  have e3 : k1.tag = k.tag := by rw [← hk1]; rfl
  have e4 : k1.fwd = k.fwd := by rw [← hk1]; rfl
  have e5 : k1.snp = upd k.snp j .done := by rw [← hk1]; rfl
  have e6 : k1.shared = (k.shared || r.valid) := by rw [← hk1]; rfl
  have e7 : k1.phase = k.phase := by rw [← hk1]; rfl
  have hlt : ∀ x, k1.snp x ≠ .off → x < cfg.n := by
    intro x hx
    by_cases c : x = j
    · subst c; exact h.lt x (by rw [hj]; nofun)
    · rw [e5, upd_ne _ _ _ c] at hx; exact h.lt x hx
  have hu : k1.kind = .readUnique → k1.shared = false := by
    intro hk
    rw [e2] at hk
    rw [e6, h.uniq hk, hR.uniq hk]; rfl
  have hsrc : k1.snp k1.src = .off := by
    rw [e1, e5, upd_ne _ _ _ (fun c => by
      have := h.srcOff; rw [c, hj] at this; cases this)]
    exact h.srcOff
  have hsome : ∀ x, k1.snp x ≠ .off → (snpOp k1.fwd k1.kind).isSome = true := by
    intro x _; rw [e4, e2]; exact hso
  have hresp : ∀ x r', k1.snp x = .handled r' → ROk k1 r' := by
    intro x r' hx
    rw [e5] at hx
    by_cases c : x = j
    · rw [c, upd_same] at hx; cases hx
    · rw [upd_ne _ _ _ c] at hx
      have := h.resp x r' hx
      exact ⟨e2 ▸ this.uniq, e2 ▸ this.fwdK, e2 ▸ this.fwdG⟩
  by_cases hd : k1.allDone cfg.n = true
  · rw [if_pos hd]
    have hc := allDone_true hd hlt
    cases hf : r.fwd with
    | some g =>
      simp only
      refine ⟨⟨by show k1.kind ≠ _; rw [e2]; exact h.noEv, hsrc, hlt, hsome, nofun, fun _ => hc, hu, ?_, ?_⟩,
        rfl, e1, e2, e3, e5⟩
      · intro x r' hx
        have := hresp x r' hx
        exact ⟨this.uniq, this.fwdK, this.fwdG⟩
      · refine ⟨rfl, ?_, ?_⟩
        · show k1.kind.isRd = true ∨ k1.kind.isOnce = true
          rw [e2]; exact hR.fwdK (by rw [hf]; nofun)
        · show k1.kind.isRd = true → _ ∧ (k1.kind = _ → _)
          rw [e2]; exact hR.fwdG g hf
    | none =>
      simp only
      obtain ⟨p1, p2, p3, p4, _⟩ := procSnpd_ok k1 (by rw [e2]; exact h.noEv) (by rw [e4, e2]; exact hso) hu
      refine ⟨⟨?_, ?_, ?_, ?_, fun x => absurd x p3, fun _ => ?_, ?_, ?_, p1⟩, p2, p4.src.trans e1,
        p4.kind.trans e2, p4.tag.trans e3, p4.snp.trans e5⟩
      · rw [p4.kind, e2]; exact h.noEv
      · rw [p4.snp, p4.src]; exact hsrc
      · rw [p4.snp]; exact hlt
      · rw [p4.snp, p4.fwd, p4.kind]; exact hsome
      · rw [p4.snp]; exact hc
      · rw [p4.kind, p4.shared]; exact hu
      · intro x r' hx
        rw [p4.snp] at hx
        have := hresp x r' hx
        exact ⟨p4.kind ▸ this.uniq, p4.kind ▸ this.fwdK, p4.kind ▸ this.fwdG⟩
  · rw [if_neg hd]
    refine ⟨⟨by rw [e2]; exact h.noEv, hsrc, hlt, hsome, fun _ => allDone_false (by simpa using hd), ?_, hu, hresp, ?_⟩,
      by rw [e7, hph]; rfl, e1, e2, e3, e5⟩
    · intro x; rw [e7, hph] at x; exact absurd rfl x
    · unfold POk; rw [e7, hph]; simp only; rw [e4, e2]; exact hso

/-! ### Every step keeps the structure -/

/-- A request as the home node takes it. -/
def cur0 (cfg : Cfg) (s : St) (i : Nat) (w : Wait) : Cur :=
  { src := i, kind := w.op, tag := w.tag, exp := w.ack
    fwd := cfg.dct && (targets cfg s i w.tag).length == 1
    snp := fun j => if ((snpOp (cfg.dct && (targets cfg s i w.tag).length == 1) w.op).isSome &&
      (targets cfg s i w.tag).contains j) = true then SnpSt.sent else .off
    shared := false, pd := false, got := false, ptl := false
    data := fun _ => 0, be := noBytes, phase := .snoop }

theorem newCur_eq (cfg : Cfg) (s : St) (i : Nat) (w : Wait) :
    newCur cfg s i w =
      if ((snpOp (cfg.dct && (targets cfg s i w.tag).length == 1) w.op).isSome &&
        !(targets cfg s i w.tag).isEmpty) = true then cur0 cfg s i w else procReq (cur0 cfg s i w) := rfl

theorem newCur_ok {cfg : Cfg} {s : St} {i : Nat} {w : Wait} (hw : w.op ≠ .evict) :
    COk cfg (newCur cfg s i w) ∧ (newCur cfg s i w).phase.early = true ∧ (newCur cfg s i w).src = i ∧
    (newCur cfg s i w).kind = w.op ∧ (newCur cfg s i w).tag = w.tag := by
  rw [newCur_eq]
  generalize hk : cur0 cfg s i w = k
  have e1 : k.src = i := by rw [← hk]; rfl
  have e2 : k.kind = w.op := by rw [← hk]; rfl
  have e3 : k.tag = w.tag := by rw [← hk]; rfl
  have e4 : k.fwd = (cfg.dct && (targets cfg s i w.tag).length == 1) := by rw [← hk]; rfl
  have e5 : ∀ j, k.snp j = if ((snpOp (cfg.dct && (targets cfg s i w.tag).length == 1) w.op).isSome &&
        (targets cfg s i w.tag).contains j) = true then SnpSt.sent else .off := by rw [← hk]; intro j; rfl
  have e6 : k.shared = false := by rw [← hk]; rfl
  have e7 : k.phase = .snoop := by rw [← hk]; rfl
  have ht : ∀ j, (targets cfg s i w.tag).contains j = true → j < cfg.n ∧ j ≠ i := by
    intro j hj
    rw [List.contains_iff_mem] at hj
    unfold targets at hj
    rw [List.mem_filter] at hj
    refine ⟨List.mem_range.1 hj.1, ?_⟩
    have := hj.2
    simp only [Bool.and_eq_true, bne_iff_ne] at this
    exact this.1
  have h1 : k.snp k.src = .off := by
    rw [e5, if_neg]
    intro c
    simp only [Bool.and_eq_true] at c
    exact (ht _ c.2).2 e1
  have h2 : ∀ j, k.snp j ≠ .off → j < cfg.n ∧ (snpOp k.fwd k.kind).isSome = true := by
    intro j hj
    rw [e5] at hj
    by_cases c : ((snpOp (cfg.dct && (targets cfg s i w.tag).length == 1) w.op).isSome &&
        (targets cfg s i w.tag).contains j) = true
    · simp only [Bool.and_eq_true] at c
      rw [e4, e2]
      exact ⟨(ht j c.2).1, by simpa using c.1⟩
    · rw [if_neg c] at hj; exact absurd rfl hj
  have h3 : ∀ j r, k.snp j = .handled r → False := by
    intro j r hj
    rw [e5] at hj
    split at hj <;> cases hj
  by_cases c : ((snpOp (cfg.dct && (targets cfg s i w.tag).length == 1) w.op).isSome &&
      !(targets cfg s i w.tag).isEmpty) = true
  · rw [if_pos c]
    simp only [Bool.and_eq_true, Bool.not_eq_true', List.isEmpty_eq_false_iff] at c
    refine ⟨⟨by rw [e2]; exact hw, h1, fun j hj => (h2 j hj).1, fun j hj => (h2 j hj).2, fun _ => ?_,
      fun x => absurd e7 x, fun _ => e6, fun j r hj => (h3 j r hj).elim, ?_⟩, by rw [e7]; rfl, e1, e2, e3⟩
    · obtain ⟨j, hj⟩ := List.exists_mem_of_ne_nil _ c.2
      have hj' : (targets cfg s i w.tag).contains j = true := List.contains_iff_mem.2 hj
      have e : k.snp j = .sent := by
        rw [e5, if_pos]
        simp only [Bool.and_eq_true]
        exact ⟨by simpa using c.1, hj'⟩
      exact ⟨j, (ht j hj').1, by rw [e]; nofun, by rw [e]; nofun⟩
    · unfold POk; rw [e7]; simp only; rw [e4, e2]; simpa using c.1
  · rw [if_neg c]
    have hoff : ∀ j, k.snp j = .off := by
      intro j
      rw [e5, if_neg]
      intro c'
      apply c
      simp only [Bool.and_eq_true] at c'
      simp only [Bool.and_eq_true, Bool.not_eq_true', List.isEmpty_eq_false_iff]
      refine ⟨by simpa using c'.1, fun e => ?_⟩
      have := c'.2
      rw [e] at this; simp at this
    obtain ⟨p1, p2, p3, p4⟩ := procReq_ok k (by rw [e2]; exact hw)
    have sm : Same k (procReq k) := by rw [p4]; exact ⟨rfl, rfl, rfl, rfl, rfl, rfl⟩
    refine ⟨⟨by rw [sm.kind, e2]; exact hw, by rw [sm.snp, sm.src]; exact h1, ?_, ?_, fun x => absurd x p3, ?_, ?_, ?_, p1⟩,
      p2, sm.src.trans e1, sm.kind.trans e2, sm.tag.trans e3⟩
    · intro j hj; rw [sm.snp] at hj; exact absurd (hoff j) hj
    · intro j hj; rw [sm.snp] at hj; exact absurd (hoff j) hj
    · intro _ j; rw [sm.snp]; exact .inl (hoff j)
    · intro _; rw [sm.shared]; exact e6
    · intro j r hj; rw [sm.snp, hoff j] at hj; cases hj

end Verif.ChiLive
