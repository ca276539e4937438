import Verif.AceSnoop.Lemmas

/-! # C59: snoops over the ACE snoop channels -/

namespace Verif.AceSnoop
open Verif

/-- Whatever the interleaving, every snoop that returns does so with the target's answer to
that very snoop: the `i`-th snoop sent is the `i`-th the target sees, with its address, type
and security, and the caller gets the `i`-th answer's attributes, status and line. -/
theorem snoop_answered {c : Cfg} {s : St} (h : Reach c s) (hl : 0 < c.line) (r : Req) (res : Result)
    (hd : (r, res) ∈ s.done) :
    ∃ (i : Nat) (a : Ans), s.sent[i]? = some r ∧ s.log[i]? = some (r.wanted, a) ∧ res = expected a := by
  obtain ⟨n, p, hi⟩ := Inv.reach h hl
  obtain ⟨i, a, h1, h2⟩ := hi.done _ hd
  exact ⟨i, a, h1.1, h1.2, h2⟩

/-- Snoops are sent in the order they were submitted, and the target sees exactly those sent,
in that order. -/
theorem snoops_in_order {c : Cfg} {s : St} (h : Reach c s) (hl : 0 < c.line) :
    s.submitted = s.sent ++ s.acq ∧ s.log.map (·.1) = (s.sent.take s.log.length).map Req.wanted := by
  obtain ⟨n, p, hi⟩ := Inv.reach h hl
  refine ⟨hi.order, ?_⟩
  apply List.ext_getElem?
  intro i
  rw [List.getElem?_map, List.getElem?_map, List.getElem?_take]
  cases hx : s.log[i]? with
  | none =>
    have := List.getElem?_eq_none_iff.1 hx
    rw [if_neg (by omega)]; rfl
  | some x =>
    obtain ⟨t, a⟩ := x
    obtain ⟨r, h1, h2, _⟩ := hi.pairs i t a hx
    have hlt : i < s.log.length := by
      rcases Nat.lt_or_ge i s.log.length with h' | h'
      · exact h'
      · rw [List.getElem?_eq_none h'] at hx; cases hx
    rw [if_pos hlt, h1.1]
    simp [h2]

/-- No snoop is lost or answered twice: once nothing is under way, the snoops that returned
are those submitted, each once. -/
theorem all_answered {c : Cfg} {s : St} (h : Reach c s) (hl : 0 < c.line) (q : Idle s) :
    (s.done.map (·.1)).Perm s.submitted := by
  obtain ⟨n, p, hi⟩ := Inv.reach h hl
  obtain ⟨q1, q2, q3⟩ := q
  have hp : p = [] := by
    have := hi.sCd; rw [q3] at this
    cases p with
    | nil => rfl
    | cons => simp at this
  have hn : s.sent.length ≤ n := by
    have := hi.sCr; rw [q2] at this
    exact List.drop_eq_nil_iff.1 this.symm
  have := hi.perm
  rw [hp, List.take_of_length_le hn] at this
  rw [hi.order, q1, List.append_nil]
  simpa using this.symm

/-- The master never holds more than 16 snoops, and its count is exact. -/
theorem at_most_16 {c : Cfg} {s : St} (h : Reach c s) (hl : 0 < c.line) :
    s.num ≤ 16 ∧ s.num = s.mList.length + (match s.offered with | some f => if f.dt then 0 else 1 | none => 0) +
      s.mCd.length := by
  obtain ⟨n, p, hi⟩ := Inv.reach h hl
  exact ⟨hi.cap, hi.num⟩

/-- The channels are never stuck: while a snoop is under way some step other than a new snoop
can be taken, given that the target answers. -/
theorem never_stuck {c : Cfg} {s : St} (h : Reach c s) (hl : 0 < c.line) (q : ¬ Idle s) (a : Ans) :
    ∃ m t, (m = .ac ∨ m = .target a ∨ m = .cr ∨ m = .cd) ∧ s.move c m = some t := by
  obtain ⟨n, p, hi⟩ := Inv.reach h hl
  cases hp : p with
  | cons x y =>
    have h1 := hi.sCd
    have h2 := hi.mCd
    rw [hp, List.map_cons] at h1 h2
    rw [List.cons_append] at h2
    refine ⟨.cd, ?_⟩
    unfold St.move
    simp only [h1, h2]
    by_cases hc : x.1.len ≤ (s.sBuf ++ List.take (x.1.len - s.sBuf.length) (cdBeat c.bw x.2.data s.mPos)).length
    · exact ⟨_, .inr (.inr (.inr trivial)), if_pos hc⟩
    · exact ⟨_, .inr (.inr (.inr trivial)), if_neg hc⟩
  | nil =>
  have hlog := hi.log
  cases ho : s.offered with
  | some f =>
    rw [ho] at hlog
    have : n < s.sent.length := by have := hi.logLe; simp at hlog; omega
    have hs := hi.sCr
    rw [List.drop_eq_getElem_cons this] at hs
    refine ⟨.cr, ?_⟩
    unfold St.move
    simp only [ho, hs]
    by_cases h1 : (setCrResp s.sent[n].flags (crResp f)).err
    · exact ⟨_, .inr (.inr (.inl trivial)), if_pos h1⟩
    · by_cases h2 : (setCrResp s.sent[n].flags (crResp f)).dt
      · exact ⟨_, .inr (.inr (.inl trivial)), (if_neg h1).trans (if_pos h2)⟩
      · exact ⟨_, .inr (.inr (.inl trivial)), (if_neg h1).trans (if_neg h2)⟩
  | none =>
    rw [ho] at hlog
    cases hm : s.mList with
    | cons t rest =>
      refine ⟨.target a, ?_⟩
      unfold St.move
      simp only [ho, hm]
      exact ⟨_, .inr (.inl trivial), rfl⟩
    | nil =>
      have hnum := hi.num
      have hmc := hi.mCd
      have tl : tailOf s n = [] := by unfold tailOf; rw [ho]
      rw [hp, tl] at hmc
      rw [ho, hm, hmc] at hnum
      cases ha : s.acq with
      | cons r rest =>
        refine ⟨.ac, ?_⟩
        unfold St.move
        simp only [ha]
        exact ⟨_, .inl trivial, if_pos (by rw [hnum]; decide)⟩
      | nil =>
        exfalso
        apply q
        have hml := hi.mList
        rw [hm] at hml
        have h1 : s.sent.drop s.log.length = [] := by
          cases hd : s.sent.drop s.log.length with
          | nil => rfl
          | cons => rw [hd] at hml; simp at hml
        have : s.log.length = n := by simpa using hlog
        rw [this] at h1
        refine ⟨ha, by rw [hi.sCr, h1], by rw [hi.sCd, hp]; rfl⟩

/-- Steps left (at most). -/
def St.work (c : Cfg) (s : St) : Nat :=
  s.acq.length * (3 + c.line) + s.mList.length * (2 + c.line) + (if s.offered.isSome then 1 else 0) +
  (s.mCd.length * c.line - s.mPos)

theorem work_step {c : Cfg} {s t : St} (h : Reach c s) (hl : 0 < c.line) (hbw : 0 < c.bw) (m : Move)
    (hf : m.Fits c) (hm : s.move c m = some t) (hs : ∀ r, m ≠ .submit r) : t.work c < s.work c := by
  obtain ⟨n, p, hi⟩ := Inv.reach h hl
  cases m with
  | submit r => exact absurd rfl (hs r)
  | ac =>
    unfold St.move at hm
    cases ha : s.acq with
    | nil => rw [ha] at hm; cases hm
    | cons r rest =>
      rw [ha] at hm
      simp only [] at hm
      by_cases hn : s.num < 16
      · rw [if_pos hn] at hm
        cases hm
        unfold St.work
        simp only [ha, List.length_cons, List.length_append, List.length_nil, Nat.succ_mul]
        omega
      · rw [if_neg hn] at hm; cases hm
  | target a =>
    unfold St.move at hm
    cases ho : s.offered with
    | some f => rw [ho] at hm; cases hm
    | none =>
      cases hml : s.mList with
      | nil => rw [ho, hml] at hm; cases hm
      | cons t' rest =>
        rw [ho, hml] at hm
        cases hm
        unfold St.work
        simp only [ho, hml, List.length_cons, Nat.succ_mul, Option.isSome_some, Option.isSome_none, if_true]
        by_cases hdt : a.flags.dt
        · rw [if_pos hdt]
          simp only [List.length_append, List.length_cons, List.length_nil, Nat.succ_mul]
          simp
          omega
        · rw [if_neg hdt]
          simp
          omega
  | cr =>
    unfold St.move at hm
    cases ho : s.offered with
    | none => rw [ho] at hm; cases hm
    | some f =>
      cases hsc : s.sCr with
      | nil => rw [ho, hsc] at hm; cases hm
      | cons r rest =>
        rw [ho, hsc] at hm
        simp only [] at hm
        by_cases h1 : (setCrResp r.flags (crResp f)).err
        · rw [if_pos h1] at hm; cases hm; unfold St.work; simp [ho]
        · rw [if_neg h1] at hm
          by_cases h2 : (setCrResp r.flags (crResp f)).dt
          · rw [if_pos h2] at hm; cases hm; unfold St.work; simp [ho]
          · rw [if_neg h2] at hm; cases hm; unfold St.work; simp [ho]
  | cd =>
    unfold St.move at hm
    cases hmc : s.mCd with
    | nil => rw [hmc] at hm; cases hm
    | cons d ds =>
    cases hsc : s.sCd with
    | nil => rw [hmc, hsc] at hm; cases hm
    | cons x rs =>
    obtain ⟨r, g⟩ := x
    rw [hmc, hsc] at hm
    simp only [] at hm
    cases hp : p with
    | nil => have := hi.sCd; rw [hp, hsc] at this; simp at this
    | cons y q =>
    have hmd := hi.mCd
    rw [hp, hmc, List.map_cons, List.cons_append] at hmd
    have e3 := (List.cons.inj hmd).1
    obtain ⟨_, ha, _⟩ := hi.inP y (by rw [hp]; exact List.mem_cons_self ..)
    obtain ⟨_, hb2⟩ := hi.buf y q hp
    have hdl : d.length = c.line := by rw [e3]; exact ha.len
    have hw : s.work c = s.acq.length * (3 + c.line) + s.mList.length * (2 + c.line) +
        (if s.offered.isSome then 1 else 0) + ((ds.length + 1) * c.line - s.mPos) := by
      unfold St.work; rw [hmc, List.length_cons]
    rw [hw, Nat.succ_mul]
    rw [hdl] at hm
    have fin : ∀ t' : St, t'.acq = s.acq → t'.mList = s.mList → t'.offered = s.offered →
        ((t'.mCd = ds ∧ t'.mPos = 0) ∨ (t'.mCd = d :: ds ∧ t'.mPos = min (s.mPos + c.bw) c.line ∧ t'.mPos < c.line)) →
        t'.work c < s.acq.length * (3 + c.line) + s.mList.length * (2 + c.line) +
        (if s.offered.isSome then 1 else 0) + (ds.length * c.line + c.line - s.mPos) := by
      intro t' e1 e2 e3 e4
      unfold St.work
      rw [e1, e2, e3]
      rcases e4 with ⟨e5, e6⟩ | ⟨e5, e6, e7⟩
      · rw [e5, e6]; omega
      · rw [e5, List.length_cons, Nat.succ_mul]; omega
    by_cases hlast : c.line ≤ min (s.mPos + c.bw) c.line
    · rw [if_pos hlast] at hm
      by_cases hc : r.len ≤ (s.sBuf ++ List.take (r.len - s.sBuf.length) (cdBeat c.bw d s.mPos)).length
      · rw [if_pos hc] at hm; cases hm; exact fin _ rfl rfl rfl (.inl ⟨rfl, rfl⟩)
      · rw [if_neg hc] at hm; cases hm; exact fin _ rfl rfl rfl (.inl ⟨rfl, rfl⟩)
    · rw [if_neg hlast] at hm
      by_cases hc : r.len ≤ (s.sBuf ++ List.take (r.len - s.sBuf.length) (cdBeat c.bw d s.mPos)).length
      · rw [if_pos hc] at hm; cases hm; exact fin _ rfl rfl rfl (.inr ⟨rfl, rfl, by show min _ _ < _; omega⟩)
      · rw [if_neg hc] at hm; cases hm; exact fin _ rfl rfl rfl (.inr ⟨rfl, rfl, by show min _ _ < _; omega⟩)

/-- Runs without new snoops. -/
inductive Runs (c : Cfg) : St → Nat → St → Prop
  | nil (s) : Runs c s 0 s
  | cons {s t u n} (m : Move) : (∀ r, m ≠ .submit r) → m.Fits c → s.move c m = some t → Runs c t n u → Runs c s (n + 1) u

/-- And they finish: without new snoops, only so many steps can follow, in whatever order. -/
theorem settles {c : Cfg} {s u : St} {n : Nat} (h : Reach c s) (hl : 0 < c.line) (hbw : 0 < c.bw)
    (hr : Runs c s n u) : n ≤ s.work c := by
  have key : n + u.work c ≤ s.work c := by
    induction hr with
    | nil => simp
    | cons m hs hf hm _ ih =>
      have := work_step h hl hbw m hf hm hs
      have := ih (.step m h hf hm)
      omega
  omega

/-! ### Cases -/

/-- The moves of a run. -/
def St.runs (c : Cfg) (s : St) : List Move → Option St
  | [] => some s
  | m :: ms => (s.move c m).bind fun t => t.runs c ms

def c4 : Cfg := { aw := 32, bw := 4, line := 8 }
def lineA : List Byte := [1, 2, 3, 4, 5, 6, 7, 8]
def lineB : List Byte := [11, 12, 13, 14, 15, 16, 17, 18]

/-- Two snoops, the first with data, the second without: the second returns first. -/
example : ((St.runs c4 {} [.submit ⟨1, 0x40, 7, true, 8, {}⟩, .submit ⟨2, 0x80, 9, false, 8, {}⟩, .ac, .ac,
    .target ⟨lineA, { dt := true, dirty := true }⟩, .cr, .target ⟨lineB, {}⟩, .cr, .cd, .cd]).map (·.done)) =
    some [(⟨2, 0x80, 9, false, 8, {}⟩, ⟨.ok, [], {}⟩),
      (⟨1, 0x40, 7, true, 8, {}⟩, ⟨.ok, lineA, { dt := true, dirty := true }⟩)] := by decide

example : Req.Fits c4 ⟨1, 0x40, 7, true, 8, {}⟩ ∧ Ans.Fits c4 ⟨lineA, { dt := true, dirty := true }⟩ :=
  ⟨⟨by decide, by decide, rfl, rfl⟩, ⟨rfl, by decide⟩⟩

/-- FINDING. An answer with an error and data leaves its data on the CD channel: the next
snoop gets the line of the failed one. -/
theorem error_data_misdelivered : ((St.runs c4 {} [.submit ⟨1, 0x40, 7, true, 8, {}⟩, .submit ⟨2, 0x80, 7, true, 8, {}⟩,
    .ac, .ac, .target ⟨lineA, { dt := true, err := true }⟩, .cr, .target ⟨lineB, { dt := true }⟩, .cr, .cd, .cd]).map
    (fun s => s.done.map (·.2))) =
    some [⟨.generic, [], { dt := true, err := true }⟩, ⟨.ok, lineA, { dt := true }⟩] := by decide

/-- FINDING. With a buffer that is not a cache line the channels lose step: the second snoop
gets the second half of the first one's line. -/
theorem short_buffer_misdelivered : ((St.runs c4 {} [.submit ⟨1, 0x40, 7, true, 4, {}⟩, .submit ⟨2, 0x80, 7, true, 4, {}⟩,
    .ac, .ac, .target ⟨lineA, { dt := true }⟩, .cr, .target ⟨lineB, { dt := true }⟩, .cr, .cd, .cd]).map
    (fun s => s.done.map (fun x => (x.1.id, x.2.data)))) = some [(1, [1, 2, 3, 4]), (2, [5, 6, 7, 8])] := by decide

/-- FINDING. Attributes set by an earlier snoop stay: a caller that reuses its extension sees
a clean answer as dirty. -/
theorem attributes_stick : ((St.runs c4 {} [.submit ⟨1, 0x40, 7, true, 8, { dirty := true }⟩, .ac,
    .target ⟨lineA, {}⟩, .cr]).map (fun s => s.done.map (·.2.flags))) = some [{ dirty := true }] := by decide

end Verif.AceSnoop
