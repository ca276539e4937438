import Verif.AceSnoop.Spec

/-! # Invariant of the snoop channels -/

namespace Verif.AceSnoop
open Verif

theorem recv_send (c : Cfg) (r : Req) (h : r.Fits c) : recvAc (sendAc c r) = r.wanted := by
  unfold recvAc sendAc Req.wanted
  rw [Nat.mod_eq_of_lt h.addr, Nat.mod_eq_of_lt h.snoop]
  cases r.ns <;> simp

theorem set_crResp (f : Flags) : setCrResp {} (crResp f) = f := by
  obtain ⟨a, b, c, d, e⟩ := f
  cases a <;> cases b <;> cases c <;> cases d <;> cases e <;> decide

theorem getElem?_append_some {α : Type} {l : List α} {i : Nat} {x : α} (h : l[i]? = some x) (l' : List α) :
    (l ++ l')[i]? = some x := by
  have hi : i < l.length := by
    rcases Nat.lt_or_ge i l.length with h' | h'
    · exact h'
    · rw [List.getElem?_eq_none h'] at h; cases h
  rw [List.getElem?_append_left hi, h]

theorem beat_take (bw : Nat) (d : List Byte) (pos : Nat) (h : pos ≤ d.length) :
    d.take pos ++ (cdBeat bw d pos).take (d.length - pos) = d.take (min (pos + bw) d.length) := by
  apply List.ext_getElem?
  intro i
  unfold cdBeat
  by_cases h1 : i < pos
  · rw [List.getElem?_append_left (by rw [List.length_take]; omega), List.getElem?_take, if_pos h1,
      List.getElem?_take, if_pos (by omega)]
  · rw [List.getElem?_append_right (by rw [List.length_take]; omega), List.length_take, Nat.min_eq_left h,
      List.getElem?_take, List.getElem?_take, List.getElem?_map]
    by_cases h2 : i < min (pos + bw) d.length
    · rw [if_pos (by omega), if_pos h2, List.getElem?_range (by omega)]
      simp only [Option.map_some]
      rw [show pos + (i - pos) = i by omega, List.getD_eq_getElem?_getD, List.getElem?_eq_getElem (by omega)]
      rfl
    · rw [if_neg h2]
      by_cases h3 : i - pos < d.length - pos
      · rw [if_pos h3, List.getElem?_eq_none (by rw [List.length_range]; omega)]; rfl
      · rw [if_neg h3]

/-- Snoop `r` was the `i`-th sent, and `a` the `i`-th answer. -/
def PairAt (s : St) (i : Nat) (r : Req) (a : Ans) : Prop :=
  s.sent[i]? = some r ∧ s.log[i]? = some (r.wanted, a)

/-- Outstanding data of an answer still on the CR channel. -/
def tailOf (s : St) (n : Nat) : List (List Byte) :=
  match s.offered, s.log[n]? with
  | some f, some (_, a) => if f.dt then [a.data] else []
  | _, _ => []

/-- `n` snoops have their CR; `p` are those waiting for data. -/
structure Inv (c : Cfg) (s : St) (n : Nat) (p : List (Req × Ans)) : Prop where
  le : n ≤ s.sent.length
  sCr : s.sCr = s.sent.drop n
  log : s.log.length = n + (if s.offered.isSome then 1 else 0)
  logLe : s.log.length ≤ s.sent.length
  mList : s.mList = (s.sent.drop s.log.length).map Req.wanted
  pairs : ∀ i t a, s.log[i]? = some (t, a) → ∃ r, PairAt s i r a ∧ t = r.wanted ∧ a.Fits c
  off : ∀ f, s.offered = some f → ∃ t a, s.log[n]? = some (t, a) ∧ a.flags = f
  sCd : s.sCd = p.map fun x => (x.1, x.2.flags)
  mCd : s.mCd = p.map (fun x => x.2.data) ++ tailOf s n
  inP : ∀ x ∈ p, (∃ i, PairAt s i x.1 x.2) ∧ x.2.Fits c ∧ x.2.flags.dt = true ∧ x.2.flags.err = false ∧ x.1.len = c.line
  pos : s.mPos = s.sBuf.length
  buf : ∀ x q, p = x :: q → s.sBuf = x.2.data.take s.mPos ∧ s.mPos < c.line
  buf0 : p = [] → s.mPos = 0
  num : s.num = s.mList.length + (match s.offered with | some f => if f.dt then 0 else 1 | none => 0) + s.mCd.length
  cap : s.num ≤ 16
  done : ∀ x ∈ s.done, ∃ i a, PairAt s i x.1 a ∧ x.2 = expected a
  perm : (s.sent.take n).Perm (s.done.map (·.1) ++ p.map (·.1))
  fits : ∀ r ∈ s.submitted, r.Fits c
  order : s.submitted = s.sent ++ s.acq

theorem Inv.init (c : Cfg) : Inv c {} 0 [] := by
  constructor <;> simp [tailOf]

theorem PairAt.mono {s t : St} {i r a} (h : PairAt s i r a) (hs : ∃ l, t.sent = s.sent ++ l)
    (hl : ∃ l, t.log = s.log ++ l) : PairAt t i r a := by
  obtain ⟨l, hs⟩ := hs
  obtain ⟨l', hl⟩ := hl
  exact ⟨by rw [hs]; exact getElem?_append_some h.1 _, by rw [hl]; exact getElem?_append_some h.2 _⟩

theorem Inv.submit {c : Cfg} {s : St} {n p} (h : Inv c s n p) (r : Req) (hr : r.Fits c) :
    Inv c { s with acq := s.acq ++ [r], submitted := s.submitted ++ [r] } n p := by
  refine ⟨h.le, h.sCr, h.log, h.logLe, h.mList, h.pairs, h.off, h.sCd, h.mCd, h.inP, h.pos, h.buf, h.buf0, h.num,
    h.cap, h.done, h.perm, ?_, ?_⟩
  · intro x hx
    rcases List.mem_append.1 hx with hx | hx
    · exact h.fits x hx
    · rw [List.mem_singleton.1 hx]; exact hr
  · show s.submitted ++ [r] = s.sent ++ (s.acq ++ [r])
    rw [h.order, List.append_assoc]

theorem Inv.ac {c : Cfg} {s : St} {n p} (h : Inv c s n p) (r : Req) (rest : List Req) (he : s.acq = r :: rest)
    (hn : s.num < 16) :
    Inv c { s with
      acq := rest, sCr := s.sCr ++ [r], sent := s.sent ++ [r],
      mList := s.mList ++ [recvAc (sendAc c r)], num := s.num + 1 } n p := by
  have hr : r.Fits c := h.fits r (by rw [h.order, he]; simp)
  have mono : ∀ i r' a, PairAt s i r' a → PairAt { s with
      acq := rest, sCr := s.sCr ++ [r], sent := s.sent ++ [r],
      mList := s.mList ++ [recvAc (sendAc c r)], num := s.num + 1 } i r' a :=
    fun i r' a hp => hp.mono ⟨[r], rfl⟩ ⟨[], (List.append_nil _).symm⟩
  refine ⟨?_, ?_, h.log, ?_, ?_, ?_, h.off, h.sCd, h.mCd, ?_, h.pos, h.buf, h.buf0, ?_, ?_, ?_, ?_, h.fits, ?_⟩
  · show n ≤ (s.sent ++ [r]).length
    have := h.le; simp; omega
  · show s.sCr ++ [r] = (s.sent ++ [r]).drop n
    rw [List.drop_append_of_le_length h.le, h.sCr]
  · show s.log.length ≤ (s.sent ++ [r]).length
    have := h.logLe; simp; omega
  · show s.mList ++ [recvAc (sendAc c r)] = ((s.sent ++ [r]).drop s.log.length).map Req.wanted
    rw [List.drop_append_of_le_length h.logLe, List.map_append, ← h.mList, recv_send c r hr]; rfl
  · intro i t a hi
    obtain ⟨r', h1, h2, h3⟩ := h.pairs i t a hi
    exact ⟨r', mono _ _ _ h1, h2, h3⟩
  · intro x hx
    obtain ⟨⟨i, h1⟩, h2⟩ := h.inP x hx
    exact ⟨⟨i, mono _ _ _ h1⟩, h2⟩
  · show s.num + 1 = (s.mList ++ [recvAc (sendAc c r)]).length + _ + s.mCd.length
    rw [h.num, List.length_append]
    simp only [List.length_singleton]
    omega
  · show s.num + 1 ≤ 16; omega
  · intro x hx
    obtain ⟨i, a, h1, h2⟩ := h.done x hx
    exact ⟨i, a, mono _ _ _ h1, h2⟩
  · show ((s.sent ++ [r]).take n).Perm _
    rw [List.take_append_of_le_length h.le]; exact h.perm
  · show s.submitted = s.sent ++ [r] ++ rest
    rw [h.order, he]; simp

theorem Inv.target {c : Cfg} {s : St} {n p} (h : Inv c s n p) (t : MTr) (rest : List MTr) (a : Ans)
    (ha : a.Fits c) (ho : s.offered = none) (hm : s.mList = t :: rest) :
    Inv c { s with
        mList := rest, offered := some a.flags, log := s.log ++ [(t, a)],
        mCd := if a.flags.dt then s.mCd ++ [a.data] else s.mCd } n p := by
  have hlog : s.log.length = n := by have := h.log; rw [ho] at this; simpa using this
  have hlt : s.log.length < s.sent.length := by
    have := congrArg List.length h.mList
    rw [hm, List.length_map, List.length_drop, List.length_cons] at this
    omega
  have hd : s.sent.drop s.log.length = s.sent[s.log.length] :: s.sent.drop (s.log.length + 1) :=
    List.drop_eq_getElem_cons hlt
  have hml := h.mList
  rw [hm, hd, List.map_cons] at hml
  have ht : t = s.sent[s.log.length].wanted := (List.cons.inj hml).1
  have hrest := (List.cons.inj hml).2
  have hnew : (s.log ++ [(t, a)])[n]? = some (t, a) := by rw [← hlog]; simp
  have mono : ∀ i r' a', PairAt s i r' a' → PairAt { s with
        mList := rest, offered := some a.flags, log := s.log ++ [(t, a)],
        mCd := if a.flags.dt then s.mCd ++ [a.data] else s.mCd } i r' a' :=
    fun i r' a' hp => hp.mono ⟨[], (List.append_nil _).symm⟩ ⟨[(t, a)], rfl⟩
  have tail0 : tailOf s n = [] := by unfold tailOf; rw [ho]
  refine ⟨h.le, h.sCr, ?_, ?_, ?_, ?_, ?_, h.sCd, ?_, ?_, h.pos, h.buf, h.buf0, ?_, h.cap, ?_, h.perm, h.fits, h.order⟩
  · show (s.log ++ [(t, a)]).length = n + 1
    simp [hlog]
  · show (s.log ++ [(t, a)]).length ≤ s.sent.length
    simp; omega
  · show rest = (s.sent.drop (s.log ++ [(t, a)]).length).map Req.wanted
    rw [hrest]; simp
  · intro i t' a' hi
    have hi : (s.log ++ [(t, a)])[i]? = some (t', a') := hi
    by_cases h1 : i < s.log.length
    · rw [List.getElem?_append_left h1] at hi
      obtain ⟨r', h2, h3⟩ := h.pairs i t' a' hi
      exact ⟨r', mono _ _ _ h2, h3⟩
    · by_cases h2 : i = s.log.length
      · subst h2
        simp at hi
        obtain ⟨rfl, rfl⟩ := hi
        refine ⟨s.sent[s.log.length], ⟨List.getElem?_eq_getElem hlt, ?_⟩, ht, ha⟩
        show (s.log ++ [(t, a)])[s.log.length]? = _
        simp [ht]
      · rw [List.getElem?_eq_none (by simp; omega)] at hi; cases hi
  · intro f hf
    have hf : a.flags = f := by simpa using hf
    exact ⟨t, a, hnew, hf⟩
  · show (if a.flags.dt then s.mCd ++ [a.data] else s.mCd) = _ ++ tailOf _ n
    unfold tailOf
    simp only [hnew]
    rw [h.mCd, tail0, List.append_nil]
    by_cases hdt : a.flags.dt
    · rw [if_pos hdt, if_pos hdt]
    · rw [if_neg hdt, if_neg hdt, List.append_nil]
  · intro x hx
    obtain ⟨⟨i, h1⟩, h2⟩ := h.inP x hx
    exact ⟨⟨i, mono _ _ _ h1⟩, h2⟩
  · show s.num = rest.length + (if a.flags.dt then 0 else 1) + (if a.flags.dt then s.mCd ++ [a.data] else s.mCd).length
    rw [h.num, ho, hm]
    by_cases hdt : a.flags.dt
    · rw [if_pos hdt, if_pos hdt]; simp; omega
    · rw [if_neg hdt, if_neg hdt]; simp
  · intro x hx
    obtain ⟨i, a, h1, h2⟩ := h.done x hx
    exact ⟨i, a, mono _ _ _ h1, h2⟩

theorem Inv.cr {c : Cfg} {s t : St} {n p} (h : Inv c s n p) (hm : s.move c .cr = some t) (hl : 0 < c.line) :
    ∃ p', Inv c t (n + 1) p' := by
  unfold St.move at hm
  cases ho : s.offered with
  | none => rw [ho] at hm; cases hm
  | some f =>
  cases hs : s.sCr with
  | nil => rw [ho, hs] at hm; cases hm
  | cons r rest =>
  rw [ho, hs] at hm
  simp only [] at hm
  have hlt : n < s.sent.length := by
    have := congrArg List.length h.sCr
    rw [hs, List.length_drop, List.length_cons] at this
    omega
  have hd := h.sCr
  rw [hs, List.drop_eq_getElem_cons hlt] at hd
  have hr : r = s.sent[n] := (List.cons.inj hd).1
  have hrest := (List.cons.inj hd).2
  obtain ⟨t', a, hln, haf⟩ := h.off f ho
  obtain ⟨r', hp, ht', ha⟩ := h.pairs n t' a hln
  have hrr : r' = r := by
    have := hp.1
    rw [List.getElem?_eq_getElem hlt] at this
    rw [hr]; exact (Option.some.inj this).symm
  subst hrr
  have hlog : s.log.length = n + 1 := by have := h.log; rw [ho] at this; simpa using this
  have hfit : r'.Fits c := h.fits r' (by rw [h.order, hr]; exact List.mem_append_left _ (List.getElem_mem ..))
  have tl : tailOf s n = if f.dt then [a.data] else [] := by
    unfold tailOf; rw [ho, hln]
  have tk : s.sent.take (n + 1) = s.sent.take n ++ [r'] := by
    rw [List.take_add_one, List.getElem?_eq_getElem hlt, hr]; rfl
  rw [hfit.fresh, set_crResp] at hm
  have hnum := h.num
  rw [ho] at hnum
  simp only [] at hnum
  -- everything but the two outcomes
  have base : ∀ (t : St) (p' : List (Req × Ans)), t.sent = s.sent → t.log = s.log → t.sCr = rest → t.offered = none →
      t.mList = s.mList → t.mPos = s.mPos → t.sBuf = s.sBuf → t.submitted = s.submitted → t.acq = s.acq →
      t.sCd = (p'.map fun x => (x.1, x.2.flags)) → t.mCd = s.mCd → t.mCd = (p'.map fun x => x.2.data) →
      (p' = p ∨ (p' = p ++ [(r', a)] ∧ a.flags.dt = true ∧ a.flags.err = false)) →
      t.num = (if f.dt then s.num else s.num - 1) →
      (∀ x ∈ t.done, x ∈ s.done ∨ x = (r', expected a)) →
      ((s.sent.take n ++ [r']).Perm (t.done.map (·.1) ++ p'.map (·.1))) →
      Inv c t (n + 1) p' := by
    intro t p' e1 e2 e3 e4 e5 e6 e7 e8 e9 e10 e11 e12 e13 e14 e15 e16
    have mono : ∀ i r a, PairAt s i r a → PairAt t i r a := fun i r a hp =>
      hp.mono ⟨[], by rw [e1, List.append_nil]⟩ ⟨[], by rw [e2, List.append_nil]⟩
    refine ⟨?_, ?_, ?_, ?_, ?_, ?_, ?_, e10, ?_, ?_, ?_, ?_, ?_, ?_, ?_, ?_, ?_, ?_, ?_⟩
    · rw [e1]; omega
    · rw [e3, e1, hrest]
    · rw [e2, e4, hlog]; rfl
    · rw [e2, e1]; exact h.logLe
    · rw [e5, e1, e2]; exact h.mList
    · intro i t'' a'' hi
      rw [e2] at hi
      obtain ⟨r'', h1, h2⟩ := h.pairs i t'' a'' hi
      exact ⟨r'', mono _ _ _ h1, h2⟩
    · intro f' hf; rw [e4] at hf; cases hf
    · have : tailOf t (n + 1) = [] := by unfold tailOf; rw [e4]
      rw [this, List.append_nil, e12]
    · intro x hx
      have old : x ∈ p → _ := fun hx => h.inP x hx
      rcases e13 with e | ⟨e, hdt, her⟩
      · rw [e] at hx
        obtain ⟨⟨i, h1⟩, h2⟩ := old hx
        exact ⟨⟨i, mono _ _ _ h1⟩, h2⟩
      · rw [e] at hx
        rcases List.mem_append.1 hx with hx | hx
        · obtain ⟨⟨i, h1⟩, h2⟩ := old hx
          exact ⟨⟨i, mono _ _ _ h1⟩, h2⟩
        · rw [List.mem_singleton.1 hx]
          exact ⟨⟨n, mono _ _ _ hp⟩, ha, hdt, her, hfit.len⟩
    · rw [e6, e7]; exact h.pos
    · intro x q hq
      rw [e6, e7]
      rcases e13 with e | ⟨e, _, _⟩
      · exact h.buf x q (e ▸ hq)
      · cases hp0 : p with
        | nil =>
          rw [hp0] at e
          rw [e] at hq
          have h0 := h.buf0 hp0
          have : s.sBuf = [] := List.length_eq_zero_iff.1 (by rw [← h.pos, h0])
          rw [this, h0]
          exact ⟨by simp, hl⟩
        | cons y z =>
          rw [hp0] at e
          rw [e] at hq
          obtain ⟨rfl, _⟩ := List.cons.inj hq
          exact h.buf y z hp0
    · intro hq
      rw [e6]
      rcases e13 with e | ⟨e, _, _⟩
      · exact h.buf0 (e ▸ hq)
      · rw [e] at hq; simp at hq
    · rw [e14, e4, e5, e11]
      by_cases hdt : f.dt
      · rw [if_pos hdt] at hnum ⊢; simp only []; omega
      · rw [if_neg hdt] at hnum ⊢; simp only []; omega
    · rw [e14]; have := h.cap; split <;> omega
    · intro x hx
      rcases e15 x hx with hx | hx
      · obtain ⟨i, a, h1, h2⟩ := h.done x hx
        exact ⟨i, a, mono _ _ _ h1, h2⟩
      · rw [hx]; exact ⟨n, a, mono _ _ _ hp, rfl⟩
    · rw [e1, tk]; exact e16
    · rw [e8]; exact h.fits
    · rw [e8, e1, e9]; exact h.order
  have permDone : (s.sent.take n ++ [r']).Perm ((s.done ++ [(r', expected a)]).map (·.1) ++ p.map (·.1)) := by
    rw [List.map_append, List.append_assoc]
    refine (h.perm.append_right _).trans ?_
    rw [List.append_assoc]
    exact (List.perm_append_comm (l₁ := p.map (·.1)) (l₂ := [r'])).append_left _
  have permWait : (s.sent.take n ++ [r']).Perm (s.done.map (·.1) ++ (p ++ [(r', a)]).map (·.1)) := by
    rw [List.map_append, ← List.append_assoc]
    exact h.perm.append_right _
  by_cases her : f.err
  · rw [if_pos her] at hm
    cases hm
    have hdt : f.dt = false := by
      rw [← haf] at her ⊢
      cases hd : a.flags.dt
      · rfl
      · exact absurd ⟨her, hd⟩ ha.noErrData
    rw [hdt] at tl
    have ex : expected a = ⟨.generic, [], f⟩ := by unfold expected; rw [haf, if_pos her]
    refine ⟨p, base _ p rfl rfl rfl rfl rfl rfl rfl rfl rfl h.sCd rfl ?_ (.inl rfl) rfl ?_ ?_⟩
    · show s.mCd = _
      rw [h.mCd, tl]; simp
    · intro x hx
      rcases List.mem_append.1 hx with hx | hx
      · exact .inl hx
      · right; rw [List.mem_singleton.1 hx, ex]
    · show (s.sent.take n ++ [r']).Perm ((s.done ++ [(r', (⟨.generic, [], f⟩ : Result))]).map Prod.fst ++ p.map Prod.fst)
      rw [← ex]; exact permDone
  · rw [if_neg her] at hm
    by_cases hdt : f.dt
    · rw [if_pos hdt] at hm
      cases hm
      rw [if_pos hdt] at tl
      refine ⟨p ++ [(r', a)], base _ _ rfl rfl rfl rfl rfl rfl rfl rfl rfl ?_ rfl ?_ (.inr ⟨rfl, ?_, ?_⟩) rfl ?_ permWait⟩
      · show s.sCd ++ [(r', f)] = _
        rw [h.sCd, List.map_append, ← haf]; rfl
      · show s.mCd = _
        rw [h.mCd, tl, List.map_append]; rfl
      · rw [haf]; exact hdt
      · rw [haf]; simpa using her
      · intro x hx; exact .inl hx
    · rw [if_neg hdt] at hm
      cases hm
      rw [if_neg hdt] at tl
      have ex : expected a = ⟨.ok, [], f⟩ := by
        unfold expected; rw [haf, if_neg her, if_neg hdt]
      refine ⟨p, base _ p rfl rfl rfl rfl rfl rfl rfl rfl rfl h.sCd rfl ?_ (.inl rfl) rfl ?_ ?_⟩
      · show s.mCd = _
        rw [h.mCd, tl]; simp
      · intro x hx
        rcases List.mem_append.1 hx with hx | hx
        · exact .inl hx
        · right; rw [List.mem_singleton.1 hx, ex]
      · show (s.sent.take n ++ [r']).Perm ((s.done ++ [(r', (⟨.ok, [], f⟩ : Result))]).map Prod.fst ++ p.map Prod.fst)
        rw [← ex]; exact permDone

theorem Inv.cd {c : Cfg} {s t : St} {n p} (h : Inv c s n p) (hm : s.move c .cd = some t)
    (hl : 0 < c.line) : ∃ p', Inv c t n p' := by
  unfold St.move at hm
  cases hmc : s.mCd with
  | nil => rw [hmc] at hm; cases hm
  | cons d ds =>
  cases hsc : s.sCd with
  | nil => rw [hmc, hsc] at hm; cases hm
  | cons x rs =>
  obtain ⟨r, g⟩ := x
  rw [hmc, hsc] at hm
  simp only [] at hm
  cases hp : p with
  | nil => have := h.sCd; rw [hp, hsc] at this; simp at this
  | cons y q =>
  obtain ⟨r', a⟩ := y
  have hsd := h.sCd
  rw [hp, hsc, List.map_cons] at hsd
  have hmd := h.mCd
  rw [hp, hmc, List.map_cons, List.cons_append] at hmd
  obtain ⟨e1, e2⟩ := List.cons.inj hsd
  obtain ⟨e3, e4⟩ := List.cons.inj hmd
  simp only [Prod.mk.injEq] at e1
  obtain ⟨rfl, rfl⟩ := e1
  simp only [] at e3
  subst e3
  obtain ⟨⟨i, hpair⟩, ha, hdt, her, hlen⟩ := h.inP (r, a) (by rw [hp]; exact List.mem_cons_self ..)
  simp only [] at ha hdt her hlen hpair
  obtain ⟨hb1, hb2⟩ := h.buf (r, a) q hp
  simp only [] at hb1
  have hbuf : s.sBuf ++ (cdBeat c.bw a.data s.mPos).take (r.len - s.sBuf.length) =
      a.data.take (min (s.mPos + c.bw) a.data.length) := by
    rw [← h.pos, hb1, hlen, ← ha.len]
    exact beat_take c.bw a.data s.mPos (by rw [ha.len]; omega)
  rw [hbuf] at hm
  have hl2 : (a.data.take (min (s.mPos + c.bw) a.data.length)).length = min (s.mPos + c.bw) c.line := by
    rw [List.length_take, ha.len]; omega
  rw [hl2, hlen, ha.len] at hm
  have tl : ∀ t : St, t.offered = s.offered → t.log = s.log → tailOf t n = tailOf s n := by
    intro t h1 h2; unfold tailOf; rw [h1, h2]
  have hnum := h.num
  rw [hmc, List.length_cons] at hnum
  have common : ∀ (t : St) (p' : List (Req × Ans)), t.sent = s.sent → t.log = s.log → t.sCr = s.sCr →
      t.offered = s.offered → t.mList = s.mList → t.submitted = s.submitted → t.acq = s.acq →
      t.sCd = (p'.map fun x => (x.1, x.2.flags)) → t.mCd = (p'.map fun x => x.2.data) ++ tailOf s n →
      (∀ x ∈ p', x ∈ p) →
      t.mPos = t.sBuf.length → (∀ x q, p' = x :: q → t.sBuf = x.2.data.take t.mPos ∧ t.mPos < c.line) →
      (p' = [] → t.mPos = 0) →
      (t.num + (s.mCd.length - t.mCd.length) = s.num ∧ t.mCd.length ≤ s.mCd.length) →
      (∀ x ∈ t.done, x ∈ s.done ∨ x = (r, expected a)) →
      ((s.sent.take n).Perm (t.done.map (·.1) ++ p'.map (·.1))) → Inv c t n p' := by
    intro t p' e1 e2 e3 e4 e5 e8 e9 e10 e11 e12 e13 e14 e15 e16 e17 e18
    have mono : ∀ i r a, PairAt s i r a → PairAt t i r a := fun i r a hp =>
      hp.mono ⟨[], by rw [e1, List.append_nil]⟩ ⟨[], by rw [e2, List.append_nil]⟩
    refine ⟨?_, ?_, ?_, ?_, ?_, ?_, ?_, e10, ?_, ?_, e13, e14, e15, ?_, ?_, ?_, ?_, ?_, ?_⟩
    · rw [e1]; exact h.le
    · rw [e3, e1]; exact h.sCr
    · rw [e2, e4]; exact h.log
    · rw [e2, e1]; exact h.logLe
    · rw [e5, e1, e2]; exact h.mList
    · intro i t'' a'' hi
      rw [e2] at hi
      obtain ⟨r'', h1, h2⟩ := h.pairs i t'' a'' hi
      exact ⟨r'', mono _ _ _ h1, h2⟩
    · intro f' hf; rw [e4] at hf; rw [e2]; exact h.off f' hf
    · rw [tl t e4 e2]; exact e11
    · intro x hx
      obtain ⟨⟨i, h1⟩, h2⟩ := h.inP x (e12 x hx)
      exact ⟨⟨i, mono _ _ _ h1⟩, h2⟩
    · rw [e4, e5]; have := h.num; omega
    · have := h.cap; omega
    · intro x hx
      rcases e17 x hx with hx | hx
      · obtain ⟨i, a, h1, h2⟩ := h.done x hx
        exact ⟨i, a, mono _ _ _ h1, h2⟩
      · rw [hx]; exact ⟨i, a, mono _ _ _ hpair, rfl⟩
    · rw [e1]; exact e18
    · rw [e8]; exact h.fits
    · rw [e8, e1, e9]; exact h.order
  by_cases hlast : c.line ≤ s.mPos + c.bw
  · have hmin : min (s.mPos + c.bw) c.line = c.line := by omega
    rw [hmin, if_pos (Nat.le_refl _), if_pos (Nat.le_refl _)] at hm
    cases hm
    have ht : a.data.take c.line = a.data := by rw [← ha.len, List.take_length]
    have ex : expected a = ⟨.ok, a.data, a.flags⟩ := by
      unfold expected; rw [if_neg (by rw [her]; decide), if_pos hdt]
    refine ⟨q, common _ q rfl rfl rfl rfl rfl rfl rfl e2 e4 (fun x hx => by rw [hp]; exact List.mem_cons_of_mem _ hx)
      rfl (fun x q' _ => ⟨by simp, hl⟩) (fun _ => rfl) ?_ ?_ ?_⟩
    · show s.num - 1 + (s.mCd.length - ds.length) = s.num ∧ ds.length ≤ s.mCd.length
      rw [hmc, List.length_cons]
      omega
    · intro x hx
      rcases List.mem_append.1 hx with hx | hx
      · exact .inl hx
      · right; rw [List.mem_singleton.1 hx, ht, ex]
    · show (s.sent.take n).Perm ((s.done ++ [(r, (⟨.ok, a.data.take c.line, a.flags⟩ : Result))]).map Prod.fst ++ q.map Prod.fst)
      rw [List.map_append, List.append_assoc]
      have := h.perm
      rw [hp, List.map_cons] at this
      exact this
  · have hmin : min (s.mPos + c.bw) c.line = s.mPos + c.bw := by omega
    rw [hmin, if_neg (by omega), if_neg (by omega)] at hm
    cases hm
    refine ⟨p, common _ p rfl rfl rfl rfl rfl rfl rfl ?_ ?_ (fun x hx => hx) ?_ ?_ ?_ ?_ (fun x hx => .inl hx) h.perm⟩
    · exact hsc.symm.trans h.sCd
    · exact hmc.symm.trans h.mCd
    · show s.mPos + c.bw = (a.data.take (s.mPos + c.bw)).length
      rw [List.length_take, ha.len]; omega
    · intro x q' hq
      rw [hp] at hq
      obtain ⟨rfl, _⟩ := List.cons.inj hq
      exact ⟨rfl, show s.mPos + c.bw < c.line by omega⟩
    · intro hq; rw [hp] at hq; cases hq
    · show s.num + (s.mCd.length - (a.data :: ds).length) = s.num ∧ (a.data :: ds).length ≤ s.mCd.length
      rw [hmc]; omega

theorem Inv.reach {c : Cfg} {s : St} (h : Reach c s) (hl : 0 < c.line) : ∃ n p, Inv c s n p := by
  induction h with
  | init => exact ⟨0, [], Inv.init c⟩
  | @step s t m hr hf hm ih =>
    obtain ⟨n, p, ih⟩ := ih
    cases m with
    | submit r => cases hm; exact ⟨n, p, ih.submit r hf⟩
    | ac =>
      unfold St.move at hm
      cases ha : s.acq with
      | nil => rw [ha] at hm; cases hm
      | cons r rest =>
        rw [ha] at hm
        simp only [] at hm
        by_cases hn : s.num < 16
        · rw [if_pos hn] at hm
          cases hm
          exact ⟨n, p, ih.ac r rest ha hn⟩
        · rw [if_neg hn] at hm; cases hm
    | target a =>
      unfold St.move at hm
      cases ho : s.offered with
      | some f => rw [ho] at hm; cases hm
      | none =>
        cases hml : s.mList with
        | nil => rw [ho, hml] at hm; cases hm
        | cons t rest =>
          rw [ho, hml] at hm
          cases hm
          exact ⟨n, p, ih.target t rest a hf ho hml⟩
    | cr => obtain ⟨p', h'⟩ := ih.cr hm hl; exact ⟨_, p', h'⟩
    | cd => obtain ⟨p', h'⟩ := ih.cd hm hl; exact ⟨_, p', h'⟩

end Verif.AceSnoop
