import Verif.ChiSn.One

/-!
# Property C52: the CHI slave node carries out each request once, on the right bytes
-/

namespace Verif.ChiSn

/-! ### What a run did -/

/-- The requests accepted, in order. -/
def tooks (h : List Did) : List Req := h.filterMap fun | .took r => some r | _ => none
/-- The requests sent back for a retry, in order. -/
def bounces (h : List Did) : List Req := h.filterMap fun | .bounced r => some r | _ => none
/-- The data phases carried out, in order, with their data. -/
def dones (h : List Did) : List Txn := h.filterMap fun | .done t => some t | _ => none
/-- The cache maintenance requests answered, in order. -/
def answereds (h : List Did) : List Req := h.filterMap fun | .answered r => some r | _ => none

theorem tooks_append (a b : List Did) : tooks (a ++ b) = tooks a ++ tooks b := List.filterMap_append
theorem bounces_append (a b : List Did) : bounces (a ++ b) = bounces a ++ bounces b := List.filterMap_append
theorem dones_append (a b : List Did) : dones (a ++ b) = dones a ++ dones b := List.filterMap_append
theorem answereds_append (a b : List Did) : answereds (a ++ b) = answereds a ++ answereds b :=
  List.filterMap_append

/-- The requests waiting for their data. -/
def waiting (s : St) : List Req := (List.range 256).filterMap fun i => (s.wait i).map (·.req)

/-! ### Single steps, spelled out -/

theorem step_req {s s' : St} {r : Req} {h : List Did} (e : onReq s r = .ok s' h) :
    (s'.mem = s.mem ∧ s'.wait = s.wait ∧ s'.datQ = s.datQ ∧ s'.out = s.out) ∧
    ((h = [.took r] ∧ s'.reqQ = s.reqQ ++ [r] ∧ s'.rsp = s.rsp) ∨
     (h = [.bounced r] ∧ r.allowRetry = true ∧ s'.reqQ = s.reqQ ∧
      s'.rsp = s.rsp ++ [.retryAck r.tag, .pcrdGrant r.tag])) := by
  unfold onReq at e
  by_cases h1 : r.allowRetry = true
  · rw [if_pos h1] at e
    by_cases h2 : (!s.toggle) = true
    · rw [if_pos h2] at e; cases e
      exact ⟨⟨rfl, rfl, rfl, rfl⟩, .inr ⟨rfl, h1, rfl, rfl⟩⟩
    · rw [if_neg h2] at e; cases e
      exact ⟨⟨rfl, rfl, rfl, rfl⟩, .inl ⟨rfl, rfl, rfl⟩⟩
  · rw [if_neg h1] at e; cases e
    exact ⟨⟨rfl, rfl, rfl, rfl⟩, .inl ⟨rfl, rfl, rfl⟩⟩

/-- The kinds of answer a request gets in its response phase. -/
inductive Phase where
  | read | op | maint | write
  deriving DecidableEq

/-- By the opcodes of the CHI specification (table of request opcodes):
`ReadNoSnp` and `ReadNoSnpSep`; the atomics that return a value; the cache
maintenance requests; anything else is answered as a write. -/
def Req.phase (r : Req) : Phase :=
  if r.opcode ∈ [0x04, 0x11] then .read
  else if 0x30 ≤ r.opcode ∧ r.opcode ≤ 0x39 then .op
  else if r.opcode ∈ [0x08, 0x09, 0x0A, 0x27] then .maint
  else .write

theorem phase_model (r : Req) : r.phase =
    if r.isRead || r.isReadSep then .read
    else if r.isAtomic && !r.isAtStore then .op
    else if r.isMaint then .maint
    else .write := by
  unfold Req.phase
  have h1 : (r.opcode ∈ [0x04, 0x11]) ↔ (r.isRead || r.isReadSep) = true := by
    simp [Req.isRead, Req.isReadSep]
  have h2 : (0x30 ≤ r.opcode ∧ r.opcode ≤ 0x39) ↔ (r.isAtomic && !r.isAtStore) = true := by
    simp [Req.isAtomic, Req.isAtStore]; omega
  have h3 : (r.opcode ∈ [0x08, 0x09, 0x0A, 0x27]) ↔ r.isMaint = true := by
    simp [Req.isMaint]; omega
  simp only [h1, h2, h3]

theorem step_order {s s' : St} {db : Nat} {buf : Nat → Byte} {en : Nat → Bool} {h : List Did}
    (e : onOrder s db buf en = .ok s' h) : ∃ r q, s.reqQ = r :: q ∧ s'.reqQ = q ∧ s'.mem = s.mem ∧
    s'.out = s.out ∧ db < 256 ∧ s.wait db = none ∧
    ((r.phase = .read ∧ h = [] ∧ s'.wait = s.wait ∧ s'.datQ = s.datQ ++ [⟨r, buf, en, 0⟩] ∧
      s'.rsp = (if r.wantsReceipt then s.rsp ++ [.receipt r.tag] else s.rsp)) ∨
     (r.phase = .op ∧ h = [] ∧ s'.wait = setWait s.wait db (some ⟨r, buf, en, 0⟩) ∧ s'.datQ = s.datQ ∧
      s'.rsp = s.rsp ++ [.dbid r.tag db]) ∨
     (r.phase = .maint ∧ h = [.answered r] ∧ s'.wait = s.wait ∧ s'.datQ = s.datQ ∧
      s'.rsp = s.rsp ++ [.comp r.tag]) ∨
     (r.phase = .write ∧ h = [] ∧ s'.wait = setWait s.wait db (some ⟨r, buf, en, 0⟩) ∧ s'.datQ = s.datQ ∧
      s'.rsp = s.rsp ++ [.compDbid r.tag db])) := by
  unfold onOrder at e
  cases hq : s.reqQ with
  | nil => rw [hq] at e; cases e
  | cons r q =>
    rw [hq] at e
    simp only at e
    by_cases hc : 256 ≤ db ∨ (s.wait db).isSome
    · rw [if_pos hc] at e; cases e
    · rw [if_neg hc] at e
      have hn : s.wait db = none := by
        cases hw : s.wait db with
        | none => rfl
        | some t => exact absurd (.inr (by rw [hw]; rfl)) hc
      have hlt : db < 256 := Nat.lt_of_not_le fun h => hc (.inl h)
      refine ⟨r, q, rfl, ?_⟩
      unfold respond at e
      rw [phase_model]
      by_cases h1 : (r.isRead || r.isReadSep) = true
      · rw [if_pos h1] at e ⊢; cases e
        exact ⟨rfl, rfl, rfl, hlt, hn, .inl ⟨rfl, rfl, rfl, rfl, rfl⟩⟩
      · rw [if_neg h1] at e ⊢
        by_cases h2 : (r.isAtomic && !r.isAtStore) = true
        · rw [if_pos h2] at e ⊢; cases e
          exact ⟨rfl, rfl, rfl, hlt, hn, .inr (.inl ⟨rfl, rfl, rfl, rfl, rfl⟩)⟩
        · rw [if_neg h2] at e ⊢
          by_cases h3 : r.isMaint = true
          · rw [if_pos h3] at e ⊢; cases e
            exact ⟨rfl, rfl, rfl, hlt, hn, .inr (.inr (.inl ⟨rfl, rfl, rfl, rfl, rfl⟩))⟩
          · rw [if_neg h3] at e ⊢; cases e
            exact ⟨rfl, rfl, rfl, hlt, hn, .inr (.inr (.inr ⟨rfl, rfl, rfl, rfl, rfl⟩))⟩

theorem copyData_req {t t' : Txn} {d : Dat} (e : copyData t d = some t') : t'.req = t.req := by
  unfold copyData at e
  simp only at e
  by_cases h : d.did * d.data.length ≤ lineSz
  · rw [if_pos h] at e; cases e; rfl
  · rw [if_neg h] at e; cases e

theorem step_dat {s s' : St} {k : Nat} {d : Dat} {h : List Did} (e : onDat s k d = .ok s' h) :
    (h = [] ∧ s'.mem = s.mem ∧ s'.reqQ = s.reqQ ∧ s'.out = s.out ∧ s'.rsp = s.rsp) ∧
    ((s.wait k = none ∧ s'.wait = s.wait ∧ s'.datQ = s.datQ) ∨
     ∃ t t', s.wait k = some t ∧ copyData t d = some t' ∧ t'.req = t.req ∧
      ((t'.got = 64 ∧ s'.wait = setWait s.wait k none ∧ s'.datQ = s.datQ ++ [t']) ∨
       (t'.got ≠ 64 ∧ s'.wait = setWait s.wait k (some t') ∧ s'.datQ = s.datQ))) := by
  unfold onDat at e
  cases hw : s.wait k with
  | none =>
    rw [hw] at e; cases e
    exact ⟨⟨rfl, rfl, rfl, rfl, rfl⟩, .inl ⟨rfl, rfl, rfl⟩⟩
  | some t =>
    rw [hw] at e
    simp only at e
    cases hc : copyData t d with
    | none => rw [hc] at e; cases e
    | some t' =>
      rw [hc] at e
      simp only at e
      by_cases hg : t'.got = lineSz
      · rw [if_pos hg] at e; cases e
        exact ⟨⟨rfl, rfl, rfl, rfl, rfl⟩, .inr ⟨t, t', rfl, hc, copyData_req hc, .inl ⟨hg, rfl, rfl⟩⟩⟩
      · rw [if_neg hg] at e; cases e
        exact ⟨⟨rfl, rfl, rfl, rfl, rfl⟩, .inr ⟨t, t', rfl, hc, copyData_req hc, .inr ⟨hg, rfl, rfl⟩⟩⟩

theorem step_run {s s' : St} {h : List Did} (e : onRun s = .ok s' h) :
    ∃ t q o, s.datQ = t :: q ∧ h = [.done t] ∧ perform t s.mem = some (s'.mem, o) ∧ s'.datQ = q ∧
      s'.out = s.out ++ o.toList ∧ s'.reqQ = s.reqQ ∧ s'.wait = s.wait ∧ s'.rsp = s.rsp := by
  unfold onRun at e
  cases hq : s.datQ with
  | nil => rw [hq] at e; cases e
  | cons t q =>
    rw [hq] at e
    simp only at e
    cases hp : perform t s.mem with
    | none => rw [hp] at e; cases e
    | some x =>
      obtain ⟨m, o⟩ := x
      rw [hp] at e; cases e
      exact ⟨t, q, o, rfl, rfl, hp, rfl, rfl, rfl, rfl, rfl⟩

/-! ### The requests inside the node -/

/-- Every request the node holds satisfies `P`. -/
def Holds (P : Req → Prop) (s : St) : Prop :=
  (∀ r ∈ s.reqQ, P r) ∧ (∀ k t, s.wait k = some t → P t.req) ∧ (∀ t ∈ s.datQ, P t.req)

theorem setWait_ok {P : Req → Prop} {w : Nat → Option Txn} (hw : ∀ k t, w k = some t → P t.req)
    {k : Nat} {o : Option Txn} (ho : ∀ t, o = some t → P t.req) :
    ∀ j t, setWait w k o j = some t → P t.req := by
  intro j t h
  unfold setWait at h
  by_cases hj : j = k
  · rw [if_pos hj] at h; exact ho t h
  · rw [if_neg hj] at h; exact hw j t h

theorem holds_step {P : Req → Prop} {s s' : St} {ev : Ev} {h : List Did} (e : step s ev = .ok s' h)
    (ht : ∀ r ∈ tooks h, P r) (hs : Holds P s) : Holds P s' := by
  obtain ⟨a, b, c⟩ := hs
  cases ev with
  | req r =>
    obtain ⟨⟨_, h2, h3, _⟩, h5⟩ := step_req e
    refine ⟨?_, by rw [h2]; exact b, by rw [h3]; exact c⟩
    rcases h5 with ⟨x, y, _⟩ | ⟨_, _, y, _⟩
    · rw [y]
      intro q hq
      rcases List.mem_append.1 hq with hq | hq
      · exact a q hq
      · have : q = r := by simpa using hq
        rw [this]
        exact ht r (by rw [x]; exact List.mem_singleton.2 rfl)
    · rw [y]; exact a
  | order db buf en =>
    obtain ⟨r, q, h1, h2, _, _, _, _, h3⟩ := step_order e
    have hr : P r := a r (by rw [h1]; exact List.mem_cons_self)
    have hq : ∀ x ∈ s'.reqQ, P x := by
      rw [h2]; intro x hx; exact a x (by rw [h1]; exact List.mem_cons_of_mem _ hx)
    rcases h3 with ⟨_, _, w, d, _⟩ | ⟨_, _, w, d, _⟩ | ⟨_, _, w, d, _⟩ | ⟨_, _, w, d, _⟩
    · refine ⟨hq, by rw [w]; exact b, ?_⟩
      rw [d]; intro t ht'
      rcases List.mem_append.1 ht' with h | h
      · exact c t h
      · have : t = ⟨r, buf, en, 0⟩ := by simpa using h
        rw [this]; exact hr
    · exact ⟨hq, by rw [w]; exact setWait_ok b (fun t ht => by cases ht; exact hr), by rw [d]; exact c⟩
    · exact ⟨hq, by rw [w]; exact b, by rw [d]; exact c⟩
    · exact ⟨hq, by rw [w]; exact setWait_ok b (fun t ht => by cases ht; exact hr), by rw [d]; exact c⟩
  | dat k d =>
    obtain ⟨⟨_, _, h2, _⟩, h3⟩ := step_dat e
    have hq : ∀ x ∈ s'.reqQ, P x := by rw [h2]; exact a
    rcases h3 with ⟨_, w, q⟩ | ⟨t, t', h4, _, h5, h6⟩
    · exact ⟨hq, by rw [w]; exact b, by rw [q]; exact c⟩
    · have hp : P t'.req := by rw [h5]; exact b k t h4
      rcases h6 with ⟨_, w, q⟩ | ⟨_, w, q⟩
      · refine ⟨hq, by rw [w]; exact setWait_ok b (fun t ht => by cases ht), ?_⟩
        rw [q]; intro x hx
        rcases List.mem_append.1 hx with hx | hx
        · exact c x hx
        · have : x = t' := by simpa using hx
          rw [this]; exact hp
      · exact ⟨hq, by rw [w]; exact setWait_ok b (fun t ht => by cases ht; exact hp), by rw [q]; exact c⟩
  | run =>
    obtain ⟨t, q, o, h1, _, _, h2, _, h3, h4, _⟩ := step_run e
    refine ⟨by rw [h3]; exact a, by rw [h4]; exact b, ?_⟩
    rw [h2]; intro x hx; exact c x (by rw [h1]; exact List.mem_cons_of_mem _ hx)

theorem holds_run {P : Req → Prop} {s s' : St} {h : List Did} (r : Run s h s')
    (ht : ∀ r ∈ tooks h, P r) (hs : Holds P s) : Holds P s' := by
  induction r with
  | nil s => exact hs
  | cons e _ ih =>
    rw [tooks_append] at ht
    exact ih (fun r hr => ht r (List.mem_append_right _ hr))
      (holds_step e (fun r hr => ht r (List.mem_append_left _ hr)) hs)

theorem holds_start (P : Req → Prop) (m : Mem) : Holds P (start m) :=
  ⟨fun _ h => (by cases h), fun _ _ h => (by cases h), fun _ h => (by cases h)⟩

/-! ### Memory and data messages -/

theorem served_run {s s' : St} {h : List Did} (r : Run s h s')
    (ht : ∀ r ∈ tooks h, Legal r ∧ AddClr r) (hs : Holds (fun r => Legal r ∧ AddClr r) s) :
    ∃ os, s'.out = s.out ++ os ∧ Served s.mem (dones h) s'.mem os := by
  induction r with
  | nil s => exact ⟨[], by simp, .nil _⟩
  | @cons s s1 s2 ev h1 h2 e _ ih =>
    rw [tooks_append] at ht
    have ht1 : ∀ r ∈ tooks h1, Legal r ∧ AddClr r := fun r hr => ht r (List.mem_append_left _ hr)
    obtain ⟨os, ho, hv⟩ := ih (fun r hr => ht r (List.mem_append_right _ hr)) (holds_step e ht1 hs)
    rw [dones_append]
    have quiet : dones h1 = [] → s1.mem = s.mem → s1.out = s.out →
        ∃ os, s2.out = s.out ++ os ∧ Served s.mem (dones h1 ++ dones h2) s2.mem os := by
      intro a b c
      rw [a, ← b, ← c]; exact ⟨os, ho, hv⟩
    cases ev with
    | req r =>
      obtain ⟨⟨a, _, _, b⟩, c⟩ := step_req e
      refine quiet ?_ a b
      rcases c with ⟨c, _⟩ | ⟨c, _⟩ <;> rw [c] <;> rfl
    | order db buf en =>
      obtain ⟨r, q, _, _, a, b, _, _, c⟩ := step_order e
      refine quiet ?_ a b
      rcases c with ⟨_, c, _⟩ | ⟨_, c, _⟩ | ⟨_, c, _⟩ | ⟨_, c, _⟩ <;> rw [c] <;> rfl
    | dat k d =>
      obtain ⟨⟨a, b, _, c, _⟩, _⟩ := step_dat e
      exact quiet (by rw [a]; rfl) b c
    | run =>
      obtain ⟨t, q, o, a, b, c, _, d, _⟩ := step_run e
      have hl := hs.2.2 t (by rw [a]; exact List.mem_cons_self)
      obtain ⟨o', p1, p2⟩ := perform_ok t s.mem hl.1 hl.2
      rw [c] at p1
      have p3 := Option.some.inj p1
      have hm : s1.mem = specMem t s.mem := congrArg Prod.fst p3
      have ho' : o = o' := congrArg Prod.snd p3
      refine ⟨o.toList ++ os, by rw [ho, d, List.append_assoc], ?_⟩
      rw [b]
      subst ho'
      rw [hm] at hv
      exact .cons p2 hv

/-- **Every request is carried out on the right bytes.** Whatever the order in which requests
and data arrive and the node's threads run: the memory at any moment, and everything sent on
the data channel so far, are what one gets by carrying out the data phases done so far one after
the other, each with the effect the CHI specification gives it; reads return the line as it was
at their turn, atomics the value they replaced. Partial: atomic stores and loads that name an
operation other than add and clear are excluded (see `other_ops_do_nothing`), and so are reads of
less than a line (`narrow_read_undefined`, `narrow_read_leaks`). -/
theorem memory_is_history_partial {m : Mem} {h : List Did} {s : St} (r : Run (start m) h s)
    (hl : ∀ r ∈ tooks h, Legal r ∧ AddClr r) : Served m (dones h) s.mem s.out := by
  obtain ⟨os, h1, h2⟩ := served_run r hl (holds_start _ m)
  have : s.out = os := h1.trans (List.nil_append _)
  rw [this]; exact h2

/-! ### Exactly once -/

theorem filterMap_ext {α β : Type} {f g : α → Option β} : ∀ {l : List α}, (∀ x ∈ l, f x = g x) →
    l.filterMap f = l.filterMap g
  | [], _ => rfl
  | a :: l, h => by
    have ih := filterMap_ext (l := l) fun x hx => h x (List.mem_cons_of_mem _ hx)
    simp only [List.filterMap_cons, h a List.mem_cons_self, ih]

theorem filterMap_set {f : Nat → Option Req} {k : Nat} {x : Req} (hk : f k = none) :
    ∀ {l : List Nat}, l.Nodup → k ∈ l →
      (l.filterMap fun i => if i = k then some x else f i).Perm (x :: l.filterMap f)
  | [], _, h => by cases h
  | a :: l, hn, h => by
    obtain ⟨ha, hn⟩ := List.nodup_cons.1 hn
    by_cases e : a = k
    · subst e
      have hc : (l.filterMap fun i => if i = a then some x else f i) = l.filterMap f := by
        apply filterMap_ext
        intro i hi
        exact if_neg (fun (e : i = a) => ha (e ▸ hi))
      rw [List.filterMap_cons_some (b := x) (by simp), List.filterMap_cons_none hk, hc]
    · have hm : k ∈ l := by
        rcases List.mem_cons.1 h with h | h
        · exact absurd h.symm e
        · exact h
      have ih := filterMap_set (x := x) hk hn hm
      cases hf : f a with
      | none =>
        rw [List.filterMap_cons_none (by simp only [e, if_false]; exact hf), List.filterMap_cons_none hf]
        exact ih
      | some y =>
        rw [List.filterMap_cons_some (b := y) (by simp only [e, if_false]; exact hf),
          List.filterMap_cons_some hf]
        exact (List.Perm.cons y ih).trans (List.Perm.swap x y _)

theorem waiting_set {s s' : St} {k : Nat} {t : Txn} (hk : k < 256) (h0 : s.wait k = none)
    (h1 : s'.wait = setWait s.wait k (some t)) : (waiting s').Perm (t.req :: waiting s) := by
  have := filterMap_set (f := fun i => (s.wait i).map (·.req)) (k := k) (x := t.req)
    (by rw [h0]; rfl) List.nodup_range (List.mem_range.2 hk)
  unfold waiting
  rw [h1]
  refine List.Perm.trans (List.Perm.of_eq ?_) this
  apply filterMap_ext
  intro i _
  unfold setWait
  by_cases e : i = k
  · rw [if_pos e, if_pos e]; rfl
  · rw [if_neg e, if_neg e]

theorem waiting_clear {s s' : St} {k : Nat} {t : Txn} (hk : k < 256) (h0 : s.wait k = some t)
    (h1 : s'.wait = setWait s.wait k none) : (waiting s).Perm (t.req :: waiting s') := by
  refine waiting_set hk (by rw [h1]; exact if_pos rfl) ?_
  funext i
  rw [h1]
  unfold setWait
  by_cases e : i = k
  · rw [if_pos e, e, h0]
  · rw [if_neg e, if_neg e]

theorem waiting_same {s s' : St} {k : Nat} {t t' : Txn} (h0 : s.wait k = some t) (hr : t'.req = t.req)
    (h1 : s'.wait = setWait s.wait k (some t')) : waiting s' = waiting s := by
  unfold waiting
  apply filterMap_ext
  intro i _
  rw [h1]
  unfold setWait
  by_cases e : i = k
  · rw [if_pos e, e, h0]; simp [hr]
  · rw [if_neg e]

/-- Everything the node holds, and everything it has finished. -/
def inside (s : St) : List Req := s.reqQ ++ waiting s ++ s.datQ.map (·.req)
def finished (h : List Did) : List Req := (dones h).map (·.req) ++ answereds h

/-- Ids are below 256. -/
def IdsOk (s : St) : Prop := ∀ k t, s.wait k = some t → k < 256

theorem ids_step {s s' : St} {ev : Ev} {h : List Did} (e : step s ev = .ok s' h) (hs : IdsOk s) :
    IdsOk s' := by
  have key : ∀ {k o}, (k < 256) → s'.wait = setWait s.wait k o → IdsOk s' := by
    intro k o hk hw j t hj
    rw [hw] at hj
    unfold setWait at hj
    by_cases e : j = k
    · omega
    · rw [if_neg e] at hj; exact hs j t hj
  have same : s'.wait = s.wait → IdsOk s' := by
    intro hw j t hj
    rw [hw] at hj; exact hs j t hj
  cases ev with
  | req r => exact same (step_req e).1.2.1
  | order db buf en =>
    obtain ⟨r, q, _, _, _, _, hd, _, c⟩ := step_order e
    rcases c with ⟨_, _, w, _⟩ | ⟨_, _, w, _⟩ | ⟨_, _, w, _⟩ | ⟨_, _, w, _⟩
    · exact same w
    · exact key hd w
    · exact same w
    · exact key hd w
  | dat k d =>
    obtain ⟨_, c⟩ := step_dat e
    rcases c with ⟨_, w, _⟩ | ⟨t, t', h0, _, _, ⟨_, w, _⟩ | ⟨_, w, _⟩⟩
    · exact same w
    · exact key (hs k t h0) w
    · exact key (hs k t h0) w
  | run =>
    obtain ⟨t, q, o, _, _, _, _, _, _, w, _⟩ := step_run e
    exact same w

theorem once_step {s s' : St} {ev : Ev} {h : List Did} (e : step s ev = .ok s' h) (hi : IdsOk s) :
    (tooks h ++ inside s).Perm (finished h ++ inside s') := by
  -- counting is easier than shuffling
  rw [List.perm_iff_count]
  intro x
  cases ev with
  | req r =>
    obtain ⟨⟨_, w, d, _⟩, c⟩ := step_req e
    have hw : waiting s' = waiting s := by unfold waiting; rw [w]
    rcases c with ⟨a, b, _⟩ | ⟨a, _, b, _⟩
    · rw [a]; simp only [inside, finished, hw, d, b, tooks, dones, answereds, List.filterMap_cons,
        List.filterMap_nil, List.count_append, List.map_nil, List.count_nil]
      omega
    · rw [a]; simp only [inside, finished, hw, d, b, tooks, dones, answereds, List.filterMap_cons,
        List.filterMap_nil, List.count_append, List.map_nil, List.count_nil]
  | order db buf en =>
    obtain ⟨r, q, hq, hq', _, _, hd, h0, c⟩ := step_order e
    rcases c with ⟨_, a, w, d, _⟩ | ⟨_, a, w, d, _⟩ | ⟨_, a, w, d, _⟩ | ⟨_, a, w, d, _⟩
    · have hw : waiting s' = waiting s := by unfold waiting; rw [w]
      rw [a]; simp only [inside, finished, hw, d, hq, hq', tooks, dones, answereds, List.filterMap_nil,
        List.count_append, List.map_nil, List.count_nil, List.map_append, List.map_cons, List.count_cons]
      omega
    · have hw := (waiting_set hd h0 w).count_eq x
      rw [a]; simp only [inside, finished, hw, d, hq, hq', tooks, dones, answereds, List.filterMap_nil,
        List.count_append, List.map_nil, List.count_nil, List.count_cons]
      omega
    · have hw : waiting s' = waiting s := by unfold waiting; rw [w]
      rw [a]; simp only [inside, finished, hw, d, hq, hq', tooks, dones, answereds, List.filterMap_cons,
        List.filterMap_nil, List.count_append, List.map_nil, List.count_nil, List.count_cons]
      omega
    · have hw := (waiting_set hd h0 w).count_eq x
      rw [a]; simp only [inside, finished, hw, d, hq, hq', tooks, dones, answereds, List.filterMap_nil,
        List.count_append, List.map_nil, List.count_nil, List.count_cons]
      omega
  | dat k dd =>
    obtain ⟨⟨a, _, hq, _⟩, c⟩ := step_dat e
    rcases c with ⟨_, w, d⟩ | ⟨t, t', h0, _, hr, ⟨_, w, d⟩ | ⟨_, w, d⟩⟩
    · have hw : waiting s' = waiting s := by unfold waiting; rw [w]
      rw [a]; simp only [inside, finished, hw, d, hq, tooks, dones, answereds, List.filterMap_nil,
        List.map_nil, List.nil_append]
    · have hw := (waiting_clear (hi k t h0) h0 w).count_eq x
      rw [a]; simp only [inside, finished, hw, d, hq, tooks, dones, answereds, List.filterMap_nil,
        List.count_append, List.map_nil, List.count_nil, List.map_append, List.map_cons,
        List.count_cons, hr]
      omega
    · have hw := waiting_same h0 hr w
      rw [a]; simp only [inside, finished, hw, d, hq, tooks, dones, answereds, List.filterMap_nil,
        List.map_nil, List.nil_append]
  | run =>
    obtain ⟨t, q, o, hq, a, _, d, _, hq', w, _⟩ := step_run e
    have hw : waiting s' = waiting s := by unfold waiting; rw [w]
    rw [a]; simp only [inside, finished, hw, d, hq, hq', tooks, dones, answereds, List.filterMap_cons,
      List.filterMap_nil, List.count_append, List.map_nil, List.count_nil, List.map_cons, List.count_cons]
    omega

/-- **Each accepted request is carried out exactly once.** At any moment the requests accepted
are, as a multiset, those finished and those still inside the node: none is lost, done twice or
invented. (No hypothesis on the requests.) -/
theorem exactly_once {m : Mem} {h : List Did} {s : St} (r : Run (start m) h s) :
    (tooks h).Perm (finished h ++ inside s) := by
  have key : ∀ {s s' : St} {h : List Did}, Run s h s' → IdsOk s →
      (tooks h ++ inside s).Perm (finished h ++ inside s') := by
    intro s s' h r
    induction r with
    | nil s => intro _; exact List.Perm.refl _
    | @cons s s1 s2 ev h1 h2 e _ ih =>
      intro hi
      have a := once_step e hi
      have b := ih (ids_step e hi)
      rw [List.perm_iff_count] at a b ⊢
      intro x
      have a := a x
      have b := b x
      simp only [finished, tooks_append, dones_append, answereds_append, List.count_append,
        List.map_append] at a b ⊢
      omega
  have := key r (fun _ _ h => by cases h)
  have e : inside (start m) = [] := by
    unfold inside waiting
    have : ((List.range 256).filterMap fun i => ((start m).wait i).map (·.req)) = [] := by
      apply List.filterMap_eq_nil_iff.2
      intro i _; rfl
    rw [this]; rfl
  rw [e, List.append_nil] at this
  exact this

end Verif.ChiSn
