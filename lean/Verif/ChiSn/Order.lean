import Verif.ChiSn.Props

/-!
# Property C52, continued: answers, order, progress, assembled data, and what goes wrong
-/

namespace Verif.ChiSn

/-! ### Answers and order -/

/-- Reads, in a list of requests. -/
def reads (l : List Req) : List Req := l.filter fun r => r.isRead || r.isReadSep

theorem reads_append (a b : List Req) : reads (a ++ b) = reads a ++ reads b := List.filter_append ..

theorem reads_read {r : Req} (h : r.phase = .read) (l : List Req) : reads (r :: l) = r :: reads l := by
  have : (r.isRead || r.isReadSep) = true := by
    rw [phase_model] at h
    by_cases h1 : (r.isRead || r.isReadSep) = true
    · exact h1
    · rw [if_neg h1] at h
      by_cases h2 : (r.isAtomic && !r.isAtStore) = true
      · rw [if_pos h2] at h; cases h
      · rw [if_neg h2] at h
        by_cases h3 : r.isMaint = true
        · rw [if_pos h3] at h; cases h
        · rw [if_neg h3] at h; cases h
  exact List.filter_cons_of_pos this

theorem notRead_of_phase {r : Req} (h : r.phase ≠ .read) : (r.isRead || r.isReadSep) = false := by
  rw [phase_model] at h
  by_cases h1 : (r.isRead || r.isReadSep) = true
  · rw [if_pos h1] at h; exact absurd rfl h
  · exact Bool.eq_false_iff.2 h1

theorem reads_other {r : Req} (h : r.phase ≠ .read) (l : List Req) : reads (r :: l) = reads l := by
  exact List.filter_cons_of_neg (by rw [notRead_of_phase h]; simp)

/-- No read waits for data. -/
def WaitNoRead (s : St) : Prop := ∀ k t, s.wait k = some t → (t.req.isRead || t.req.isReadSep) = false

theorem waitNoRead_step {s s' : St} {ev : Ev} {h : List Did} (e : step s ev = .ok s' h)
    (hs : WaitNoRead s) : WaitNoRead s' := by
  have key : ∀ {k o}, (∀ t, o = some t → (t.req.isRead || t.req.isReadSep) = false) →
      s'.wait = setWait s.wait k o → WaitNoRead s' := by
    intro k o hk hw
    unfold WaitNoRead
    rw [hw]
    exact setWait_ok (P := fun r => (r.isRead || r.isReadSep) = false) hs hk
  have same : s'.wait = s.wait → WaitNoRead s' := by
    intro hw; unfold WaitNoRead; rw [hw]; exact hs
  cases ev with
  | req r => exact same (step_req e).1.2.1
  | order db buf en =>
    obtain ⟨r, q, _, _, _, _, hd, _, c⟩ := step_order e
    rcases c with ⟨_, _, w, _⟩ | ⟨p, _, w, _⟩ | ⟨_, _, w, _⟩ | ⟨p, _, w, _⟩
    · exact same w
    · exact key (fun t ht => by cases ht; exact notRead_of_phase (by rw [p]; decide)) w
    · exact same w
    · exact key (fun t ht => by cases ht; exact notRead_of_phase (by rw [p]; decide)) w
  | dat k d =>
    obtain ⟨_, c⟩ := step_dat e
    rcases c with ⟨_, w, _⟩ | ⟨t, t', h0, _, hr, ⟨_, w, _⟩ | ⟨_, w, _⟩⟩
    · exact same w
    · exact key (fun t ht => by cases ht) w
    · exact key (fun x hx => by cases hx; rw [hr]; exact hs k t h0) w
  | run =>
    obtain ⟨t, q, o, _, _, _, _, _, _, w, _⟩ := step_run e
    exact same w

theorem reads_step {s s' : St} {ev : Ev} {h : List Did} (e : step s ev = .ok s' h) (hs : WaitNoRead s) :
    reads (s.datQ.map (·.req)) ++ reads s.reqQ ++ reads (tooks h) =
      reads ((dones h).map (·.req)) ++ (reads (s'.datQ.map (·.req)) ++ reads s'.reqQ) := by
  cases ev with
  | req r =>
    obtain ⟨⟨_, w, d, _⟩, c⟩ := step_req e
    rcases c with ⟨a, b, _⟩ | ⟨a, _, b, _⟩
    · rw [a, b, d, reads_append]
      have e1 : tooks [Did.took r] = [r] := rfl
      have e2 : dones [Did.took r] = [] := rfl
      rw [e1, e2, List.append_assoc]; rfl
    · rw [a, b, d]; simp [tooks, dones, reads]
  | order db buf en =>
    obtain ⟨r, q, hq, hq', _, _, hd, h0, c⟩ := step_order e
    rcases c with ⟨p, a, w, d, _⟩ | ⟨p, a, w, d, _⟩ | ⟨p, a, w, d, _⟩ | ⟨p, a, w, d, _⟩
    · rw [a, d, hq, hq', List.map_append, reads_append, reads_read p]
      simp only [List.map_cons, List.map_nil, reads_read p]
      simp [tooks, dones, reads]
    all_goals
      rw [a, d, hq, hq', reads_other (by rw [p]; decide)]
      simp [tooks, dones, reads]
  | dat k dd =>
    obtain ⟨⟨a, _, hq, _⟩, c⟩ := step_dat e
    rcases c with ⟨_, w, d⟩ | ⟨t, t', h0, _, hr, ⟨_, w, d⟩ | ⟨_, w, d⟩⟩
    · rw [a, d, hq]; simp [tooks, dones, reads]
    · have : reads [t'.req] = [] := by
        unfold reads
        rw [List.filter_cons_of_neg (by rw [hr, hs k t h0]; simp)]; rfl
      rw [a, d, hq, List.map_append, reads_append]
      simp only [List.map_cons, List.map_nil, this]
      simp [tooks, dones, reads]
    · rw [a, d, hq]; simp [tooks, dones, reads]
  | run =>
    obtain ⟨t, q, o, hq, a, _, d, _, hq', w, _⟩ := step_run e
    rw [a, d, hq, hq']
    have e1 : dones [Did.done t] = [t] := rfl
    have e2 : tooks [Did.done t] = [] := rfl
    have e3 : reads ([] : List Req) = [] := rfl
    rw [e1, e2, e3, List.append_nil, ← List.append_assoc, ← reads_append, ← reads_append, ← reads_append]
    rfl

/-- **Reads are served in the order they were accepted.** -/
theorem reads_in_order {m : Mem} {h : List Did} {s : St} (r : Run (start m) h s) :
    reads (tooks h) = reads ((dones h).map (·.req)) ++
      (reads (s.datQ.map (·.req)) ++ reads s.reqQ) := by
  have key : ∀ {s s' : St} {h : List Did}, Run s h s' → WaitNoRead s →
      reads (s.datQ.map (·.req)) ++ reads s.reqQ ++ reads (tooks h) =
        reads ((dones h).map (·.req)) ++ (reads (s'.datQ.map (·.req)) ++ reads s'.reqQ) := by
    intro s s' h r
    induction r with
    | nil s => intro _; simp [tooks, dones, reads]
    | @cons s s1 s2 ev h1 h2 e _ ih =>
      intro hi
      have a := reads_step e hi
      have b := ih (waitNoRead_step e hi)
      rw [tooks_append, dones_append, List.map_append, reads_append, reads_append, ← List.append_assoc, a,
        List.append_assoc, b, List.append_assoc]
  have := key r (fun _ _ h => by cases h)
  exact this

/-- What a request is told once the node has reached it. -/
inductive Told where
  | comp (tag : Nat) | dbid (tag : Nat) | compDbid (tag : Nat)
  deriving DecidableEq

/-- The answer the specification demands; none for a read, whose data is its answer. -/
def Req.due (r : Req) : Option Told :=
  if r.isRead ∨ r.isReadSep then none
  else if r.isMaint then some (.comp r.tag)
  else if r.isAtLoad ∨ r.isAtSwap ∨ r.isAtCmp then some (.dbid r.tag)
  else some (.compDbid r.tag)

/-- The read receipt it is owed. -/
def Req.receiptDue (r : Req) : Option Nat :=
  if (r.isRead ∨ r.isReadSep) ∧ (r.order = 1 ∨ r.isReadSep) then some r.tag else none

def toldOf : Rsp → Option Told
  | .comp t => some (.comp t)
  | .dbid t _ => some (.dbid t)
  | .compDbid t _ => some (.compDbid t)
  | _ => none

def receiptOf : Rsp → Option Nat
  | .receipt t => some t
  | _ => none

/-- A retry reply: acknowledgement and credit. -/
def retryOf : Rsp → Option (Nat × Bool)
  | .retryAck t => some (t, false)
  | .pcrdGrant t => some (t, true)
  | _ => none

theorem due_phase (r : Req) : r.due = match r.phase with
    | .read => none | .op => some (.dbid r.tag) | .maint => some (.comp r.tag)
    | .write => some (.compDbid r.tag) := by
  unfold Req.due
  rw [phase_model]
  by_cases h1 : (r.isRead || r.isReadSep) = true
  · rw [if_pos h1, if_pos (by simpa using h1)]
  · rw [if_neg h1, if_neg (by simpa using h1)]
    cases ha : r.isAtomic
    · obtain ⟨n1, n2, n3, n4⟩ := nonatomic_kinds _ ha
      rw [if_neg (show ¬ (false && !r.isAtStore) = true by simp),
        if_neg (show ¬ (r.isAtLoad = true ∨ r.isAtSwap = true ∨ r.isAtCmp = true) by simp [n2, n3, n4])]
      cases hm : r.isMaint <;> rfl
    · obtain ⟨_, _, _, k4, k5⟩ := atomic_kinds _ ha
      rw [if_neg (show ¬ r.isMaint = true by simp [k4]), if_neg (show ¬ r.isMaint = true by simp [k4])]
      rcases k5 with ⟨a, b, c, d⟩ | ⟨a, b, c, d⟩ | ⟨a, b, c, d⟩ | ⟨a, b, c, d⟩ <;>
        simp only [a, b, c, d] <;> rfl

theorem receiptDue_phase (r : Req) : r.receiptDue =
    if r.phase = .read ∧ r.wantsReceipt = true then some r.tag else none := by
  unfold Req.receiptDue Req.wantsReceipt
  by_cases h1 : r.phase = .read
  · have : (r.isRead || r.isReadSep) = true := by
      have := reads_read h1 []
      unfold reads at this
      by_cases h : (r.isRead || r.isReadSep) = true
      · exact h
      · rw [List.filter_cons_of_neg (by simpa using h)] at this; cases this
    refine ite_cong (fun h => ⟨h1, by simpa using h.2⟩)
      (fun h => ⟨by simpa using this, by simpa using h.2⟩) (fun _ => rfl)
  · have := notRead_of_phase h1
    simp at this
    rw [if_neg (by simp [this]), if_neg (by simp [h1])]

theorem answers_step {s s' : St} {ev : Ev} {h : List Did} (e : step s ev = .ok s' h) :
    (∃ l, s.reqQ ++ tooks h = l ++ s'.reqQ ∧
      s'.rsp.filterMap toldOf = s.rsp.filterMap toldOf ++ l.filterMap Req.due ∧
      s'.rsp.filterMap receiptOf = s.rsp.filterMap receiptOf ++ l.filterMap Req.receiptDue) ∧
    s'.rsp.filterMap retryOf = s.rsp.filterMap retryOf ++
      (bounces h).flatMap (fun r => [(r.tag, false), (r.tag, true)]) := by
  have quiet : s.reqQ ++ tooks h = s'.reqQ → bounces h = [] → s'.rsp = s.rsp → (∃ l, s.reqQ ++ tooks h = l ++ s'.reqQ ∧
      s'.rsp.filterMap toldOf = s.rsp.filterMap toldOf ++ l.filterMap Req.due ∧
      s'.rsp.filterMap receiptOf = s.rsp.filterMap receiptOf ++ l.filterMap Req.receiptDue) ∧
    s'.rsp.filterMap retryOf = s.rsp.filterMap retryOf ++
      (bounces h).flatMap (fun r => [(r.tag, false), (r.tag, true)]) := by
    intro a b c
    rw [a, b, c]
    exact ⟨⟨[], rfl, by simp, by simp⟩, by simp⟩
  cases ev with
  | req r =>
    obtain ⟨_, c⟩ := step_req e
    rcases c with ⟨a, b, c⟩ | ⟨a, _, b, c⟩
    · exact quiet (by rw [a, b]; rfl) (by rw [a]; rfl) c
    · rw [a, b, c]
      refine ⟨⟨[], by simp [tooks], ?_, ?_⟩, ?_⟩
      · simp [toldOf]
      · simp [receiptOf]
      · simp [retryOf, bounces]
  | order db buf en =>
    obtain ⟨r, q, hq, hq', _, _, hd, h0, c⟩ := step_order e
    have hdue := due_phase r
    have hrec := receiptDue_phase r
    rcases c with ⟨p, a, w, d, c⟩ | ⟨p, a, w, d, c⟩ | ⟨p, a, w, d, c⟩ | ⟨p, a, w, d, c⟩
    all_goals
      rw [p] at hdue hrec
      simp only at hdue
      rw [a, hq, hq', c]
    · refine ⟨⟨[r], by simp [tooks], ?_, ?_⟩, ?_⟩
      · simp only [List.filterMap_cons, hdue]
        cases r.wantsReceipt <;> simp [toldOf]
      · simp only [List.filterMap_cons, hrec]
        cases r.wantsReceipt <;> simp [receiptOf]
      · cases r.wantsReceipt <;> simp [retryOf, bounces]
    all_goals
      rw [if_neg (fun h => by cases h.1)] at hrec
      refine ⟨⟨[r], by simp [tooks], ?_, ?_⟩, ?_⟩
      · simp [hdue, toldOf]
      · simp [hrec, receiptOf]
      · simp [retryOf, bounces]
  | dat k dd =>
    obtain ⟨⟨a, _, hq, _, c⟩, _⟩ := step_dat e
    exact quiet (by rw [a, hq]; simp [tooks]) (by rw [a]; rfl) c
  | run =>
    obtain ⟨t, q, o, hq, a, _, d, _, hq', w, c⟩ := step_run e
    exact quiet (by rw [a, hq']; simp [tooks]) (by rw [a]; rfl) c

theorem answers_run {s s' : St} {h : List Did} (r : Run s h s') :
    (∃ l, s.reqQ ++ tooks h = l ++ s'.reqQ ∧
      s'.rsp.filterMap toldOf = s.rsp.filterMap toldOf ++ l.filterMap Req.due ∧
      s'.rsp.filterMap receiptOf = s.rsp.filterMap receiptOf ++ l.filterMap Req.receiptDue) ∧
    s'.rsp.filterMap retryOf = s.rsp.filterMap retryOf ++
      (bounces h).flatMap (fun r => [(r.tag, false), (r.tag, true)]) := by
  induction r with
  | nil s => exact ⟨⟨[], by simp [tooks], by simp, by simp⟩, by simp [bounces]⟩
  | cons e _ ih =>
    obtain ⟨⟨l1, a1, b1, c1⟩, d1⟩ := answers_step e
    obtain ⟨⟨l2, a2, b2, c2⟩, d2⟩ := ih
    refine ⟨⟨l1 ++ l2, ?_, ?_, ?_⟩, ?_⟩
    · rw [tooks_append, ← List.append_assoc, a1, List.append_assoc, a2, List.append_assoc]
    · rw [b2, b1, List.filterMap_append, List.append_assoc]
    · rw [c2, c1, List.filterMap_append, List.append_assoc]
    · rw [d2, d1, bounces_append, List.flatMap_append, List.append_assoc]

/-- **Every request is answered once, in order.** The requests that have left the request list are
a prefix `l` of those accepted; the completions and buffer grants sent are exactly the ones those
requests are due, in their order; so are the read receipts; and each request sent back got one
retry acknowledgement followed by one credit. -/
theorem answered_in_order {m : Mem} {h : List Did} {s : St} (r : Run (start m) h s) :
    (∃ l, tooks h = l ++ s.reqQ ∧ s.rsp.filterMap toldOf = l.filterMap Req.due ∧
      s.rsp.filterMap receiptOf = l.filterMap Req.receiptDue) ∧
    s.rsp.filterMap retryOf = (bounces h).flatMap (fun r => [(r.tag, false), (r.tag, true)]) := by
  have := answers_run r
  exact this

/-- **A request is sent back at most every other time, and never without permission.** One that
does not allow a retry is accepted; of two in a row that do, one is. -/
theorem retry_bounded (s : St) (r : Req) :
    (r.allowRetry = false → ∃ s', onReq s r = .ok s' [.took r]) ∧
    (∀ s1 h1 (r2 : Req), onReq s r = .ok s1 h1 → h1 = [.bounced r] →
      ∃ s2, onReq s1 r2 = .ok s2 [.took r2]) := by
  constructor
  · intro h
    unfold onReq
    rw [if_neg (by simp [h])]
    exact ⟨_, rfl⟩
  · intro s1 h1 r2 e hb
    unfold onReq at e
    have ht : s1.toggle = true := by
      by_cases h1' : r.allowRetry = true
      · rw [if_pos h1'] at e
        by_cases h2 : (!s.toggle) = true
        · rw [if_pos h2] at e; cases e; rfl
        · rw [if_neg h2] at e; cases e; cases hb
      · rw [if_neg h1'] at e; cases e; cases hb
    unfold onReq
    rw [ht]
    cases r2.allowRetry
    · exact ⟨_, rfl⟩
    · exact ⟨_, rfl⟩

/-! ### Data that comes in pieces -/

/-- Copying a list of data messages. -/
def copyAll (t : Txn) : List Dat → Option Txn
  | [] => some t
  | d :: ds => (copyData t d).bind fun t' => copyAll t' ds

theorem copyData_at {t : Txn} {d : Dat} {w k : Nat} (hw : 0 < w) (hk : w * k = 64) (hl : d.data.length = w)
    (hd : d.did < k) : ∃ t', copyData t d = some t' ∧ t'.req = t.req ∧ t'.got = t.got + w ∧
      (∀ i, i / w = d.did → t'.en i = beEnabled d.be (i % w) ∧
        (beEnabled d.be (i % w) = true → t'.buf i = d.data.getD (i % w) 0)) ∧
      (∀ i, i / w ≠ d.did → t'.en i = t.en i ∧ t'.buf i = t.buf i) := by
  have h1 : (d.did + 1) * w ≤ 64 := by rw [← hk, Nat.mul_comm w]; exact Nat.mul_le_mul_right _ hd
  rw [Nat.add_mul, Nat.one_mul] at h1
  have hm : min w (64 - d.did * w) = w := Nat.min_eq_left (by omega)
  unfold copyData
  simp only [hl, lineSz, hm]
  rw [if_pos (by omega)]
  have blk : ∀ i, i / w = d.did ↔ d.did * w ≤ i ∧ i < d.did * w + w := by
    intro i
    have := same_block (a := d.did * w) (x := i) hw
    rw [Nat.mul_div_cancel _ hw] at this
    exact this
  refine ⟨_, rfl, rfl, rfl, ?_, ?_⟩
  · intro i hi
    have hb := (blk i).1 hi
    have e : i - d.did * w = i % w := by
      have := Nat.div_add_mod i w
      rw [hi, Nat.mul_comm] at this
      omega
    constructor
    · show (if _ then _ else _) = _
      rw [if_pos hb, e]
    · intro he
      show (if _ then _ else _) = _
      rw [if_pos ⟨hb.1, hb.2, by rw [e]; exact he⟩, e]
  · intro i hi
    have hb : ¬ (d.did * w ≤ i ∧ i < d.did * w + w) := fun h => hi ((blk i).2 h)
    constructor
    · show (if _ then _ else _) = _
      rw [if_neg hb]
    · show (if _ then _ else _) = _
      rw [if_neg (fun h => hb ⟨h.1, h.2.1⟩)]

theorem copyAll_at {w k : Nat} (hw : 0 < w) (hk : w * k = 64) : ∀ (ds : List Dat) (t : Txn),
    (∀ d ∈ ds, d.data.length = w ∧ d.did < k) → (ds.map (·.did)).Nodup →
    ∃ t', copyAll t ds = some t' ∧ t'.req = t.req ∧ t'.got = t.got + w * ds.length ∧
      (∀ d ∈ ds, ∀ i, i / w = d.did → t'.en i = beEnabled d.be (i % w) ∧
        (beEnabled d.be (i % w) = true → t'.buf i = d.data.getD (i % w) 0)) ∧
      (∀ i, i / w ∉ ds.map (·.did) → t'.en i = t.en i ∧ t'.buf i = t.buf i)
  | [], t, _, _ => ⟨t, rfl, rfl, by simp, fun _ h => (by cases h), fun _ _ => ⟨rfl, rfl⟩⟩
  | d :: ds, t, hl, hn => by
    obtain ⟨hn1, hn2⟩ := List.nodup_cons.1 hn
    obtain ⟨a, b⟩ := hl d List.mem_cons_self
    obtain ⟨t1, e1, e2, e3, e4, e5⟩ := copyData_at (t := t) hw hk a b
    obtain ⟨t2, f1, f2, f3, f4, f5⟩ := copyAll_at hw hk ds t1
      (fun x hx => hl x (List.mem_cons_of_mem _ hx)) hn2
    refine ⟨t2, ?_, f2.trans e2, ?_, ?_, ?_⟩
    · unfold copyAll; rw [e1]; exact f1
    · rw [f3, e3, List.length_cons, Nat.mul_succ]; omega
    · intro x hx i hi
      rcases List.mem_cons.1 hx with hx | hx
      · subst hx
        obtain ⟨g1, g2⟩ := f5 i (by rw [hi]; exact hn1)
        obtain ⟨g3, g4⟩ := e4 i hi
        exact ⟨g1.trans g3, fun h => g2.trans (g4 h)⟩
      · exact f4 x hx i hi
    · intro i hi
      have hi' : ¬ (i / w = d.did ∨ i / w ∈ ds.map (·.did)) := fun h => hi (List.mem_cons.2 h)
      obtain ⟨g1, g2⟩ := f5 i (fun h => hi' (.inr h))
      obtain ⟨g3, g4⟩ := e5 i (fun h => hi' (.inl h))
      exact ⟨g1.trans g3, g2.trans g4⟩

/-- **Data that comes in pieces is put together whatever the order.** If a transaction gets one
message for each of the `64/w` pieces of the line, in any order, then it is complete after the
last one, and each byte and enable of the line is the one its piece carried. -/
theorem data_assembled {w k : Nat} (hk : w * k = 64) (ds : List Dat) (t : Txn)
    (h0 : t.got = 0) (hl : ∀ d ∈ ds, d.data.length = w) (hp : (ds.map (·.did)).Perm (List.range k)) :
    ∃ t', copyAll t ds = some t' ∧ t'.req = t.req ∧ t'.got = 64 ∧
      ∀ i, i < 64 → ∃ d ∈ ds, d.did = i / w ∧ t'.en i = beEnabled d.be (i % w) ∧
        (t'.en i = true → t'.buf i = d.data.getD (i % w) 0) := by
  have hw : 0 < w := by
    rcases Nat.eq_zero_or_pos w with h | h
    · subst h; omega
    · exact h
  have hlen : ds.length = k := by
    have := hp.length_eq
    rw [List.length_map, List.length_range] at this; exact this
  obtain ⟨t', a, b, c, d, _⟩ := copyAll_at hw hk ds t
    (fun x hx => ⟨hl x hx, List.mem_range.1 (hp.mem_iff.1 (List.mem_map_of_mem hx))⟩)
    (hp.nodup_iff.2 List.nodup_range)
  refine ⟨t', a, b, by rw [c, h0, hlen, hk, Nat.zero_add], fun i hi => ?_⟩
  have hm : i / w ∈ ds.map (·.did) := by
    rw [hp.mem_iff, List.mem_range, Nat.div_lt_iff_lt_mul hw, Nat.mul_comm, hk]; exact hi
  obtain ⟨x, hx, hxe⟩ := List.mem_map.1 hm
  obtain ⟨e1, e2⟩ := d x hx i hxe.symm
  exact ⟨x, hx, hxe, e1, fun h => e2 (e1 ▸ h)⟩

/-! ### No undefined step, and progress -/

/-- A whole-line data message. -/
def Whole (d : Dat) : Prop := d.did = 0 ∧ d.data.length = 64

theorem copyData_whole {t : Txn} {d : Dat} (hd : Whole d) (h0 : t.got = 0) :
    ∃ t', copyData t d = some t' ∧ t'.req = t.req ∧ t'.got = 64 := by
  obtain ⟨t', a, b, c, _⟩ := copyData_at (t := t) (w := 64) (k := 1) (by omega) rfl hd.2
    (by rw [hd.1]; omega)
  exact ⟨t', a, b, by rw [c, h0]⟩

/-- The six operations the node leaves out: memory stays as it is, and the old value is still
sent. -/
theorem other_ops_do_nothing (t : Txn) (m : Mem) (hk : t.req.isAtStore = true ∨ t.req.isAtLoad = true)
    (hl : Legal t.req) (hop : 2 ≤ t.req.opcode % 8) :
    ∃ o, perform t m = some (m, o) ∧ Sends t m o := by
  have ha : t.req.isAtomic = true := by
    cases ha : t.req.isAtomic
    · obtain ⟨n1, n2, _⟩ := nonatomic_kinds _ ha
      rw [n1, n2] at hk; simp at hk
    · rfl
  have hkk : (t.req.isAtStore || t.req.isAtLoad) = true := by simpa using hk
  obtain ⟨h1, h2⟩ := hl.2.2.1 (by rcases hk with h | h; exact .inl h; exact .inr (.inl h))
  have hf := fits (dvd_small (by omega)) h2
  obtain ⟨_, _, _, _, k5⟩ := atomic_kinds _ ha
  have hc : t.req.isAtCmp = false := by
    rcases k5 with ⟨a, b, c, d⟩ | ⟨a, b, c, d⟩ | ⟨a, b, c, d⟩ | ⟨a, b, c, d⟩
    · exact d
    · exact d
    · exact d
    · rw [a, b] at hkk; cases hkk
  have hn : atomicNew t (m.range t.req.addr t.req.len) = some (m.range t.req.addr t.req.len) := by
    rw [rmw_new t m hf hkk, rmw_id hop]
  refine ⟨_, ?_, sends_atomic t m ha hc⟩
  unfold perform
  rw [if_pos ha, atomicDo_rmw t m _ (by omega) hf hc hn, store_range_self]

theorem perform_total (t : Txn) (m : Mem) (hl : Legal t.req) : ∃ x, perform t m = some x := by
  by_cases h : AddClr t.req
  · obtain ⟨o, h1, _⟩ := perform_ok t m hl h
    exact ⟨_, h1⟩
  · have hk : t.req.isAtStore = true ∨ t.req.isAtLoad = true := by
      cases a : t.req.isAtStore
      · cases b : t.req.isAtLoad
        · exact absurd (fun h => by simp [a, b] at h) h
        · exact .inr rfl
      · exact .inl rfl
    have hop : 2 ≤ t.req.opcode % 8 := Nat.le_of_not_lt fun h2 => h fun _ => h2
    obtain ⟨o, h1, _⟩ := other_ops_do_nothing t m hk hl hop
    exact ⟨_, h1⟩

/-- **No legal request makes the node do something undefined.** In any state reached with legal
requests, no event whose data fits the line has an undefined effect. -/
theorem never_undefined {m : Mem} {h : List Did} {s : St} (r : Run (start m) h s)
    (hl : ∀ r ∈ tooks h, Legal r) (e : Ev)
    (he : ∀ k d, e = .dat k d → d.did * d.data.length ≤ 64) : step s e ≠ .ub := by
  have hh := holds_run r hl (holds_start _ m)
  cases e with
  | req r =>
    show onReq s r ≠ .ub
    unfold onReq
    cases r.allowRetry
    · exact fun h => by cases h
    · cases s.toggle
      · exact fun h => by cases h
      · exact fun h => by cases h
  | order db buf en =>
    show onOrder s db buf en ≠ .ub
    unfold onOrder
    cases s.reqQ with
    | nil => exact fun h => by cases h
    | cons r q =>
      simp only
      by_cases hc : 256 ≤ db ∨ (s.wait db).isSome
      · rw [if_pos hc]; exact fun h => by cases h
      · rw [if_neg hc]
        unfold respond
        simp only
        cases (r.isRead || r.isReadSep)
        · cases (r.isAtomic && !r.isAtStore)
          · cases r.isMaint
            · exact fun h => by cases h
            · exact fun h => by cases h
          · exact fun h => by cases h
        · exact fun h => by cases h
  | dat k d =>
    show onDat s k d ≠ .ub
    unfold onDat
    cases s.wait k with
    | none => exact fun h => by cases h
    | some t =>
      have : ∃ t', copyData t d = some t' := by
        unfold copyData
        simp only
        rw [if_pos (he k d rfl)]
        exact ⟨_, rfl⟩
      obtain ⟨t', ht⟩ := this
      simp only [ht]
      by_cases hg : t'.got = lineSz
      · rw [if_pos hg]; exact fun h => by cases h
      · rw [if_neg hg]; exact fun h => by cases h
  | run =>
    show onRun s ≠ .ub
    unfold onRun
    cases hq : s.datQ with
    | nil => exact fun h => by cases h
    | cons t q =>
      obtain ⟨x, hx⟩ := perform_total t s.mem (hh.2.2 t (by rw [hq]; exact List.mem_cons_self))
      obtain ⟨m', o⟩ := x
      simp only [hx]
      exact fun h => by cases h

/-- Runs whose data messages are whole lines. -/
inductive WRun : St → List Did → St → Prop
  | nil (s : St) : WRun s [] s
  | cons {s s' s'' : St} {e : Ev} {h h' : List Did} :
      step s e = .ok s' h → (∀ k d, e = .dat k d → Whole d) → WRun s' h' s'' → WRun s (h ++ h') s''

theorem WRun.run {s s' : St} {h : List Did} (r : WRun s h s') : Run s h s' := by
  induction r with
  | nil s => exact .nil s
  | cons e _ _ ih => exact .cons e ih

theorem WRun.trans {s s' s'' : St} {h h' : List Did} (r : WRun s h s') (r' : WRun s' h' s'') :
    WRun s (h ++ h') s'' := by
  induction r with
  | nil s => exact r'
  | cons e he _ ih => rw [List.append_assoc]; exact .cons e he (ih r')

/-- No waiting transaction has received anything yet. -/
def Fresh (s : St) : Prop := ∀ k t, s.wait k = some t → t.got = 0

theorem fresh_step {s s' : St} {ev : Ev} {h : List Did} (e : step s ev = .ok s' h)
    (he : ∀ k d, ev = .dat k d → Whole d) (hs : Fresh s) : Fresh s' := by
  have key : ∀ {k o}, (∀ t, o = some t → t.got = 0) → s'.wait = setWait s.wait k o → Fresh s' := by
    intro k o hk hw j t hj
    rw [hw] at hj
    unfold setWait at hj
    by_cases e : j = k
    · rw [if_pos e] at hj; exact hk t hj
    · rw [if_neg e] at hj; exact hs j t hj
  have same : s'.wait = s.wait → Fresh s' := by
    intro hw; unfold Fresh; rw [hw]; exact hs
  cases ev with
  | req r => exact same (step_req e).1.2.1
  | order db buf en =>
    obtain ⟨r, q, _, _, _, _, hd, _, c⟩ := step_order e
    rcases c with ⟨_, _, w, _⟩ | ⟨p, _, w, _⟩ | ⟨_, _, w, _⟩ | ⟨p, _, w, _⟩
    · exact same w
    · exact key (fun t ht => by cases ht; rfl) w
    · exact same w
    · exact key (fun t ht => by cases ht; rfl) w
  | dat k d =>
    obtain ⟨_, c⟩ := step_dat e
    rcases c with ⟨_, w, _⟩ | ⟨t, t', h0, hc, hr, ⟨_, w, _⟩ | ⟨hg, w, _⟩⟩
    · exact same w
    · exact key (fun t ht => by cases ht) w
    · obtain ⟨t2, g1, _, g2⟩ := copyData_whole (he k d rfl) (hs k t h0)
      rw [hc] at g1; cases g1
      exact absurd g2 hg
  | run =>
    obtain ⟨t, q, o, _, _, _, _, _, _, w, _⟩ := step_run e
    exact same w

theorem waiting_nil {s : St} (hi : IdsOk s) : waiting s = [] ↔ ∀ k, s.wait k = none := by
  unfold waiting
  rw [List.filterMap_eq_nil_iff]
  constructor
  · intro h k
    cases hw : s.wait k with
    | none => rfl
    | some t =>
      have := h k (List.mem_range.2 (hi k t hw))
      rw [hw] at this; cases this
  · intro h i _
    rw [h i]; rfl

/-- **Everything accepted can be finished.** From any state reached with legal requests and
whole-line data, the node's own threads and one data message for each buffer it granted bring it to
a state with nothing left inside: by `exactly_once` every accepted request has then been carried
out. -/
theorem can_finish {m : Mem} {h : List Did} {s : St} (r : WRun (start m) h s)
    (hl : ∀ r ∈ tooks h, Legal r) :
    ∃ h' s', WRun s h' s' ∧ tooks h' = [] ∧ inside s' = [] := by
  -- the invariant, and the number of steps left
  have key : ∀ (n : Nat) (s : St), 3 * s.reqQ.length + 2 * (waiting s).length + s.datQ.length = n →
      Holds Legal s → IdsOk s → Fresh s →
      ∃ h' s', WRun s h' s' ∧ tooks h' = [] ∧ inside s' = [] := by
    intro n
    induction n using Nat.strongRecOn with
    | ind n ih =>
      intro s hn hh hi hf
      have go : ∀ (ev : Ev) (s1 : St) (h1 : List Did), step s ev = .ok s1 h1 →
          (∀ k d, ev = .dat k d → Whole d) → tooks h1 = [] →
          3 * s1.reqQ.length + 2 * (waiting s1).length + s1.datQ.length < n →
          ∃ h' s', WRun s h' s' ∧ tooks h' = [] ∧ inside s' = [] := by
        intro ev s1 h1 e hw ht hlt
        obtain ⟨h', s', a, b, c⟩ := ih _ hlt s1 rfl
          (holds_step e (by rw [ht]; exact fun _ h => by cases h) hh) (ids_step e hi) (fresh_step e hw hf)
        exact ⟨h1 ++ h', s', .cons e hw a, by rw [tooks_append, ht, b]; rfl, c⟩
      cases hq : s.datQ with
      | cons t q =>
        obtain ⟨x, hx⟩ := perform_total t s.mem (hh.2.2 t (by rw [hq]; exact List.mem_cons_self))
        obtain ⟨m', o⟩ := x
        have e : step s .run = .ok { s with mem := m', datQ := q, out := s.out ++ o.toList } [.done t] := by
          show onRun s = _
          unfold onRun
          rw [hq]; simp only [hx]
        refine go .run _ _ e (fun _ _ h => by cases h) rfl ?_
        have : (waiting { s with mem := m', datQ := q, out := s.out ++ o.toList }) = waiting s := rfl
        rw [this]
        rw [hq] at hn
        simp only [List.length_cons] at hn ⊢
        omega
      | nil =>
        by_cases hw : ∀ k, s.wait k = none
        · cases hr : s.reqQ with
          | nil =>
            refine ⟨[], s, .nil s, rfl, ?_⟩
            unfold inside
            rw [hq, hr, (waiting_nil hi).2 hw]; rfl
          | cons r q =>
            have hres : ∃ s1 h1, step s (.order 0 (fun _ => 0) (fun _ => false)) = .ok s1 h1 := by
              show ∃ s1 h1, onOrder s 0 _ _ = .ok s1 h1
              unfold onOrder
              rw [hr]
              simp only
              rw [if_neg (by rw [hw 0]; simp)]
              unfold respond
              simp only
              cases (r.isRead || r.isReadSep)
              · cases (r.isAtomic && !r.isAtStore)
                · cases r.isMaint
                  · exact ⟨_, _, rfl⟩
                  · exact ⟨_, _, rfl⟩
                · exact ⟨_, _, rfl⟩
              · exact ⟨_, _, rfl⟩
            obtain ⟨s1, h1, e⟩ := hres
            obtain ⟨r', q', a1, a2, _, _, a3, a4, c⟩ := step_order e
            have hlen : s.reqQ.length = s1.reqQ.length + 1 := by rw [a1, a2]; rfl
            rcases c with ⟨_, a, w, d, _⟩ | ⟨_, a, w, d, _⟩ | ⟨_, a, w, d, _⟩ | ⟨_, a, w, d, _⟩
            · refine go _ _ _ e (fun _ _ h => by cases h) (by rw [a]; rfl) ?_
              have hw' : waiting s1 = waiting s := by unfold waiting; rw [w]
              rw [hw', d, List.length_append, List.length_cons, List.length_nil]
              omega
            · refine go _ _ _ e (fun _ _ h => by cases h) (by rw [a]; rfl) ?_
              have hw' := (waiting_set a3 a4 w).length_eq
              rw [List.length_cons] at hw'
              rw [hw', d]
              omega
            · refine go _ _ _ e (fun _ _ h => by cases h) (by rw [a]; rfl) ?_
              have hw' : waiting s1 = waiting s := by unfold waiting; rw [w]
              rw [hw', d]
              omega
            · refine go _ _ _ e (fun _ _ h => by cases h) (by rw [a]; rfl) ?_
              have hw' := (waiting_set a3 a4 w).length_eq
              rw [List.length_cons] at hw'
              rw [hw', d]
              omega
        · have : ∃ k t, s.wait k = some t := by
            rcases Classical.not_forall.1 hw with ⟨k, hk⟩
            cases hx : s.wait k with
            | none => exact absurd hx hk
            | some t => exact ⟨k, t, hx⟩
          obtain ⟨k, t, hk⟩ := this
          have hwd : Whole ⟨0, List.replicate 64 0, []⟩ := ⟨rfl, by simp⟩
          obtain ⟨t', g1, g2, g3⟩ := copyData_whole hwd (hf k t hk)
          have e : step s (.dat k ⟨0, List.replicate 64 0, []⟩) =
              .ok { s with wait := setWait s.wait k none, datQ := s.datQ ++ [t'] } [] := by
            simp only [step, onDat, hk, g1]
            rw [if_pos g3]
          refine go _ _ _ e (fun _ _ h => by cases h; exact hwd) rfl ?_
          have hw' := (waiting_clear (s' := { s with wait := setWait s.wait k none, datQ := s.datQ ++ [t'] })
            (hi k t hk) hk rfl).length_eq
          rw [List.length_cons] at hw'
          simp only [List.length_append, List.length_cons, List.length_nil]
          omega
  have inv : ∀ {s s' : St} {h : List Did}, WRun s h s' → IdsOk s → Fresh s → IdsOk s' ∧ Fresh s' := by
    intro s s' h r
    induction r with
    | nil s => exact fun a b => ⟨a, b⟩
    | cons e he _ ih => exact fun a b => ih (ids_step e a) (fresh_step e he b)
  obtain ⟨a, b⟩ := inv r (fun _ _ h => by cases h) (fun _ _ h => by cases h)
  exact key _ s rfl (holds_run r.run hl (holds_start _ m)) a b

/-! ### What goes wrong -/

/-- An exclusive-or that should change memory does not: an AtomicStore of `0xFF` with sub-opcode
`010` on a zero byte leaves it zero, where the specification asks for `0xFF`. -/
theorem eor_lost :
    ∃ t : Txn, Legal t.req ∧ AOp.ofCode (t.req.opcode % 8) = .eor ∧
      (perform t (fun _ => 0)).map (fun x => x.1 0) = some 0 ∧ specMem t (fun _ => 0) 0 = 0xFF := by
  refine ⟨⟨⟨0x2A, 0, 1, false, 0, false, 7⟩, fun _ => 0xFF, fun _ => true, 64⟩, ?_, rfl, ?_, ?_⟩
  · unfold Legal; decide
  · decide +kernel
  · decide +kernel

/-- A read of 32 bytes that starts in the middle of a line copies past the end of the request
object's buffer. -/
theorem narrow_read_undefined : perform ⟨⟨0x04, 32, 32, false, 0, false, 7⟩, fun _ => 0, fun _ => false, 0⟩
    (fun _ => 0) = none := by decide

/-- A read of 32 bytes at the start of a line answers with 64, all marked valid: the upper 32 are
whatever was in the request object. -/
theorem narrow_read_leaks (junk : Nat → Byte) (m : Mem) :
    ∃ o, perform ⟨⟨0x04, 0, 32, false, 0, false, 7⟩, junk, fun _ => false, 0⟩ m = some (m, some o) ∧
      o.be = none ∧ ∀ i, 32 ≤ i → i < 64 → o.data[i]? = some (junk i) := by
  refine ⟨⟨7, (List.range lineSz).map fun i => if i < 32 then m (0 + i) else junk i, none, false, true⟩,
    ?_, rfl, ?_⟩
  · simp [perform, readDo, Req.isAtomic, Req.isRead, Req.isReadSep, alignTo, lineOff]
    decide
  intro i h1 h2
  simp only [List.getElem?_map]
  rw [List.getElem?_range h2]
  show some (if i < 32 then _ else junk i) = _
  rw [if_neg (by omega)]

/-- A write is acknowledged as complete before its data has come, and a read accepted after that
acknowledgement is answered with the memory from before the write. -/
theorem comp_write_overtaken : ∃ h s, Run (start fun _ => 0) h s ∧
    s.rsp = [.compDbid 1 0] ∧ tooks h = [⟨0x1D, 0, 64, false, 0, false, 1⟩, ⟨0x04, 0, 64, false, 0, false, 2⟩] ∧
    s.out = [⟨2, List.replicate 64 0, none, false, true⟩] := by
  refine ⟨_, _,
    Run.cons (e := .req ⟨0x1D, 0, 64, false, 0, false, 1⟩) rfl <|
    Run.cons (e := .order 0 (fun _ => 0) (fun _ => false)) rfl <|
    Run.cons (e := .req ⟨0x04, 0, 64, false, 0, false, 2⟩) rfl <|
    Run.cons (e := .order 1 (fun _ => 0) (fun _ => false)) rfl <|
    Run.cons (e := .run) rfl <| Run.nil _, rfl, rfl, ?_⟩
  decide +kernel

/-! ### The hypotheses are met -/

/-- A big-endian add, a compare in the upper half and a partial write, mixed. -/
def demoReqs : List Req :=
  [⟨0x30, 8, 4, true, 0, false, 1⟩, ⟨0x39, 24, 16, false, 0, false, 2⟩, ⟨0x1C, 3, 8, false, 0, false, 3⟩,
   ⟨0x04, 0, 64, false, 1, false, 4⟩, ⟨0x08, 0, 64, false, 0, false, 5⟩]

example : ∀ r ∈ demoReqs, Legal r ∧ AddClr r := by
  unfold Legal AddClr demoReqs; decide

/-- Two requests accepted, one sent back, one finished. -/
example : ∃ h s, Run (start fun _ => 5) h s ∧ (∀ r ∈ tooks h, Legal r ∧ AddClr r) ∧
    (tooks h).length = 2 ∧ (bounces h).length = 1 ∧ (dones h).length = 1 ∧ s.mem 3 = 9 ∧ s.mem 4 = 5 ∧
    (waiting s).length = 1 := by
  refine ⟨_, _,
    Run.cons (e := .req ⟨0x1C, 3, 8, false, 0, true, 3⟩) rfl <|
    Run.cons (e := .req ⟨0x1C, 3, 8, false, 0, false, 3⟩) rfl <|
    Run.cons (e := .req ⟨0x30, 8, 4, true, 0, false, 1⟩) rfl <|
    Run.cons (e := .order 0 (fun _ => 0) (fun _ => false)) rfl <|
    Run.cons (e := .order 1 (fun _ => 0) (fun _ => false)) rfl <|
    Run.cons (e := .dat 0 ⟨0, List.replicate 64 9, (List.replicate 64 false).set 3 true⟩) rfl <|
    Run.cons (e := .run) rfl <| Run.nil _, ?_, rfl, rfl, rfl, ?_, ?_, ?_⟩
  · show ∀ r ∈ [_, _], _
    unfold Legal AddClr; decide
  · decide +kernel
  · decide +kernel
  · decide +kernel

end Verif.ChiSn
