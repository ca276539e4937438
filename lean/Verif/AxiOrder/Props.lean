import Verif.AxiOrder.Inv

/-!
C28: responses with the same id are delivered in the order their addresses were
issued, each issued transaction completes exactly once, and a response is never
attributed to a transaction with another id.
-/
namespace Verif.AxiOrder

/-! ## TLM-to-AXI bridge -/

namespace Master

/-- Reads whose address was issued during a history, in order. -/
def rissued (ops : List ROp) : List Tr :=
  ops.filterMap fun o => match o with | .issue t => some t | _ => none

def wissued (ops : List WOp) : List Tr :=
  ops.filterMap fun o => match o with | .issue t => some t | _ => none

/-- Transactions of one id. -/
def withId (i : Nat) (l : List Tr) : List Tr := l.filter (·.id == i)

theorem rrun_order {ops : List ROp} : ∀ {s s' : RSt}, rrun s ops = some s' → ∀ i,
    withId i s'.all = withId i (s.all ++ rissued ops) := by
  induction ops with
  | nil =>
    intro s s' h i
    simp only [rrun, Option.some.injEq] at h
    subst h; simp [rissued]
  | cons o os ih =>
    intro s s' h i
    simp only [rrun] at h
    split at h
    · exact absurd h (by simp)
    · rename_i s1 h1
      rw [ih h i]
      have := rstep_order h1 i
      unfold withId
      rw [List.filter_append, this]
      cases o <;> simp [rissued, ← List.filter_append]

theorem wrun_order {ops : List WOp} : ∀ {s s' : WSt}, wrun s ops = some s' → ∀ i,
    withId i s'.all = withId i (s.all ++ wissued ops) := by
  induction ops with
  | nil =>
    intro s s' h i
    simp only [wrun, Option.some.injEq] at h
    subst h; simp [wissued]
  | cons o os ih =>
    intro s s' h i
    simp only [wrun] at h
    split at h
    · exact absurd h (by simp)
    · rename_i s1 h1
      rw [ih h i]
      have := wstep_order h1 i
      unfold withId
      rw [List.filter_append, this]
      cases o <;> simp [wissued, ← List.filter_append]

/-- Lists that agree on every id contain the same transactions the same number
of times. -/
theorem perm_of_withId {a b : List Tr} (h : ∀ i, withId i a = withId i b) : a.Perm b := by
  rw [List.perm_iff_count]
  intro t
  have h1 : ∀ l : List Tr, List.count t l = List.count t (withId t.id l) := by
    intro l
    unfold withId
    rw [List.count_filter]
    simp
  rw [h1 a, h1 b, h]

/-- Reads: whatever the interleaving of address phases, read-data beats (of any
ids) and resets, the calls with one id end in the order in which their addresses
were issued. -/
theorem read_same_id_order (ops : List ROp) (s : RSt) (h : rrun .init ops = some s) (i : Nat) :
    withId i (s.log.map (·.1)) <+: withId i (rissued ops) := by
  have := rrun_order h i
  have h0 : RSt.init.all = [] := rfl
  rw [h0, List.nil_append] at this
  rw [← this]
  unfold RSt.all withId
  rw [List.append_assoc, List.filter_append]
  exact List.prefix_append _ _

/-- Reads: every issued transaction has ended, is being answered, or is pending:
exactly one of them, exactly once. -/
theorem read_exactly_once (ops : List ROp) (s : RSt) (h : rrun .init ops = some s) :
    (s.log.map (·.1) ++ (s.cur.toList.map (·.1) ++ s.pend)).Perm (rissued ops) := by
  rw [← List.append_assoc]
  refine perm_of_withId fun i => ?_
  have := rrun_order h i
  rw [show RSt.init.all = [] from rfl, List.nil_append] at this
  exact this

/-- Writes, same statements; a write is pending from its address on, whether or
not its data have been sent. -/
theorem write_same_id_order (ops : List WOp) (s : WSt) (h : wrun .init ops = some s) (i : Nat) :
    withId i (s.log.map (·.1)) <+: withId i (wissued ops) := by
  have := wrun_order h i
  rw [show WSt.init.all = [] from rfl, List.nil_append] at this
  rw [← this]
  unfold WSt.all withId
  rw [List.append_assoc, List.filter_append]
  exact List.prefix_append _ _

theorem write_exactly_once (ops : List WOp) (s : WSt) (h : wrun .init ops = some s) :
    (s.log.map (·.1) ++ (s.pend ++ s.data)).Perm (wissued ops) := by
  rw [← List.append_assoc]
  refine perm_of_withId fun i => ?_
  have := wrun_order h i
  rw [show WSt.init.all = [] from rfl, List.nil_append] at this
  exact this

/-- A write response is only ever given to a write with its id. -/
theorem write_attribution (ops : List WOp) (s : WSt) (h : wrun .init ops = some s)
    (t : Tr) (ids : List Nat) (ht : (t, End.answered ids) ∈ s.log) : ids = [t.id] := by
  have key : ∀ (ops : List WOp) (s0 s : WSt), wrun s0 ops = some s →
      (∀ t ids, (t, End.answered ids) ∈ s0.log → ids = [t.id]) →
      ∀ t ids, (t, End.answered ids) ∈ s.log → ids = [t.id] := by
    intro ops
    induction ops with
    | nil =>
      intro s0 s h h0
      simp only [wrun, Option.some.injEq] at h
      subst h; exact h0
    | cons o os ih =>
      intro s0 s h h0
      simp only [wrun] at h
      split at h
      · exact absurd h (by simp)
      · rename_i s1 h1
        refine ih s1 s h ?_
        cases o with
        | issue u =>
          simp only [wstep, Option.some.injEq] at h1
          subst h1; exact h0
        | sent =>
          simp only [wstep] at h1
          split at h1 <;> (simp only [Option.some.injEq] at h1; subst h1; exact h0)
        | reset =>
          simp only [wstep, Option.some.injEq] at h1
          subst h1
          intro t ids ht
          simp only [List.mem_append, List.mem_map, Prod.mk.injEq, reduceCtorEq, and_false,
            exists_false, or_false] at ht
          exact h0 t ids ht
        | resp bid =>
          simp only [wstep] at h1
          split at h1
          · exact absurd h1 (by simp)
          · rename_i u rest hl
            simp only [Option.some.injEq] at h1
            subst h1
            intro t ids ht
            rcases List.mem_append.1 ht with ht | ht
            · exact h0 t ids ht
            · simp only [List.mem_singleton, Prod.mk.injEq, End.answered.injEq] at ht
              obtain ⟨rfl, rfl⟩ := ht
              rw [(lookup_some hl).1]
  exact key ops .init s h (by simp [WSt.init]) t ids ht

/-- The slave does not interleave: while a read is being answered, the next beat
has its id. -/
def NoInterleave : RSt → List ROp → Prop
  | _, [] => True
  | s, o :: os =>
    (∀ rid t left ids, o = .beat rid → s.cur = some (t, left, ids) → rid = t.id) ∧
    ∀ s', rstep s o = some s' → NoInterleave s' os

/-- Reads, attribution: provided the slave does not interleave the beats of
different transactions, every read is given exactly its number of beats and all
of them carry its id. Without the proviso this is false
(`interleaved_beats_misattributed`). -/
theorem read_attribution_partial (ops : List ROp) (s : RSt) (h : rrun .init ops = some s)
    (hn : NoInterleave .init ops) (t : Tr) (ids : List Nat)
    (ht : (t, End.answered ids) ∈ s.log) : ids = List.replicate (t.more + 1) t.id := by
  have key : ∀ (ops : List ROp) (s0 s : RSt), rrun s0 ops = some s → NoInterleave s0 ops →
      (∀ t ids, (t, End.answered ids) ∈ s0.log → ids = List.replicate (t.more + 1) t.id) →
      (∀ t left ids, s0.cur = some (t, left, ids) →
        1 ≤ left ∧ left ≤ t.more ∧ ids = List.replicate (t.more + 1 - left) t.id) →
      ∀ t ids, (t, End.answered ids) ∈ s.log → ids = List.replicate (t.more + 1) t.id := by
    intro ops
    induction ops with
    | nil =>
      intro s0 s h _ h0 _
      simp only [rrun, Option.some.injEq] at h
      subst h; exact h0
    | cons o os ih =>
      intro s0 s h hn h0 hc
      simp only [rrun] at h
      split at h
      · exact absurd h (by simp)
      · rename_i s1 h1
        obtain ⟨hn1, hn2⟩ := hn
        refine ih s1 s h (hn2 s1 h1) ?_ ?_
        all_goals
          cases o with
          | issue u =>
            simp only [rstep, Option.some.injEq] at h1
            subst h1; first | exact h0 | exact hc
          | reset =>
            simp only [rstep, Option.some.injEq] at h1
            subst h1
            first
            | (intro t ids ht
               simp only [List.mem_append, List.mem_map, Prod.mk.injEq, reduceCtorEq, and_false,
                 exists_false, or_false] at ht
               exact h0 t ids ht)
            | (intro t left ids e; simp at e)
          | beat rid =>
            simp only [rstep] at h1
            split at h1
            · rename_i hcur
              split at h1
              · exact absurd h1 (by simp)
              · rename_i u rest hl
                have hid := (lookup_some hl).1
                split at h1 <;> (simp only [Option.some.injEq] at h1; subst h1) <;> rename_i hm
                · first
                  | (intro t ids ht
                     rcases List.mem_append.1 ht with ht | ht
                     · exact h0 t ids ht
                     · simp only [List.mem_singleton, Prod.mk.injEq, End.answered.injEq] at ht
                       obtain ⟨rfl, rfl⟩ := ht
                       rw [hm, hid]; rfl)
                  | (intro t left ids e; rw [hcur] at e; simp at e)
                · first
                  | exact h0
                  | (intro t left ids e
                     simp only [Option.some.injEq, Prod.mk.injEq] at e
                     obtain ⟨rfl, rfl, rfl⟩ := e
                     refine ⟨by omega, Nat.le_refl _, ?_⟩
                     rw [hid, Nat.add_sub_cancel_left]; rfl)
            · rename_i u left ids hcur
              obtain ⟨c1, c2, c3⟩ := hc u left ids hcur
              have hr := hn1 rid u left ids rfl hcur
              have happ : ids ++ [rid] = List.replicate (u.more + 1 - (left - 1)) u.id := by
                rw [show u.more + 1 - (left - 1) = (u.more + 1 - left) + 1 by omega,
                  List.replicate_succ', c3, hr]
              split at h1 <;> (simp only [Option.some.injEq] at h1; subst h1) <;> rename_i hm
              · first
                | (intro t ids' ht
                   rcases List.mem_append.1 ht with ht | ht
                   · exact h0 t ids' ht
                   · simp only [List.mem_singleton, Prod.mk.injEq, End.answered.injEq] at ht
                     obtain ⟨rfl, rfl⟩ := ht
                     rw [happ, hm]; rfl)
                | (intro t left ids e; simp at e)
              · first
                | exact h0
                | (intro t left' ids' e
                   simp only [Option.some.injEq, Prod.mk.injEq] at e
                   obtain ⟨rfl, rfl, rfl⟩ := e
                   exact ⟨by omega, by omega, happ⟩)
  exact key ops .init s h hn (by simp [RSt.init]) (by simp [RSt.init]) t ids ht

/-- The property fails when a slave interleaves the beats of two reads, which
AXI permits for different ids: the first read takes a beat of the second one. -/
theorem interleaved_beats_misattributed :
    ∃ ops s t ids, rrun .init ops = some s ∧ (t, End.answered ids) ∈ s.log ∧
      ∃ i ∈ ids, i ≠ t.id :=
  ⟨[.issue ⟨0, 5, 1⟩, .issue ⟨1, 6, 0⟩, .beat 5, .beat 6],
   ⟨[⟨1, 6, 0⟩], none, [(⟨0, 5, 1⟩, .answered [5, 6])]⟩, ⟨0, 5, 1⟩, [5, 6],
   rfl, by simp, 6, by simp, by decide⟩

/-- A response that no pending read or write is waiting for stops the
simulation; in particular a response is never invented. -/
theorem unexpected_id_stops (s : RSt) (rid : Nat) (hc : s.cur = none)
    (h : ∀ t ∈ s.pend, t.id ≠ rid) : rstep s (.beat rid) = none := by
  have : lookup rid s.pend = none := by
    cases hl : lookup rid s.pend with
    | none => rfl
    | some p =>
      obtain ⟨h1, a, b, h2, -⟩ := lookup_some (t := p.1) (rest := p.2) hl
      exact absurd h1 (h p.1 (by rw [h2]; simp))
  simp [rstep, hc, this]

/-- Non-vacuity: two ids, out-of-order answers across ids, a reset. -/
example : ∃ s, rrun .init [.issue ⟨0, 5, 1⟩, .issue ⟨1, 6, 0⟩, .issue ⟨2, 5, 0⟩,
      .beat 6, .beat 5, .beat 5, .beat 5, .issue ⟨3, 1, 3⟩, .beat 1, .reset] = some s ∧
    s.log.map (·.1.tag) = [1, 0, 2, 3] ∧ s.log.getLast? = some (⟨3, 1, 3⟩, .aborted) := by
  refine ⟨_, rfl, ?_, ?_⟩ <;> rfl

example : NoInterleave .init [.issue ⟨0, 5, 1⟩, .issue ⟨1, 6, 0⟩, .beat 5, .beat 5, .beat 6] := by
  simp [NoInterleave, rstep, RSt.init, lookup]
  rintro _ _ _ _ rfl rfl _ _; rfl

example : ∃ s, wrun .init [.issue ⟨0, 5, 0⟩, .issue ⟨1, 6, 0⟩, .issue ⟨2, 5, 0⟩, .sent, .sent, .sent,
      .resp 6, .resp 5, .resp 5] = some s ∧ s.log.map (·.1.tag) = [1, 0, 2] := by
  refine ⟨_, rfl, ?_⟩; rfl

end Master

/-! ## AXI-to-TLM bridge -/

namespace Slave

/-- Transactions of one id. -/
def withId (i : Nat) (l : List Tr) : List Tr := l.filter (·.id == i)

/-- Transactions accepted and not yet answered. -/
def St.inFlight (s : St) : List Tr := s.cur.toList ++ s.fifo ++ s.list

/-- For every scheduling of the worker threads, the address phase and the
response phase: the responses with one id are delivered in the order in which
the addresses were accepted. (`NoBarrier`: plain AXI, no ACE barriers; see
`barriers_break_exactly_once`.) -/
theorem same_id_order (ops : List Op) (hops : ∀ o ∈ ops, NoBarrier o) (i : Nat) :
    withId i (run .init ops).delivered <+: withId i (run .init ops).accepted := by
  have h := (inv_run hops Inv.init).order i
  unfold withId
  unfold byId at h
  rw [h]
  simp only [St.completed, List.append_assoc, List.filter_append]
  exact List.prefix_append _ _

/-- Every accepted transaction has been answered or is in flight: exactly one
of the two, exactly once; and at most sixteen are in flight. -/
theorem exactly_once (ops : List Op) (hops : ∀ o ∈ ops, NoBarrier o) :
    let s := run .init ops
    (s.delivered ++ s.inFlight).Perm s.accepted ∧ (s.delivered ++ s.inFlight).Nodup ∧
      s.inFlight.length ≤ 16 := by
  have h := inv_run hops Inv.init
  have hp : ((run .init ops).delivered ++ (run .init ops).inFlight).Perm (run .init ops).accepted := by
    have := h.perm.symm
    simpa [St.completed, St.inFlight, List.append_assoc] using this
  refine ⟨hp, hp.nodup_iff.2 ?_, ?_⟩
  · exact h.tags.imp (fun hlt e => by subst e; omega)
  · have := h.bound
    simp only [St.inFlight, List.length_append, maxOutstanding] at *
    omega

/-- Each transaction is passed to the TLM target at most once, and only when
accepted. -/
theorem called_once (ops : List Op) (hops : ∀ o ∈ ops, NoBarrier o) :
    (calls (run .init ops).log).Nodup ∧
      ∀ t ∈ calls (run .init ops).log, t ∈ (run .init ops).accepted := by
  have h := inv_run hops Inv.init
  refine ⟨?_, fun t ht => h.mem_calls ht⟩
  have hnd : (run .init ops).accepted.Nodup := h.tags.imp (fun hlt e => by subst e; omega)
  rw [List.nodup_iff_count]
  intro t
  have hc : List.count t (calls (run .init ops).log)
      = List.count t (byId t.id (calls (run .init ops).log)) := by
    unfold byId; rw [List.count_filter]; simp
  rw [hc, h.called]
  have : List.count t (byId t.id (run .init ops).accepted) ≤ 1 :=
    List.nodup_iff_count.1 (hnd.filter _) t
  rw [h.order, byId_append, List.count_append] at this
  rw [List.count_append]
  split
  · have hle : List.count t ((byId t.id (run .init ops).list).take 1)
        ≤ List.count t (byId t.id (run .init ops).list) :=
      (List.take_sublist 1 _).count_le t
    omega
  · rw [List.count_nil]
    omega

/-- A TLM call is made only when every earlier accepted transaction with the
same id, or in the same 4 KiB page, has completed. -/
theorem issue_order (ops : List Op) (hops : ∀ o ∈ ops, NoBarrier o) (pre post : List Ev)
    (t1 t2 : Tr) (hlog : (run .init ops).log = pre ++ .call t2 :: post)
    (h1 : t1 ∈ (run .init ops).accepted) (hlt : t1.tag < t2.tag)
    (hrel : t1.id = t2.id ∨ t1.page = t2.page) : Ev.done t1 ∈ pre :=
  (inv_run hops Inv.init).pages pre t2 post hlog t1 h1 hlt hrel.symm

/-- The order of acceptance is the order of the tags. -/
theorem tags_ordered (ops : List Op) (hops : ∀ o ∈ ops, NoBarrier o) :
    (run .init ops).accepted.Pairwise (·.tag < ·.tag) := (inv_run hops Inv.init).tags

/-- No deadlock: while a transaction waits for its TLM access, some worker
thread can make progress. -/
theorem progress (ops : List Op) (hops : ∀ o ∈ ops, NoBarrier o)
    (hne : (run .init ops).list ≠ []) : ∃ k, step (run .init ops) (.run k) ≠ run .init ops := by
  have h := inv_run hops Inv.init
  generalize run .init ops = s at *
  obtain ⟨t, ts, hl⟩ := List.exists_cons_of_ne_nil hne
  have htl : t ∈ s.list := by rw [hl]; simp
  obtain ⟨⟨i, th⟩, hp, hi⟩ := List.mem_map.1 (h.cover t htl)
  simp only at hi
  obtain ⟨k, hk, hkp⟩ := List.getElem_of_mem hp
  have hk' : s.threads[k]? = some (i, th) := by rw [List.getElem?_eq_some_iff]; exact ⟨hk, hkp⟩
  have hfirst : firstWithId s.list i = some t := by
    rw [firstWithId, hl, List.find?_cons_of_pos]; simp [hi]
  refine ⟨k, ?_⟩
  have hok := h.ok _ hp
  cases th with
  | start =>
    intro e
    have e := congrArg St.threads e
    simp only [step, hk', pick, hfirst] at e
    have := congrArg (·[k]?) e
    rw [List.getElem?_set_self hk, hk'] at this
    simp at this
  | wait u =>
    have hu : firstWithId s.list i = some u := hok
    rw [hfirst] at hu
    simp only [Option.some.injEq] at hu
    subst hu
    have hw : mustWait s.list t = false := by
      have hb := h.nb t (h.mem_list htl)
      simp [mustWait, overlapping, afterBarrier, hl, hb]
    intro e
    have e := congrArg St.log e
    simp [step, hk', hw] at e
  | busy u =>
    intro e
    have e := congrArg St.log e
    simp only [step, hk'] at e
    split at e <;> simp at e
  | put u => exact hok.elim

/-- An ACE barrier holds back what was accepted after it: a transaction with an
uncompleted barrier in front of it is not issued, whichever worker runs. -/
theorem barrier_holds_back (s : St) (k id : Nat) (t b : Tr) (pre post : List Tr)
    (hk : s.threads[k]? = some (id, .wait t)) (hl : s.list = pre ++ t :: post)
    (hp : ∀ u ∈ pre, u.tag ≠ t.tag) (hb : b ∈ pre) (hbar : b.barrier = true) : step s (.run k) = s := by
  have htw : s.list.takeWhile (·.tag != t.tag) = pre := by
    rw [hl, List.takeWhile_append_of_pos (by simpa using hp)]; simp
  have hw : mustWait s.list t = true := by
    unfold mustWait
    rw [Bool.or_eq_true]
    left
    split
    · cases pre with
      | nil => cases hb
      | cons u us =>
        have := hp u (by simp)
        rw [hl]; simpa using this
    · rw [afterBarrier, htw, List.any_eq_true]; exact ⟨b, hb, hbar⟩
  simp [step, hk, hw]

/-- A barrier itself waits for everything accepted before it. -/
theorem barrier_waits (s : St) (k id : Nat) (t u : Tr) (post : List Tr)
    (hk : s.threads[k]? = some (id, .wait t)) (hl : s.list = u :: post) (hu : u.tag ≠ t.tag)
    (hbar : t.barrier = true) : step s (.run k) = s := by
  have hw : mustWait s.list t = true := by
    unfold mustWait
    rw [Bool.or_eq_true, if_pos hbar, hl]
    left; simpa using hu
  simp [step, hk, hw]

example : ((run .init [.accept 1 10 true, .accept 2 20 false, .run 1, .run 1, .run 1, .run 1]).log.length) = 0 := by
  decide +kernel

/-- With ACE barriers, which do not count as outstanding, the response queue can
fill up while the master holds off the responses. A worker blocked on the full
queue has already taken its transaction off the list, so a new transaction with
the same id starts a second worker; when the first one continues it picks up the
transaction of the second, which is passed to the TLM target twice. -/
theorem barriers_break_exactly_once :
    ∃ ops, ¬ (calls (run .init ops).log).Nodup := by
  refine ⟨(List.range 18).map (fun i => Op.accept (i + 1) i true)
    ++ [.run 0, .run 0, .run 0, .take]
    ++ (List.range 16).flatMap (fun _ => [.run 0, .run 0, .run 0])
    ++ [.run 0, .run 0, .run 0, .accept 18 100 false, .run 1, .run 1, .finish, .take, .run 0, .run 0,
        .run 0], ?_⟩
  decide +kernel

/-- Non-vacuity: three ids, out-of-order completion across ids, page conflict. -/
example : ((run .init [.accept 1 10 false, .accept 2 20 false, .accept 1 30 false, .accept 3 10 false,
      .run 0, .run 1, .run 1, .run 0, .run 2, .run 2, .run 1, .run 0, .run 0, .run 0, .run 1, .run 1, .take, .finish, .take, .finish,
      .take, .finish]).delivered.map (·.tag)) = [1, 0, 2] := by decide +kernel

end Slave

end Verif.AxiOrder
