import Verif.ChiLink.Props

/-!
C29, liveness: on a link that is wanted, whose peer does not ask for
deactivation and whose sibling channels are idle, everything submitted arrives
after finitely many clock edges, for every choice of process orders.
-/
namespace Verif.ChiLink

variable {F : Type}

/-- `n` clock edges with inputs `f 0`, `f 1`, … -/
def edges (f : Nat → In) : Nat → List (Op F)
  | 0 => []
  | n + 1 => .tick (f 0) :: edges (fun j => f (j + 1)) n

theorem edges_add (f : Nat → In) (n m : Nat) :
    (edges f (n + m) : List (Op F)) = edges f n ++ edges (fun j => f (j + n)) m := by
  induction n generalizing f with
  | zero => simp [edges]
  | succ n ih =>
    have : n + 1 + m = (n + m) + 1 := by omega
    rw [this]
    simp only [edges, List.cons_append, ih]
    have : (fun j => f (j + n + 1)) = fun j => f (j + (n + 1)) := by funext j; congr 1
    rw [this]

theorem edges_noReset (f : Nat → In) (n : Nat) : NoReset (edges f n : List (Op F)) := by
  induction n generalizing f with
  | zero => intro o ho; simp [edges] at ho
  | succ n ih =>
    intro o ho
    rcases List.mem_cons.1 ho with rfl | ho
    · rfl
    · exact ih _ o ho

/-- Inputs under which the link is left running: the sibling channels are done,
the reverse link is not being deactivated. -/
def Calm (f : Nat → In) : Prop := ∀ j, (f j).others = true ∧ (f j).fwd = false

theorem Calm.shift {f : Nat → In} (h : Calm f) (n : Nat) : Calm fun j => f (j + n) := fun j => h (j + n)

/-- What is preserved from the start of a history on. -/
structure Good (s : St F) : Prop where
  core : Core 15 s
  queue : QueueOk s

theorem Good.step {s : St F} (h : Good s) (i : In) : Good (step s (.tick i)) :=
  ⟨core_step (by omega) h.core rfl, queueOk_step h.queue _⟩

theorem Good.run {s : St F} (h : Good s) (f : Nat → In) (n : Nat) : Good (run s (edges f n)) := by
  induction n generalizing f s with
  | zero => exact h
  | succ n ih => exact ih (h.step _) _

theorem Good.ofRun (ops : List (Op F)) (h : NoReset ops) : Good (ChiLink.run .init ops) :=
  ⟨core_run (by omega) h core_init, queueOk_run ops (s := (St.init : St F)) (by intro q hq; simp [St.init] at hq)⟩

theorem want_run (f : Nat → In) (n : Nat) (s : St F) : (run s (edges f n)).want = s.want := by
  induction n generalizing f s with
  | zero => rfl
  | succ n ih => exact (ih _ _).trans rfl

/-- Deactivation ends in the stopped state. -/
theorem reach_stop : ∀ (n : Nat) (s : St F) (f : Nat → In), Calm f → Good s → s.state = .deactivate →
    s.txCred + s.lcrdv.toNat + (if s.rxCred = 15 then 0 else 1) < n →
    ∃ k, (run s (edges f k)).state = .stop ∧ (run s (edges f k)).deact = s.deact
  | 0, _, _, _, _, _, h => absurd h (by omega)
  | n + 1, s, f, hf, hg, hs, h => by
    have hd : (step s (.tick (f 0))).deact = s.deact := by simp [step, reqTick, hs]
    rcases deact_tick hg.core hs (f 0) (hf 0).1 with h1 | ⟨h1, h2⟩
    · exact ⟨1, h1, hd⟩
    · obtain ⟨k, k1, k2⟩ := reach_stop n _ (fun j => f (j + 1)) (hf.shift 1) (hg.step (f 0)) h1 (by omega)
      exact ⟨k + 1, k1, k2.trans hd⟩

/-- From the stopped state the link gets to run. -/
theorem reach_run {s : St F} (f : Nat → In) (hf : Calm f) (hs : s.state = .stop) (hw : s.want = true) :
    (run s (edges f 2)).state = .run ∧ (run s (edges f 2)).deact = s.deact := by
  rcases state_cases s with ⟨-, h1, h2⟩ | ⟨hs', -, -⟩ | ⟨hs', -, -⟩ | ⟨hs', -, -⟩
  · have h3 : (step s (.tick (f 0))).req = true := by simp [step, reqTick, hs, hw]
    have h4 : (step s (.tick (f 0))).ack = false := by simp [step, ackTick, hs, h2]
    have h5 : (step s (.tick (f 0))).state = .activate := by simp [St.state, h3, h4, linkState]
    have h6 : (step s (.tick (f 0))).deact = s.deact := by simp [step, reqTick, hs]
    show (step (step s (.tick (f 0))) (.tick (f 1))).state = .run ∧ (step (step s (.tick (f 0))) (.tick (f 1))).deact = s.deact
    generalize step s (.tick (f 0)) = t at *
    have h7 : (step t (.tick (f 1))).req = true := by simp [step, reqTick, h5, h3]
    have h8 : (step t (.tick (f 1))).ack = true := by simp [step, ackTick, h5]
    refine ⟨by simp [St.state, h7, h8, linkState], ?_⟩
    simp [step, reqTick, h5, h6, (hf 1).2]
  all_goals rw [hs] at hs'; simp at hs'

theorem run_edges_add (s : St F) (f : Nat → In) (n m : Nat) :
    run s (edges f (n + m)) = run (run s (edges f n)) (edges (fun j => f (j + n)) m) := by
  rw [edges_add, run_append]

theorem reach_run_from_deact {s : St F} (f : Nat → In) (hf : Calm f) (hg : Good s) (hs : s.state = .deactivate)
    (hw : s.want = true) : ∃ k, (run s (edges f k)).state = .run ∧ (run s (edges f k)).deact = s.deact := by
  obtain ⟨k, k1, k2⟩ := reach_stop _ s f hf hg hs (Nat.lt_succ_self _)
  obtain ⟨r1, r2⟩ := reach_run (fun j => f (j + k)) (hf.shift k) k1 ((want_run f k s).trans hw)
  exact ⟨k + 2, by rw [run_edges_add]; exact r1, by rw [run_edges_add]; exact r2.trans k2⟩

/-- From any state the link gets to run. -/
theorem reach_some_run {s : St F} (f : Nat → In) (hf : Calm f) (hg : Good s) (hw : s.want = true) :
    ∃ k, (run s (edges f k)).state = .run := by
  rcases state_cases s with ⟨hs, h1, h2⟩ | ⟨hs, h1, h2⟩ | ⟨hs, h1, h2⟩ | ⟨hs, h1, h2⟩
  · exact ⟨2, (reach_run f hf hs hw).1⟩
  · refine ⟨1, ?_⟩
    show (step s (.tick (f 0))).state = .run
    have h7 : (step s (.tick (f 0))).req = true := by simp [step, reqTick, hs, h1]
    have h8 : (step s (.tick (f 0))).ack = true := by simp [step, ackTick, hs]
    simp [St.state, h7, h8, linkState]
  · exact ⟨0, hs⟩
  · obtain ⟨k, k1, -⟩ := reach_run_from_deact f hf hg hs hw
    exact ⟨k, k1⟩

/-- From any state the link gets to run with no deactivation pending. -/
theorem reach_stable {s : St F} (f : Nat → In) (hf : Calm f) (hg : Good s) (hw : s.want = true) :
    ∃ k, (run s (edges f k)).state = .run ∧ (run s (edges f k)).deact = false := by
  obtain ⟨k, hk⟩ := reach_some_run f hf hg hw
  have hg' := hg.run f k
  have hw' := (want_run f k s).trans hw
  cases hd : (run s (edges f k)).deact with
  | false => exact ⟨k, hk, hd⟩
  | true =>
    generalize ht : run s (edges f k) = t at *
    rcases state_cases t with ⟨hs, h1, h2⟩ | ⟨hs, h1, h2⟩ | ⟨hs, h1, h2⟩ | ⟨hs, h1, h2⟩
    · rw [hk] at hs; simp at hs
    · rw [hk] at hs; simp at hs
    · have h7 : (step t (.tick (f k))).req = false := by simp [step, reqTick, hk, hd]
      have h8 : (step t (.tick (f k))).ack = true := by simp [step, ackTick, hk, h2]
      have h9 : (step t (.tick (f k))).deact = false := by simp [step, reqTick, hk, hd]
      have h10 : (step t (.tick (f k))).state = .deactivate := by simp [St.state, h7, h8, linkState]
      obtain ⟨j, j1, j2⟩ := reach_run_from_deact (fun j => f (j + (k + 1))) (hf.shift (k + 1)) (hg'.step (f k)) h10 hw'
      have hsplit : run s (edges f (k + 1 + j)) = run (step t (.tick (f k))) (edges (fun j => f (j + (k + 1))) j) := by
        rw [run_edges_add, run_edges_add, ht]
        have : f (0 + k) = f k := by rw [Nat.zero_add]
        simp only [edges, run, List.foldl_cons, List.foldl_nil, this]
      exact ⟨k + 1 + j, by rw [hsplit]; exact j1, by rw [hsplit]; exact j2.trans h9⟩
    · rw [hk] at hs; simp at hs

/-- A wanted running link stays so. -/
theorem stay_run {s : St F} (i : In) (hi : i.fwd = false) (hs : s.state = .run) (hw : s.want = true)
    (hd : s.deact = false) : (step s (.tick i)).state = .run ∧ (step s (.tick i)).deact = false := by
  rcases state_cases s with ⟨hs', h1, h2⟩ | ⟨hs', h1, h2⟩ | ⟨-, h1, h2⟩ | ⟨hs', h1, h2⟩
  · rw [hs] at hs'; simp at hs'
  · rw [hs] at hs'; simp at hs'
  · have h7 : (step s (.tick i)).req = true := by simp [step, reqTick, hs, hi, hd, hw, h1]
    have h8 : (step s (.tick i)).ack = true := by simp [step, ackTick, hs, h2]
    refine ⟨by simp [St.state, h7, h8, linkState], ?_⟩
    simp [step, reqTick, hs, hi, hd, hw]
  · rw [hs] at hs'; simp at hs'

/-- One edge never puts flits back, and sends one when there is a credit. -/
theorem queue_tick {s : St F} (hg : Good s) (hs : s.state = .run) (hne : s.queue.flatten ≠ []) (i : In) :
    ((step s (.tick i)).queue.flatten.length < s.queue.flatten.length) ∨
    ((step s (.tick i)).queue.flatten = s.queue.flatten ∧ 0 < (step s (.tick i)).txCred + (step s (.tick i)).lcrdv.toNat) := by
  have hns : s.state ≠ .stop := by rw [hs]; simp
  have hd := txTick_data s hns
  by_cases hcr : 0 < s.txCred + s.lcrdv.toNat
  · left
    obtain ⟨f, hf⟩ := tx_sends (Or.inl hs) hg.queue hne hcr
    rw [hf] at hd
    have := congrArg List.length hd
    simp only [dataOf, Option.toList_some, List.filterMap_cons, List.filterMap_nil, List.length_append,
      List.length_cons, List.length_nil] at this
    show (txTick s).queue.flatten.length < _
    omega
  · right
    have htot := hg.core.total
    have htx := txTick_total s hg.core.quiet
    unfold St.total at htot
    have hw : (txTick s).wire = none := by
      cases hw : (txTick s).wire with
      | none => rfl
      | some w => rw [hw] at htx; simp at htx; omega
    have hl : (rxTick s).2.1 = true := by
      simp only [rxTick, hs]
      split
      · rename_i h; simp at h
      · split
        · rename_i h; omega
        · rfl
    refine ⟨?_, ?_⟩
    · rw [hw] at hd
      show (txTick s).queue.flatten = _
      simpa [dataOf] using hd
    · have : (step s (.tick i)).lcrdv = true := hl
      rw [this]; simp

/-- A running link sends everything queued. -/
theorem drain : ∀ (n : Nat) (s : St F) (f : Nat → In), Calm f → Good s → s.state = .run → s.want = true →
    s.deact = false → 2 * s.queue.flatten.length + (if 0 < s.txCred + s.lcrdv.toNat then 0 else 1) < n →
    ∃ k, (run s (edges f k)).state = .run ∧ (run s (edges f k)).queue.flatten = []
  | 0, _, _, _, _, _, _, _, h => absurd h (by omega)
  | n + 1, s, f, hf, hg, hs, hw, hd, h => by
    by_cases hne : s.queue.flatten = []
    · exact ⟨0, hs, hne⟩
    · obtain ⟨s1, s2⟩ := stay_run (f 0) (hf 0).2 hs hw hd
      have hrec : 2 * (step s (.tick (f 0))).queue.flatten.length +
          (if 0 < (step s (.tick (f 0))).txCred + (step s (.tick (f 0))).lcrdv.toNat then 0 else 1) < n := by
        rcases queue_tick hg hs hne (f 0) with h1 | ⟨h1, h2⟩
        · split at h <;> split <;> omega
        · rw [if_pos h2, h1]
          by_cases hcr : 0 < s.txCred + s.lcrdv.toNat
          · exfalso
            have hns : s.state ≠ .stop := by rw [hs]; simp
            obtain ⟨x, hx⟩ := tx_sends (Or.inl hs) hg.queue hne hcr
            have hdata := txTick_data s hns
            rw [hx] at hdata
            have hq : (txTick s).queue.flatten = s.queue.flatten := h1
            rw [hq] at hdata
            have := congrArg List.length hdata
            simp [dataOf] at this
          · rw [if_neg hcr] at h; omega
      obtain ⟨k, k1, k2⟩ := drain n _ (fun j => f (j + 1)) (hf.shift 1) (hg.step (f 0)) s1 hw s2 hrec
      exact ⟨k + 1, k1, k2⟩

/-- With nothing queued the wire empties. -/
theorem wire_empties {s : St F} (hs : s.state = .run) (hq : s.queue.flatten = []) (i : In) :
    dataOf (step s (.tick i)).wire.toList = [] ∧ (step s (.tick i)).queue.flatten = [] := by
  have hns : s.state ≠ .stop := by rw [hs]; simp
  have := txTick_data s hns
  rw [hq] at this
  exact List.append_eq_nil_iff.1 this

/-- From any state, everything under way gets to the receiver. -/
theorem reach_idle {s : St F} (f : Nat → In) (hf : Calm f) (hg : Good s) (hw : s.want = true) :
    ∃ k, dataOf (run s (edges f k)).wire.toList = [] ∧ (run s (edges f k)).queue.flatten = [] := by
  obtain ⟨k, k1, k2⟩ := reach_stable f hf hg hw
  obtain ⟨j, j1, j2⟩ := drain _ _ (fun j => f (j + k)) (hf.shift k) (hg.run f k) k1 ((want_run f k s).trans hw) k2
    (Nat.lt_succ_self _)
  rw [← run_edges_add] at j1 j2
  refine ⟨k + j + 1, ?_⟩
  rw [run_edges_add]
  exact wire_empties j1 j2 _

/-- Everything arrives: after any history that leaves the link wanted, enough
further clock edges bring every flit submitted to the receiver, in order. -/
theorem everything_arrives (ops : List (Op F)) (h : NoReset ops) (hw : (run .init ops).want = true) (f : Nat → In)
    (hf : Calm f) : ∃ n, dataOf (run .init (ops ++ edges f n)).received = submitted ops := by
  obtain ⟨n, n1, n2⟩ := reach_idle f hf (Good.ofRun ops h) hw
  refine ⟨n, ?_⟩
  rw [← run_append] at n1 n2
  have hn : NoReset (ops ++ edges f n) := by
    intro o ho
    rcases List.mem_append.1 ho with ho | ho
    · exact h o ho
    · exact edges_noReset f n o ho
  obtain ⟨o1, o2⟩ := flits_in_order (ops ++ edges f n) hn
  have hs : submitted (ops ++ edges f n) = submitted ops := by
    have : ∀ (n : Nat) (f : Nat → In), submitted (edges f n : List (Op F)) = [] := by
      intro n
      induction n with
      | zero => intro f; rfl
      | succ n ih =>
        intro f
        have := ih fun j => f (j + 1)
        simpa [submitted, edges] using this
    have hap : submitted (ops ++ edges f n) = submitted ops ++ submitted (edges f n) := by simp [submitted]
    rw [hap, this, List.append_nil]
  rw [← o1, dataOf_append, n1, n2, hs] at o2
  simpa using o2

/-- A link being deactivated on the peer's request while packets wait. -/
example : let t : Op Nat := .tick ⟨false, true, false⟩
    let ops : List (Op Nat) := [t, t, t, t, t, .submit 1 [2], .submit 3 [], .tick ⟨true, true, true⟩, t]
    NoReset ops ∧ (run .init ops).want = true ∧ (run .init ops).state = .deactivate ∧
      Calm (fun j => ⟨j % 2 == 0, true, false⟩) := by
  refine ⟨?_, rfl, rfl, fun j => ⟨rfl, rfl⟩⟩
  intro o ho
  simp at ho
  rcases ho with rfl | rfl | rfl | rfl | rfl <;> rfl

end Verif.ChiLink
