import Verif.ChiLink.Model

/-! Invariant of the link. -/
namespace Verif.ChiLink

variable {F : Type}

/-- Credits wherever they are: at the transmitter, on the way to it, in a flit
on the wire, at the receiver. -/
def St.total (s : St F) : Nat :=
  s.txCred + s.lcrdv.toNat + s.wire.toList.length + s.rxCred

def Op.isReset : Op F → Bool
  | .reset => true
  | _ => false

/-- What a stopped link looks like. -/
def Quiet (s : St F) : Prop :=
  s.lcrdv = false ∧ s.wire = none

structure Core (n : Nat) (s : St F) : Prop where
  total : s.total = n
  quiet : s.state = .stop → Quiet s

theorem sendNext_cred (d : Bool) (c : Nat) (q : List (List F)) :
    (sendNext d c q).cred + (sendNext d c q).wire.toList.length = c := by
  unfold sendNext
  split
  · simp
  · split
    · simp
    · split <;> simp

theorem state_cases (s : St F) :
    (s.state = .stop ∧ s.req = false ∧ s.ack = false) ∨
    (s.state = .activate ∧ s.req = true ∧ s.ack = false) ∨
    (s.state = .run ∧ s.req = true ∧ s.ack = true) ∨
    (s.state = .deactivate ∧ s.req = false ∧ s.ack = true) := by
  unfold St.state linkState
  cases s.req <;> cases s.ack <;> simp

theorem txTick_total (s : St F) (h : s.state = .stop → Quiet s) :
    (txTick s).cred + (txTick s).wire.toList.length = s.txCred + s.lcrdv.toNat := by
  unfold txTick
  split
  · rename_i hs
    obtain ⟨h1, h2⟩ := h hs
    simp [h1, h2]
  · simp
  · exact sendNext_cred _ _ _

theorem rxTick_total (s : St F) (h : s.state = .stop → Quiet s) :
    (rxTick s).1 + (rxTick s).2.1.toNat = s.rxCred + s.wire.toList.length := by
  unfold rxTick
  split
  · rename_i hs
    obtain ⟨h1, h2⟩ := h hs
    simp [h2]
  · dsimp only
    split
    · simp
    · split
      · rename_i hc; simp [hc]
      · rename_i c hc; simp [hc]

theorem core_tick {n : Nat} (hn : n ≤ 15) {s : St F} (h : Core n s) (i : In) :
    Core n (step s (.tick i)) := by
  have ht := txTick_total s h.quiet
  have hr := rxTick_total s h.quiet
  have htot := h.total
  unfold St.total at htot
  have htot' : (step s (.tick i)).total = n := by
    simp only [St.total, step]
    omega
  refine ⟨htot', ?_⟩
  intro hstop
  have hack : ackTick s i (rxTick s).1 = false := by
    rcases state_cases (step s (.tick i)) with h | h | h | h
    · exact h.2.2
    · rw [h.1] at hstop; simp at hstop
    · rw [h.1] at hstop; simp at hstop
    · rw [h.1] at hstop; simp at hstop
  rcases state_cases s with ⟨hs, h1, h2⟩ | ⟨hs, h1, h2⟩ | ⟨hs, h1, h2⟩ | ⟨hs, h1, h2⟩
  · obtain ⟨q1, q2⟩ := h.quiet hs
    simp [Quiet, step, txTick, rxTick, hs, q2]
  · simp [ackTick, hs] at hack
  · simp [ackTick, hs, h2] at hack
  · -- deactivation completes: every credit is back
    have hall : (rxTick s).1 = 15 ∨ s.rxCred = 15 := by
      simp only [ackTick, hs, h2, maxCredits] at hack
      cases hp : i.portLast <;> simp [hp] at hack
      · exact Or.inr hack.2
      · exact Or.inl hack.2
    have hmono : s.rxCred ≤ (rxTick s).1 := by
      simp [rxTick, hs]
    have hzero : (rxTick s).2.1.toNat = 0 ∧ (txTick s).wire.toList.length = 0 := by
      rcases hall with hall | hall <;> omega
    constructor
    · show (rxTick s).2.1 = false
      cases hb : (rxTick s).2.1
      · rfl
      · rw [hb] at hzero; simp at hzero
    · show (txTick s).wire = none
      cases hb : (txTick s).wire
      · rfl
      · rw [hb] at hzero; simp at hzero

theorem core_step {n : Nat} (hn : n ≤ 15) {s : St F} (h : Core n s) {o : Op F}
    (ho : o.isReset = false) : Core n (step s o) := by
  cases o with
  | submit f fs => exact ⟨h.total, h.quiet⟩
  | setState b => exact ⟨h.total, h.quiet⟩
  | tick i => exact core_tick hn h i
  | reset => simp [Op.isReset] at ho

theorem core_run {n : Nat} (hn : n ≤ 15) {ops : List (Op F)} (ho : ∀ o ∈ ops, o.isReset = false) :
    ∀ {s : St F}, Core n s → Core n (run s ops) := by
  induction ops with
  | nil => intro s h; exact h
  | cons o os ih =>
    intro s h
    exact ih (fun o' h' => ho o' (List.mem_cons_of_mem _ h'))
      (core_step hn h (ho o (List.mem_cons_self ..)))

theorem core_init : Core 15 (St.init (F := F)) :=
  ⟨rfl, fun _ => ⟨rfl, rfl⟩⟩

theorem run_append (s : St F) (a b : List (Op F)) : run s (a ++ b) = run (run s a) b := by
  simp [run]

/-! Flits -/

/-- The packet flits among what is on the wire. -/
def dataOf (l : List (Wire F)) : List F :=
  l.filterMap fun w => match w with | .data f => some f | .creditReturn => none

theorem dataOf_append (a b : List (Wire F)) : dataOf (a ++ b) = dataOf a ++ dataOf b := by
  simp [dataOf]

structure Flow (s : St F) (flits : List F) : Prop where
  inOrder : s.received ++ s.wire.toList = s.sent
  data : dataOf s.sent ++ s.queue.flatten = flits
  credits : s.sent.length + s.txCred + s.lcrdv.toNat = s.granted

theorem popDone_flatten (q : List (List F)) : (popDone q).1.flatten = q.flatten := by
  unfold popDone
  split <;> simp

theorem sendNext_data (d : Bool) (c : Nat) (q : List (List F)) :
    dataOf (sendNext d c q).wire.toList ++ (sendNext d c q).queue.flatten = q.flatten := by
  unfold sendNext
  split
  · simp [dataOf]
  · split
    · simp [dataOf]
    · split <;> simp [dataOf]

theorem txTick_data (s : St F) (h : s.state ≠ .stop) :
    dataOf (txTick s).wire.toList ++ (txTick s).queue.flatten = s.queue.flatten := by
  unfold txTick
  split
  · contradiction
  · simp [dataOf]
  · dsimp only
    rw [sendNext_data, popDone_flatten]

theorem rxTick_recv (s : St F) (h : s.state ≠ .stop) : (rxTick s).2.2 = s.wire.toList := by
  unfold rxTick
  split
  · contradiction
  · dsimp only
    split
    · rfl
    · split <;> rfl

def newFlits : Op F → List F
  | .submit f fs => f :: fs
  | _ => []

theorem sent_tick (s : St F) (i : In) : (step s (.tick i)).sent
    = if s.state = .stop then s.sent else s.sent ++ (txTick s).wire.toList := by
  simp only [step]
  split
  · rename_i h; rw [if_pos h]
  · rename_i h; rw [if_neg h]

theorem flow_step {n : Nat} {s : St F} {flits : List F} (hc : Core n s) (h : Flow s flits) {o : Op F}
    (ho : o.isReset = false) : Flow (step s o) (flits ++ newFlits o) := by
  cases o with
  | submit f fs =>
    refine ⟨h.inOrder, ?_, h.credits⟩
    show dataOf s.sent ++ (s.queue ++ [f :: fs]).flatten = _
    rw [List.flatten_append, ← List.append_assoc, h.data]
    simp [newFlits]
  | setState b => exact ⟨h.inOrder, by simpa [newFlits, step] using h.data, h.credits⟩
  | reset => simp [Op.isReset] at ho
  | tick i =>
    have hcr := h.credits
    by_cases hs : s.state = .stop
    · obtain ⟨q1, q2⟩ := hc.quiet hs
      refine ⟨?_, ?_, ?_⟩
      · rw [sent_tick, if_pos hs]
        have := h.inOrder
        simpa [step, rxTick, txTick, hs] using this
      · rw [sent_tick, if_pos hs]
        have := h.data
        simpa [step, txTick, hs, newFlits] using this
      · rw [sent_tick, if_pos hs]
        simp only [step, txTick, rxTick, hs, q1] at *
        simpa using hcr
    · refine ⟨?_, ?_, ?_⟩
      · rw [sent_tick, if_neg hs]
        show s.received ++ (rxTick s).2.2 ++ (txTick s).wire.toList = _
        rw [rxTick_recv s hs, h.inOrder]
      · rw [sent_tick, if_neg hs]
        show dataOf (s.sent ++ (txTick s).wire.toList) ++ (txTick s).queue.flatten = _
        rw [dataOf_append, List.append_assoc, txTick_data s hs, h.data]
        simp [newFlits]
      · rw [sent_tick, if_neg hs]
        have ht := txTick_total s hc.quiet
        simp only [step, List.length_append] at *
        omega

theorem flow_run {n : Nat} (hn : n ≤ 15) {ops : List (Op F)} (ho : ∀ o ∈ ops, o.isReset = false) :
    ∀ {s : St F} {flits : List F}, Core n s → Flow s flits →
      Flow (run s ops) (flits ++ ops.flatMap newFlits) := by
  induction ops with
  | nil => intro s fl _ h; simpa [run] using h
  | cons o os ih =>
    intro s fl hc h
    have ho' := ho o (List.mem_cons_self ..)
    have := ih (fun o' h' => ho o' (List.mem_cons_of_mem _ h')) (core_step hn hc ho')
      (flow_step hc h ho')
    simpa [run, List.append_assoc] using this

theorem flow_init : Flow (St.init (F := F)) [] := ⟨rfl, rfl, rfl⟩

end Verif.ChiLink
