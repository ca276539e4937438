import Verif.ChiLink.Lemmas

/-!
C29: on a CHI channel a flit is sent only with a credit, at most fifteen credits
are outstanding, credits are neither created nor lost while the link activates,
runs and deactivates, and the receiver gets exactly the flits sent, in order.

Theorems quantify over every sequence of packet submissions, run/stop requests
and clock cycles, with either process order at each clock edge.
-/
namespace Verif.ChiLink

variable {F : Type}

/-- A history without reset. -/
def NoReset (ops : List (Op F)) : Prop := ∀ o ∈ ops, o.isReset = false

/-- All flits of the packets handed to the channel, in order. -/
def submitted (ops : List (Op F)) : List F :=
  ops.flatMap fun o => match o with | .submit f fs => f :: fs | _ => []

theorem submitted_eq (ops : List (Op F)) : submitted ops = ops.flatMap newFlits := by
  unfold submitted
  congr 1

/-- Credits are conserved: those at the transmitter, being given, travelling
with a flit, and at the receiver always add up to fifteen. -/
theorem credits_conserved (ops : List (Op F)) (h : NoReset ops) :
    (run .init ops).txCred + (run .init ops).lcrdv.toNat + (run .init ops).wire.toList.length
      + (run .init ops).rxCred = 15 :=
  (core_run (by omega) h core_init).total

/-- As seen on the signals: never more flits than credit pulses, and never more
than fifteen credits outstanding. -/
theorem flits_need_credits (ops : List (Op F)) (h : NoReset ops) :
    (run .init ops).sent.length ≤ (run .init ops).granted ∧
    (run .init ops).granted ≤ (run .init ops).received.length + 15 := by
  have hc := (core_run (by omega) h (core_init (F := F))).total
  have hf := flow_run (by omega) h (core_init (F := F)) flow_init
  have h1 := hf.credits
  have h2 := congrArg List.length hf.inOrder
  simp only [List.length_append, St.total] at *
  omega

/-- What the receiver got, then what is on the wire, is exactly what was sent,
in order; and the packet flits sent, then those still queued, are exactly the
flits submitted, in order. -/
theorem flits_in_order (ops : List (Op F)) (h : NoReset ops) :
    (run .init ops).received ++ (run .init ops).wire.toList = (run .init ops).sent ∧
    dataOf (run .init ops).sent ++ (run .init ops).queue.flatten = submitted ops := by
  have hf := flow_run (by omega) h (core_init (F := F)) flow_init
  refine ⟨hf.inOrder, ?_⟩
  rw [submitted_eq]
  simpa using hf.data

theorem rxCred_le (ops : List (Op F)) (h : NoReset ops) : (run .init ops).rxCred ≤ 15 := by
  have := credits_conserved ops h
  omega

/-- A stopped link is quiet and every credit is back at the receiver. -/
theorem stopped_is_clean (ops : List (Op F)) (h : NoReset ops)
    (hs : (run .init ops).state = .stop) :
    (run .init ops).rxCred = 15 ∧ (run .init ops).txCred = 0 ∧
    (run .init ops).lcrdv = false ∧ (run .init ops).wire = none := by
  have key : ∀ (ops : List (Op F)) (s : St F), (∀ o ∈ ops, o.isReset = false) → Core 15 s →
      (s.state = .stop → s.rxCred = 15) → (run s ops).state = .stop → (run s ops).rxCred = 15 := by
    intro ops
    induction ops with
    | nil => intro s _ _ h; exact h
    | cons o os ih =>
      intro s ho hc hf
      refine ih (step s o) (fun o' h' => ho o' (List.mem_cons_of_mem _ h'))
        (core_step (by omega) hc (ho o (List.mem_cons_self ..))) ?_
      cases o with
      | submit f fs => exact hf
      | setState b => exact hf
      | reset => exact absurd (ho _ (List.mem_cons_self ..)) (by simp [Op.isReset])
      | tick i =>
        intro hst
        have htot := hc.total
        have hr := rxTick_total s hc.quiet
        have hack : ackTick s i (rxTick s).1 = false := by
          rcases state_cases (step s (.tick i)) with h | h | h | h
          · exact h.2.2
          all_goals rw [h.1] at hst; simp at hst
        show (rxTick s).1 = 15
        rcases state_cases s with ⟨hs, h1, h2⟩ | ⟨hs, h1, h2⟩ | ⟨hs, h1, h2⟩ | ⟨hs, h1, h2⟩
        · have := hf hs
          simpa [rxTick, hs] using this
        · simp [ackTick, hs] at hack
        · simp [ackTick, hs, h2] at hack
        · have hmono : s.rxCred ≤ (rxTick s).1 := by simp [rxTick, hs]
          have hle : (rxTick s).1 ≤ 15 := by unfold St.total at htot; omega
          simp only [ackTick, hs, h2, maxCredits] at hack
          cases hp : i.portLast <;> simp [hp] at hack <;> omega
  have h15 := key ops .init h core_init (fun _ => rfl) hs
  have hc := core_run (by omega) h (core_init (F := F))
  obtain ⟨q1, q2⟩ := hc.quiet hs
  have := hc.total
  unfold St.total at this
  exact ⟨h15, by omega, q1, q2⟩

/-- Number of clock edges in a history. -/
def ticks (ops : List (Op F)) : Nat := (ops.filter fun o => match o with | .tick _ => true | _ => false).length

theorem deact_tick {s : St F} (hc : Core 15 s) (hs : s.state = .deactivate) (i : In)
    (hi : i.others = true) :
    (step s (.tick i)).state = .stop ∨
    ((step s (.tick i)).state = .deactivate ∧
      (step s (.tick i)).txCred + (step s (.tick i)).lcrdv.toNat
        + (if (step s (.tick i)).rxCred = 15 then 0 else 1)
        < s.txCred + s.lcrdv.toNat + (if s.rxCred = 15 then 0 else 1)) := by
  have htot := hc.total
  have htx := txTick_total s hc.quiet
  have hrx := rxTick_total s hc.quiet
  unfold St.total at htot
  rcases state_cases s with ⟨hs', h1, h2⟩ | ⟨hs', h1, h2⟩ | ⟨hs', h1, h2⟩ | ⟨-, h1, h2⟩
  · rw [hs] at hs'; simp at hs'
  · rw [hs] at hs'; simp at hs'
  · rw [hs] at hs'; simp at hs'
  have hl : (rxTick s).2.1 = false := by simp [rxTick, hs]
  have hreq : (reqTick s i).1 = false := by simp [reqTick, hs, h1]
  have hsend : 0 < s.txCred + s.lcrdv.toNat → (txTick s).cred < s.txCred + s.lcrdv.toNat := by
    intro hp
    simp only [txTick, hs]
    obtain ⟨c, hc⟩ : ∃ c, s.txCred + s.lcrdv.toNat = c + 1 := ⟨_, (Nat.succ_pred_eq_of_pos hp).symm⟩
    rw [hc]
    unfold sendNext
    simp only
    split
    · simp
    · simp
  cases hack : ackTick s i (rxTick s).1 with
  | false =>
    left
    simp [St.state, step, hack, hreq, linkState]
  | true =>
    right
    refine ⟨by simp [St.state, step, hack, hreq, linkState], ?_⟩
    show (txTick s).cred + (rxTick s).2.1.toNat + (if (rxTick s).1 = 15 then 0 else 1) < _
    simp only [ackTick, hs, hi, maxCredits, h2] at hack
    rw [hl] at hrx ⊢
    simp only [Bool.toNat_false] at hrx ⊢
    by_cases hp : 0 < s.txCred + s.lcrdv.toNat
    · have := hsend hp
      have hne : s.rxCred ≠ 15 := by omega
      rw [if_neg hne]
      split <;> omega
    · by_cases h15 : s.rxCred = 15
      · have : (rxTick s).1 = 15 := by omega
        rw [h15, this] at hack
        simp at hack
      · have : (rxTick s).1 = 15 := by omega
        rw [if_pos this, if_neg h15]
        omega

/-- Deactivation always completes: from any reachable deactivating state, when
the other channels of the port are deactivated, seventeen clock cycles suffice
to reach the stopped state, whatever else happens in between. -/
theorem deactivation_terminates (ops more : List (Op F)) (h : NoReset ops) (hm : NoReset more)
    (hs : (run .init ops).state = .deactivate)
    (ho : ∀ i, Op.tick i ∈ more → i.others = true) (ht : 17 ≤ ticks more) :
    ∃ k, (run (run .init ops) (more.take k)).state = .stop := by
  have key : ∀ (more : List (Op F)) (s : St F) (n : Nat), Core 15 s → s.state = .deactivate →
      (∀ o ∈ more, o.isReset = false) → (∀ i, Op.tick i ∈ more → i.others = true) →
      s.txCred + s.lcrdv.toNat + (if s.rxCred = 15 then 0 else 1) < n → n ≤ ticks more →
      ∃ k, (run s (more.take k)).state = .stop := by
    intro more
    induction more with
    | nil =>
      intro s n _ _ _ _ hn1 hn2
      simp only [ticks, List.filter_nil, List.length_nil] at hn2
      omega
    | cons o os ih =>
      intro s n hc hs hr ho hn1 hn2
      have hr' : ∀ o ∈ os, o.isReset = false := fun o' h' => hr o' (List.mem_cons_of_mem _ h')
      have ho' : ∀ i, Op.tick i ∈ os → i.others = true :=
        fun i hi => ho i (List.mem_cons_of_mem _ hi)
      have hc' := core_step (by omega) hc (hr o (List.mem_cons_self ..))
      cases o with
      | submit f fs =>
        obtain ⟨k, hk⟩ := ih (step s (.submit f fs)) n hc' hs hr' ho' hn1 hn2
        exact ⟨k + 1, hk⟩
      | setState b =>
        obtain ⟨k, hk⟩ := ih (step s (.setState b)) n hc' hs hr' ho' hn1 hn2
        exact ⟨k + 1, hk⟩
      | reset => exact absurd (hr _ (List.mem_cons_self ..)) (by simp [Op.isReset])
      | tick i =>
        rcases deact_tick hc hs i (ho i (List.mem_cons_self ..)) with hst | ⟨hd, hlt⟩
        · exact ⟨1, hst⟩
        · have hn2' : n - 1 ≤ ticks os := by
            simp only [ticks, List.filter_cons_of_pos, List.length_cons] at hn2 ⊢
            omega
          obtain ⟨k, hk⟩ := ih (step s (.tick i)) (n - 1) hc' hd hr' ho' (by omega) hn2'
          exact ⟨k + 1, hk⟩
  have hc := core_run (by omega) h (core_init (F := F))
  refine key more _ 17 hc hs hm ho ?_ ht
  have := hc.total
  unfold St.total at this
  split <;> omega

/-- Activation: a stopped link that wants to run does so after two cycles. -/
theorem activation (ops : List (Op F)) (i j : In)
    (hs : (run .init ops).state = .stop) (hw : (run .init ops).want = true) :
    (step (step (run .init ops) (.tick i)) (.tick j)).state = .run := by
  generalize run .init ops = s at *
  rcases state_cases s with ⟨-, h1, h2⟩ | ⟨hs', h1, h2⟩ | ⟨hs', h1, h2⟩ | ⟨hs', h1, h2⟩
  · have h3 : (step s (.tick i)).req = true := by simp [step, reqTick, hs, hw]
    have h4 : (step s (.tick i)).ack = false := by simp [step, ackTick, hs, h2]
    have h5 : (step s (.tick i)).state = .activate := by simp [St.state, h3, h4, linkState]
    generalize step s (.tick i) = t at *
    simp [St.state, step, reqTick, ackTick] at h5 ⊢
    simp only [linkState, h3, h4]
  all_goals rw [hs] at hs'; simp at hs'

/-- A stopped link that is not wanted stays stopped. -/
theorem not_requested_unless_wanted (ops : List (Op F)) (i : In)
    (hs : (run .init ops).state = .stop) (hw : (run .init ops).want = false) :
    (step (run .init ops) (.tick i)).state = .stop := by
  generalize run .init ops = s at *
  rcases state_cases s with ⟨-, h1, h2⟩ | ⟨hs', h1, h2⟩ | ⟨hs', h1, h2⟩ | ⟨hs', h1, h2⟩
  · have h3 : (step s (.tick i)).req = false := by simp [step, reqTick, hs, hw, h1]
    have h4 : (step s (.tick i)).ack = false := by simp [step, ackTick, hs, h2]
    simp [St.state, h3, h4, linkState]
  all_goals rw [hs] at hs'; simp at hs'

/-- A running link that is no longer wanted starts to deactivate at the next
clock edge. -/
theorem unwanted_link_deactivates (ops : List (Op F)) (i : In)
    (hs : (run .init ops).state = .run) (hw : (run .init ops).want = false) :
    (step (run .init ops) (.tick i)).state = .deactivate := by
  generalize run .init ops = s at *
  rcases state_cases s with ⟨hs', h1, h2⟩ | ⟨hs', h1, h2⟩ | ⟨hs', h1, h2⟩ | ⟨hs', h1, h2⟩
  case inr.inr.inl =>
    have h3 : (step s (.tick i)).req = false := by simp [step, reqTick, hs, hw]
    have h4 : (step s (.tick i)).ack = true := by simp [step, ackTick, hs, h2]
    simp [St.state, h3, h4, linkState]
  all_goals rw [hs] at hs'; simp at hs'

/-- Queued packets other than the first are unsent. -/
def QueueOk (s : St F) : Prop := ∀ q ∈ s.queue.tail, q ≠ []

theorem popDone_ok (q : List (List F)) (h : ∀ p ∈ q.tail, p ≠ []) : ∀ p ∈ (popDone q).1, p ≠ [] := by
  unfold popDone
  split
  · simpa using h
  · rename_i hne
    cases q with
    | nil => simp
    | cons a r =>
      intro p hp
      rcases List.mem_cons.1 hp with rfl | hp
      · rintro rfl; exact hne r rfl
      · exact h p hp

theorem sendNext_ok (d : Bool) (c : Nat) (p : List (List F)) (hp : ∀ q ∈ p, q ≠ []) :
    ∀ q ∈ (sendNext d c p).queue.tail, q ≠ [] := by
  intro q hq
  unfold sendNext at hq
  split at hq
  · exact hp q (List.mem_of_mem_tail hq)
  · split at hq
    · exact hp q (List.mem_cons_of_mem _ hq)
    · split at hq <;> exact hp q (List.mem_of_mem_tail hq)

theorem queueOk_step {s : St F} (h : QueueOk s) (o : Op F) : QueueOk (step s o) := by
  cases o with
  | submit f fs =>
    intro q hq
    simp only [step] at hq
    cases hs : s.queue with
    | nil => rw [hs] at hq; simp at hq
    | cons a r =>
      rw [hs] at hq
      simp only [List.cons_append, List.tail_cons, List.mem_append, List.mem_singleton] at hq
      rcases hq with hq | rfl
      · exact h q (by rw [hs]; exact hq)
      · simp
  | setState b => exact h
  | reset => intro q hq; simp [step] at hq
  | tick i =>
    intro q hq
    have hq : q ∈ (txTick s).queue.tail := hq
    unfold txTick at hq
    split at hq
    · exact h q hq
    · exact h q hq
    · have hp := popDone_ok s.queue h
      dsimp only at hq
      exact sendNext_ok _ _ _ hp q hq

theorem queueOk_run (ops : List (Op F)) : ∀ {s : St F}, QueueOk s → QueueOk (run s ops) := by
  induction ops with
  | nil => intro s h; exact h
  | cons o os ih => intro s h; exact ih (queueOk_step h o)

/-- With a credit available, a waiting flit is sent. -/
theorem tx_sends {s : St F} (hs : s.state = .run ∨ s.state = .deactivate) (hq : QueueOk s)
    (hne : s.queue.flatten ≠ []) (hc : 0 < s.txCred + s.lcrdv.toNat) :
    ∃ f, (txTick s).wire = some (.data f) := by
  obtain ⟨c, hc⟩ : ∃ c, s.txCred + s.lcrdv.toNat = c + 1 := ⟨_, (Nat.succ_pred_eq_of_pos hc).symm⟩
  have hp := popDone_ok s.queue hq
  have hfl := popDone_flatten s.queue
  have hex : ∃ f fs r, (popDone s.queue).1 = (f :: fs) :: r := by
    cases hpq : (popDone s.queue).1 with
    | nil => rw [hpq] at hfl; exact absurd hfl.symm hne
    | cons a r =>
      cases a with
      | nil => exact absurd rfl (hp [] (by rw [hpq]; simp))
      | cons f fs => exact ⟨f, fs, r, rfl⟩
  obtain ⟨f, fs, r, hpq⟩ := hex
  refine ⟨f, ?_⟩
  rcases hs with hs | hs <;> simp [txTick, hs, hc, hpq, sendNext]

/-- Progress: on a running link a waiting flit goes out within two cycles,
whatever happens to the link meanwhile. -/
theorem flits_progress (ops : List (Op F)) (h : NoReset ops) (i j : In)
    (hs : (run .init ops).state = .run) (hne : (run .init ops).queue.flatten ≠ []) :
    (dataOf (run .init ops).sent).length
      < (dataOf (step (step (run .init ops) (.tick i)) (.tick j)).sent).length := by
  have hc := core_run (by omega) h (core_init (F := F))
  have hq := queueOk_run ops (s := (St.init : St F)) (by intro q hq; simp [St.init] at hq)
  generalize run .init ops = s at *
  have hns : s.state ≠ .stop := by rw [hs]; simp
  -- the state after the first cycle
  have hst1 : (step s (.tick i)).state = .run ∨ (step s (.tick i)).state = .deactivate := by
    rcases state_cases s with ⟨hs', h1, h2⟩ | ⟨hs', h1, h2⟩ | ⟨-, h1, h2⟩ | ⟨hs', h1, h2⟩
    · rw [hs] at hs'; simp at hs'
    · rw [hs] at hs'; simp at hs'
    · have ha : (step s (.tick i)).ack = true := by simp [step, ackTick, hs, h2]
      rcases state_cases (step s (.tick i)) with h | h | h | h
      · rw [ha] at h; simp at h
      · rw [ha] at h; simp at h
      · exact Or.inl h.1
      · exact Or.inr h.1
    · rw [hs] at hs'; simp at hs'
  have hns1 : (step s (.tick i)).state ≠ .stop := by
    rcases hst1 with h | h <;> rw [h] <;> simp
  rw [sent_tick _ j, if_neg hns1, sent_tick s i, if_neg hns]
  simp only [dataOf_append, List.length_append]
  by_cases hcr : 0 < s.txCred + s.lcrdv.toNat
  · obtain ⟨f, hf⟩ := tx_sends (Or.inl hs) hq hne hcr
    rw [hf]
    have : (dataOf (some (Wire.data f)).toList).length = 1 := rfl
    omega
  · have htot := hc.total
    unfold St.total at htot
    have hl : (rxTick s).2.1 = true := by
      simp only [rxTick, hs]
      split
      · rename_i h; simp at h
      · split
        · rename_i h; omega
        · rfl
    have hc1 : 0 < (step s (.tick i)).txCred + (step s (.tick i)).lcrdv.toNat := by
      have : (step s (.tick i)).lcrdv = true := hl
      rw [this]; simp
    have hfl : (step s (.tick i)).queue.flatten ≠ [] := by
      have hd := txTick_data s hns
      have hw : (txTick s).wire = none := by
        have := txTick_total s hc.quiet
        cases hw : (txTick s).wire with
        | none => rfl
        | some w => rw [hw] at this; simp at this; omega
      rw [hw] at hd
      show (txTick s).queue.flatten ≠ []
      simp only [Option.toList_none, dataOf, List.filterMap_nil, List.nil_append] at hd
      rw [hd]; exact hne
    obtain ⟨f, hf⟩ := tx_sends hst1 (queueOk_step hq _) hfl hc1
    rw [hf]
    have : (dataOf (some (Wire.data f)).toList).length = 1 := rfl
    omega

/-! ### Reset loses credits -/

/-- The property fails across a reset: a credit pulse (or a flit) on its way
when reset is asserted is lost for good, because neither side resets its credit
count. After this history the total is fourteen, and an acknowledged link can
then never be deactivated again without another reset. -/
theorem reset_loses_credit : ∃ ops : List (Op F), (run .init ops).total = 14 ∧
    ∀ more : List (Op F), NoReset more → (run (run .init ops) more).ack = true →
      ∀ rest : List (Op F), NoReset rest → (run (run (run .init ops) more) rest).ack = true := by
  let i : In := ⟨true, true, false⟩
  refine ⟨[.tick i, .tick i, .reset], rfl, ?_⟩
  intro more hm hack rest hr
  have hc0 : Core 14 (run (St.init : St F) [.tick i, .tick i, .reset]) := ⟨rfl, fun _ => ⟨rfl, rfl⟩⟩
  have hc := core_run (by omega) hm hc0
  generalize run (run (St.init : St F) [.tick i, .tick i, .reset]) more = s at *
  clear hm hc0
  induction rest generalizing s with
  | nil => exact hack
  | cons o os ih =>
    have hro := hr o (List.mem_cons_self ..)
    refine ih (fun o' h' => hr o' (List.mem_cons_of_mem _ h')) (step s o) ?_
      (core_step (by omega) hc hro)
    cases o with
    | submit f fs => exact hack
    | setState b => exact hack
    | reset => simp [Op.isReset] at hro
    | tick j =>
      show ackTick s j (rxTick s).1 = true
      have htot := hc.total
      have hrx := rxTick_total s hc.quiet
      unfold St.total at htot
      have h1 : (rxTick s).1 ≠ 15 := by omega
      have h2 : s.rxCred ≠ 15 := by omega
      unfold ackTick
      split
      · rfl
      · rw [if_neg]
        · exact hack
        · simp only [maxCredits, Bool.and_eq_true, beq_iff_eq, not_and]
          intro _
          split <;> assumption
      · exact hack

/-- Fifteen such resets leave no credit at all: from then on nothing is ever
sent, not even credit returns, whatever is submitted. -/
theorem resets_deadlock_link : ∃ ops : List (Op F), ∀ more : List (Op F), NoReset more →
    (run (run .init ops) more).sent = (run .init ops).sent := by
  let i : In := ⟨true, true, false⟩
  refine ⟨(List.replicate 15 [.tick i, .tick i, .reset]).flatten, ?_⟩
  intro more hm
  have hc : Core 0 (run (St.init : St F) (List.replicate 15 [.tick i, .tick i, .reset]).flatten) :=
    ⟨rfl, fun _ => ⟨rfl, rfl⟩⟩
  generalize run (St.init : St F) (List.replicate 15 [.tick i, .tick i, .reset]).flatten = s at *
  induction more generalizing s with
  | nil => rfl
  | cons o os ih =>
    have hro := hm o (List.mem_cons_self ..)
    have := ih (fun o' h' => hm o' (List.mem_cons_of_mem _ h')) (step s o)
      (core_step (by omega) hc hro)
    show (run (step s o) os).sent = s.sent
    rw [this]
    cases o with
    | submit f fs => rfl
    | setState b => rfl
    | reset => simp [Op.isReset] at hro
    | tick j =>
      have htot := hc.total
      have htx := txTick_total s hc.quiet
      unfold St.total at htot
      have hw : (txTick s).wire = none := by
        cases hw : (txTick s).wire with
        | none => rfl
        | some w => rw [hw] at htx; simp at htx; omega
      rw [sent_tick]
      split
      · rfl
      · rw [hw]; simp

/-! ### Non-vacuity -/

/-- Three packets, the link is stopped while busy and restarted. -/
private def demo : List (Op Nat) :=
  let t : Op Nat := .tick ⟨false, true, false⟩
  [.submit 1 [2], t, t, .submit 3 [], t, t, t, t, t, .setState false, t, t, .submit 7 []]

example : NoReset demo ∧ (run .init demo).state = .deactivate ∧
    (run .init demo).received = [.data 1, .data 2, .data 3] ∧ (run .init demo).queue = [[7]] := by
  refine ⟨?_, ?_, ?_, ?_⟩
  · intro o ho
    simp only [demo, List.mem_cons, List.not_mem_nil, or_false] at ho
    rcases ho with h | h | h | h | h | h | h | h | h | h | h | h | h <;> subst h <;> rfl
  all_goals decide +kernel

example : (run .init (demo ++ List.replicate 17 (.tick ⟨false, true, false⟩))).state = .stop ∧
    dataOf (run .init (demo ++ List.replicate 17 (.tick ⟨false, true, false⟩))).received
      = [1, 2, 3, 7] := by
  constructor <;> decide +kernel

/-- A running link with a waiting flit. -/
example : (run (F := Nat) .init [.tick ⟨true, true, false⟩, .tick ⟨true, true, false⟩,
      .submit 5 []]).state = .run := by decide +kernel

end Verif.ChiLink
