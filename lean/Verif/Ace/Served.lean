import Verif.Ace.Chunks
import Verif.Ace.Props

/-!
# Every request is served, completely and in order (C45)

For every configuration, memory and schedule, without the restrictions of the coherence theorems: the
requests may be any loads and stores and the three cache maintenance operations.
-/

namespace Verif.Ace

/-- The schedule contains sensible requests only. -/
def OpsWf (as : List Action) : Prop := ∀ p op, Action.start p op ∈ as → op.Wf

/-- Not the start of a request. -/
def Action.internal : Action → Prop
  | .start .. => False
  | _ => True

/-- A schedule without new requests, all of whose actions do something. -/
def AllEffective (c : Cfg) : State → List Action → Prop
  | _, [] => True
  | s, a :: as => a.internal ∧ step c s a ≠ s ∧ AllEffective c (step c s a) as

section
variable {c : Cfg} {s : State}

theorem internal_moved (hL : 0 < c.lineSz) (h : Wf c s.core) {a : Action} (ha : a.internal) :
    step c s a = s ∨ Moved c s (step c s a) := by
  cases a with
  | start p op => exact ha.elim
  | snoop p q => exact snoop_moved h q
  | final p => exact final_moved h
  | ds => exact ds_moved h
  | resume p => exact resume_moved hL h

theorem account (hL : 0 < c.lineSz) (q : Nat) : ∀ (as : List Action) (s : State), Wf c s.core → OpsWf as →
    Wf c (run c s as).core ∧
    served (run c s as).log q ++ pend ((run c s as).core.act q) =
      served s.log q ++ pend (s.core.act q) ++ accepted c q s as
  | [], s, h, _ => ⟨h, by simp [run, accepted]⟩
  | a :: as, s, h, ha => by
    have ha' : OpsWf as := fun p op hm => ha p op (List.mem_cons_of_mem _ hm)
    by_cases hi : a.internal
    · have hacc : accepted c q s (a :: as) = accepted c q (step c s a) as := by
        conv => lhs; unfold accepted
        cases a <;> first | exact hi.elim | simp
      rw [hacc]
      rw [show run c s (a :: as) = run c (step c s a) as from rfl]
      rcases internal_moved hL h hi with e | e
      · rw [e]; exact account hL q as s h ha'
      · obtain ⟨g1, g2⟩ := account hL q as (step c s a) e.wf ha'
        exact ⟨g1, by rw [← e.acc q]; exact g2⟩
    · cases a with
      | start p op =>
        obtain ⟨w, e⟩ := start_result (p := p) hL h (ha p op (List.mem_cons_self ..)) q
        obtain ⟨g1, g2⟩ := account hL q as (step c s (.start p op)) w ha'
        refine ⟨g1, ?_⟩
        show served (run c (step c s (.start p op)) as).log q ++ _ = _
        rw [show (run c s (.start p op :: as)).core = (run c (step c s (.start p op)) as).core from rfl, g2]
        show served (startStep c s p op).log q ++ pend ((startStep c s p op).core.act q) ++ _ = _
        rw [e, accepted, List.append_assoc]
      | snoop p q => exact absurd trivial hi
      | final p => exact absurd trivial hi
      | ds => exact absurd trivial hi
      | resume p => exact absurd trivial hi

theorem bound (as : List Action) : ∃ N, ∀ q, N ≤ q → ∀ op, Action.start q op ∉ as := by
  induction as with
  | nil => exact ⟨0, fun q _ op => by simp⟩
  | cons a as ih =>
    obtain ⟨N, h⟩ := ih
    cases a with
    | start p op =>
      refine ⟨max N (p + 1), fun q hq op' hm => ?_⟩
      rcases List.mem_cons.1 hm with e | hm
      · injection e with e1 _; omega
      · exact h q (by omega) op' hm
    | snoop p r => exact ⟨N, fun q hq op hm => h q hq op (by simpa using hm)⟩
    | final p => exact ⟨N, fun q hq op hm => h q hq op (by simpa using hm)⟩
    | ds => exact ⟨N, fun q hq op hm => h q hq op (by simpa using hm)⟩
    | resume p => exact ⟨N, fun q hq op hm => h q hq op (by simpa using hm)⟩

theorem effective_le (hL : 0 < c.lineSz) {N : Nat} : ∀ (as : List Action) (s : State), Wf c s.core →
    (∀ q, N ≤ q → Quiet q s) → AllEffective c s as → as.length ≤ total c N s
  | [], _, _, _, _ => Nat.zero_le _
  | a :: as, s, h, hq, ⟨h1, h2, h3⟩ => by
    rcases internal_moved hL h h1 with e | e
    · exact absurd e h2
    · have := effective_le hL as _ e.wf (fun q hn => (hq q hn).step a (fun op e' => by rw [e'] at h1; exact h1)) h3
      have := e.total hq
      simp only [List.length_cons]; omega

/-- Some process can run as long as somebody waits. -/
theorem some_action (hL : 0 < c.lineSz) (h : Wf c s.core) (hi : ¬ s.Idle) :
    ∃ a : Action, a.internal ∧ Moved c s (step c s a) := by
  have hex : ∃ p a, (s.ports p).act = some a := by
    refine Classical.byContradiction (fun hne => hi (fun p => ?_))
    rcases hp : (s.ports p).act with _ | a
    · rfl
    · exact absurd ⟨p, a, hp⟩ hne
  have dsn : s.ds ≠ [] → ∃ a : Action, a.internal ∧ Moved c s (step c s a) := by
    intro hd
    rcases hs : s.ds with _ | ⟨p, rest⟩
    · exact absurd hs hd
    · exact ⟨.ds, trivial, ds_eff h hs⟩
  have ong : ∀ p a, (s.ports p).act = some a → a.stage ≠ .waiting →
      ∃ a : Action, a.internal ∧ Moved c s (step c s a) := by
    intro p a ha hw
    obtain ⟨t, st, job, next⟩ := a
    rcases st with _ | todo | _ | _ | _ | _ | _
    · exact absurd rfl hw
    · obtain ⟨hne, -, -⟩ := (h.act p _ ha).stage
      obtain ⟨q, rest, rfl⟩ := List.exists_cons_of_ne_nil hne
      by_cases hwo : s.writeOngoing q = false
      · exact ⟨.snoop p q, trivial, snoop_eff h ha ⟨List.mem_cons_self .., hwo⟩⟩
      · unfold State.writeOngoing State.txn? at hwo
        rcases hq : (s.ports q).act with _ | b
        · rw [hq] at hwo; simp at hwo
        · rw [hq] at hwo
          simp only [Option.map_some, Bool.not_eq_false, Bool.or_eq_true, beq_iff_eq] at hwo
          have hns : b.txn.cmd.snooping = false := by rcases hwo with e | e <;> rw [e] <;> rfl
          have hso := (h.act q b hq).stage
          rcases hst : b.stage with _ | todo | _ | _ | _ | _ | _
          · rw [hst] at hso; rw [hso] at hns; cases hns
          · rw [hst] at hso; rw [hso.2.2] at hns; cases hns
          · exact ⟨.final q, trivial, final_eff h hq (Or.inl hst)⟩
          · exact dsn (List.ne_nil_of_mem ((h.dsm q).2 ⟨b, hq, Or.inl hst⟩))
          · exact ⟨.final q, trivial, final_eff h hq (Or.inr hst)⟩
          · exact dsn (List.ne_nil_of_mem ((h.dsm q).2 ⟨b, hq, Or.inr hst⟩))
          · exact ⟨.resume q, trivial, resume_eff hL h hq hst⟩
    · exact ⟨.final p, trivial, final_eff h ha (Or.inl rfl)⟩
    · exact dsn (List.ne_nil_of_mem ((h.dsm p).2 ⟨_, ha, Or.inl rfl⟩))
    · exact ⟨.final p, trivial, final_eff h ha (Or.inr rfl)⟩
    · exact dsn (List.ne_nil_of_mem ((h.dsm p).2 ⟨_, ha, Or.inr rfl⟩))
    · exact ⟨.resume p, trivial, resume_eff hL h ha rfl⟩
  obtain ⟨p, a, ha⟩ := hex
  by_cases hw : a.stage = .waiting
  · obtain ⟨q, b, hq, hb, -⟩ := (overlapping_iff _).1 (h.wait p a ha hw)
    obtain ⟨b', hb', hst⟩ := (h.ong q).1 hq
    exact ong q b' hb' hst
  · exact ong p a ha hw

theorem completes (hL : 0 < c.lineSz) {N : Nat} : ∀ (n : Nat) (s : State), total c N s ≤ n → Wf c s.core →
    (∀ q, N ≤ q → Quiet q s) → ∃ as, AllEffective c s as ∧ (run c s as).Idle := by
  intro n
  induction n with
  | zero =>
    intro s hn h hq
    by_cases hi : s.Idle
    · exact ⟨[], trivial, hi⟩
    · obtain ⟨a, ha, hm⟩ := some_action hL h hi
      have ht := hm.total hq
      omega
  | succ n ih =>
    intro s hn h hq
    by_cases hi : s.Idle
    · exact ⟨[], trivial, hi⟩
    · obtain ⟨a, ha, hm⟩ := some_action hL h hi
      have ht := hm.total hq
      have hq' : ∀ q, N ≤ q → Quiet q (step c s a) :=
        fun q hn => (hq q hn).step a (fun op e' => by rw [e'] at ha; exact ha)
      obtain ⟨as, h1, h2⟩ := ih (step c s a) (by omega) hm.wf hq'
      exact ⟨a :: as, ⟨ha, hm.ne, h1⟩, h2⟩
end

section
variable {c : Cfg} {mem : LineId → Mem} {junk : Nat → Nat → Mem} {as : List Action}

/-- **Requests are served in order**: at any time the bytes read and written by a master are a prefix of
what its accepted requests asked for. -/
theorem served_in_order (hL : 0 < c.lineSz) (ha : OpsWf as) (p : Nat) :
    served (run c (init mem junk) as).log p <+: accepted c p (init mem junk) as :=
  ⟨_, ((account hL p as (init mem junk) (wf_init mem junk) ha).2).trans (by rfl)⟩

/-- **Completely**: when a master is idle its accepted requests have been served, byte for byte. -/
theorem served_completely (hL : 0 < c.lineSz) (ha : OpsWf as) (p : Nat)
    (hp : ((run c (init mem junk) as).ports p).act = none) :
    served (run c (init mem junk) as).log p = accepted c p (init mem junk) as := by
  have h := (account hL p as (init mem junk) (wf_init mem junk) ha).2
  rw [show (run c (init mem junk) as).core.act p = none from hp] at h
  simpa [pend, State.core, init, served] using h

/-- **No deadlock**: as long as some request is not finished, some process can run. -/
theorem no_deadlock (hL : 0 < c.lineSz) (ha : OpsWf as) (hi : ¬ (run c (init mem junk) as).Idle) :
    ∃ a : Action, a.internal ∧ step c (run c (init mem junk) as) a ≠ run c (init mem junk) as := by
  obtain ⟨a, h1, h2⟩ := some_action hL (account hL 0 as (init mem junk) (wf_init mem junk) ha).1 hi
  exact ⟨a, h1, h2.ne⟩

/-- **No livelock**: without new requests, only so many process segments can run. -/
theorem no_livelock (hL : 0 < c.lineSz) (ha : OpsWf as) :
    ∃ N, ∀ bs, AllEffective c (run c (init mem junk) as) bs → bs.length ≤ N := by
  obtain ⟨N, hN⟩ := bound as
  exact ⟨total c N (run c (init mem junk) as), fun bs hb =>
    effective_le hL bs _ (account hL 0 as (init mem junk) (wf_init mem junk) ha).1
      (fun q hq => Quiet.run as rfl (hN q hq)) hb⟩

/-- **Every request completes**: from every reachable state the system runs to the end of all
requests. -/
theorem requests_complete (hL : 0 < c.lineSz) (ha : OpsWf as) :
    ∃ bs, AllEffective c (run c (init mem junk) as) bs ∧ (run c (run c (init mem junk) as) bs).Idle := by
  obtain ⟨N, hN⟩ := bound as
  exact completes hL (N := N) _ _ (Nat.le_refl _) (account hL 0 as (init mem junk) (wf_init mem junk) ha).1
    (fun q hq => Quiet.run as rfl (hN q hq))

end

namespace Demo

theorem sched_wf : OpsWf sched := by
  intro p op hm
  have h := sched_ok p op hm
  cases op with
  | load => trivial
  | store => trivial
  | maint cmd addr sec => exact Or.inl h.1

attribute [local irreducible] run

/-- Port 0 stored three bytes, then three times one. -/
example : served final.log 0 = [.wr (0, false) 2 0xA1, .wr (0, false) 3 0xA2, .wr (1, false) 0 0xA3,
    .wr (0, false) 1 0xB1, .wr (0, false) 1 0xC1, .wr (4, false) 1 0xD1] := by decide +kernel

example : served final.log 0 = accepted cfg 0 (init mem0 junk) sched :=
  served_completely (c := cfg) (mem := mem0) (junk := junk) (as := sched) (by decide) sched_wf 0 (final_idle 0)

/-- A busy system: two requests for the same line under way, one of them waiting for the other. -/
def busy : List Action := [.start 0 (.store 0 [1] [] false), .start 1 (.load 0 8 [] false)]

example : (((run cfg (init mem0 junk) busy).ports 1).act.map (·.stage)) = some .waiting ∧
    (((run cfg (init mem0 junk) busy).ports 0).act.map (·.stage)) = some (.snoop [1, 2]) := by decide +kernel

example : ¬ (run cfg (init mem0 junk) busy).Idle := by
  intro h
  have h1 := h 1
  have h2 : ((run cfg (init mem0 junk) busy).ports 1).act.isSome = true := by decide +kernel
  rw [h1] at h2; cases h2

end Demo
end Verif.Ace
