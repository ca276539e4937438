import Verif.Dvm.Lemmas

/-!
# DVM syncs of the ACE interconnect: theorems
-/

namespace Verif.Dvm

theorem none_pending (c : Conf) (h : Nat → Nat) (l : List Nat) (hh : ∀ q, q < c.n → c.part q = true → l.countP (fun x => x != q) ≤ h q) :
    ∀ e ∈ matching c h l, pend c e = false := by
  induction l generalizing h with
  | nil => intro e he; cases he
  | cons p t ih =>
    intro e he
    rcases List.mem_cons.mp he with h1 | h1
    · subst h1
      simp only [pend, List.any_eq_false, List.mem_range]
      intro q hq
      by_cases hp : c.part q = true
      · have := hh q hq hp
        by_cases h2 : q = p
        · simp [h2]
        · have h3 : (p != q) = true := by simpa using fun h => h2 h.symm
          simp only [List.countP_cons, h3, if_true] at this
          have h4 : h q ≠ 0 := by omega
          simp [h4]
      · simp [hp]
    · refine ih _ ?_ e h1
      intro q hq hp
      have := hh q hq hp
      by_cases h2 : q = p
      · subst h2; simpa [List.countP_cons] using this
      · have h3 : (p != q) = true := by simpa using fun h => h2 h.symm
        simp only [List.countP_cons, h3, if_true] at this
        simp only [h2, if_false]; omega

theorem matching_fst (c : Conf) (h : Nat → Nat) (l : List Nat) : (matching c h l).map Prod.fst = l := by
  induction l generalizing h with
  | nil => rfl
  | cons p t ih => simp only [matching, List.map_cons, ih]

/-- Every port has been sent as many Completes as it has Syncs which all others
completed, at each time, so that none comes early, none is missing and none comes
twice; and no assertion fails.  Partial: when a snoop is still on its way this
need not be so (`answered_twice`, `resync_asserts`), nor when nobody else takes
part (`alone_unanswered`). -/
theorem syncs_answered_partial (c : Conf) (hc : ∀ p, p < c.n → ∃ q, q < c.n ∧ c.part q = true ∧ q ≠ p) (evs : List Ev)
    (hl : All (Legal c) c .start evs) (hm : All Calm c .start evs) :
    let w := World.start.run c evs
    w.s.failed = false ∧ ∀ p, w.s.sent.count p = answered c w.syncs w.comps p := by
  have i := inv_run hc (inv_start c) evs hl hm
  exact ⟨i.ok, i.se⟩

/-- When every port which takes part has completed the Syncs of all others, all
Syncs are answered, each once. -/
theorem all_answered_partial (c : Conf) (hc : ∀ p, p < c.n → ∃ q, q < c.n ∧ c.part q = true ∧ q ≠ p) (evs : List Ev)
    (hl : All (Legal c) c .start evs) (hm : All Calm c .start evs) :
    let w := World.start.run c evs
    (∀ q, q < c.n → c.part q = true → w.comps.count q = w.syncs.countP fun p => p != q) → w.s.sent.Perm w.syncs := by
  intro w hw
  have i := inv_run hc (inv_start c) evs hl hm
  rw [List.perm_iff_count]
  intro p
  rw [show w.s.sent.count p = _ from i.se p, answered]
  have h1 := none_pending c (fun q => w.comps.count q) w.syncs fun q hq hp => Nat.le_of_eq (hw q hq hp).symm
  rw [List.countP_congr (q := fun e => e.1 == p) fun e he => by rw [show pend c e = false from h1 e he]; simp]
  have h2 := List.countP_map (p := fun x : Nat => x == p) (f := Prod.fst) (l := matching c (fun q => w.comps.count q) w.syncs)
  rw [matching_fst] at h2
  rw [List.count, h2]
  rfl

/-- A port is not sent more Completes than it has Syncs. -/
theorem never_more (c : Conf) (syncs comps : List Nat) (p : Nat) : answered c syncs comps p ≤ syncs.count p := by
  have h2 := List.countP_map (p := fun x : Nat => x == p) (f := Prod.fst) (l := matching c (fun q => comps.count q) syncs)
  rw [matching_fst] at h2
  rw [answered, List.count, h2]
  apply List.countP_mono_left
  intro e _ h
  simp only [Bool.and_eq_true] at h
  exact h.2

/-- Two masters which take part. -/
def two : Conf := ⟨2, fun _ => true⟩

/-- Both send a Sync and both complete that of the other; the second Complete
comes while the first initiator is still being snooped. -/
def crossing : List Ev := [.sync 0, .sync 1, .complete 1, .complete 0]

/-- Port 0 is then sent two Completes and port 1 none, whenever the snoops end, and
nobody owes a Complete which would set it right. -/
theorem answered_twice (evs : List Ev) (h : ∀ e ∈ evs, ∃ k, e = .finish k) :
    All (Legal two) two .start crossing ∧
      let w := World.start.run two (crossing ++ evs)
      w.s.sent = [0, 0] ∧ w.syncs = [0, 1] ∧ ∀ q, ¬Legal two w (.complete q) := by
  refine ⟨?_, ?_⟩
  · refine ⟨⟨by decide, rfl⟩, ⟨by decide, rfl⟩, ⟨by decide, rfl, by decide⟩, ⟨by decide, rfl, by decide⟩, trivial⟩
  · have key : ∀ (w : World), w.s.sent = [0, 0] → w.syncs = [0, 1] → w.comps = [1, 0] →
        (w.run two evs).s.sent = [0, 0] ∧ (w.run two evs).syncs = [0, 1] ∧ (w.run two evs).comps = [1, 0] := by
      induction evs with
      | nil => intro w h1 h2 h3; exact ⟨h1, h2, h3⟩
      | cons e t ih =>
        intro w h1 h2 h3
        obtain ⟨k, rfl⟩ := h e List.mem_cons_self
        refine ih (fun x hx => h x (List.mem_cons_of_mem _ hx)) _ ?_ h2 h3
        show (step two w.s (.finish k)).sent = [0, 0]
        simp only [step, finish]
        split
        · exact h1
        · split <;> exact h1
    have e : ∀ (w : World) (a b : List Ev), w.run two (a ++ b) = (w.run two a).run two b := by
      intro w a b
      induction a generalizing w with
      | nil => rfl
      | cons x t ih => exact ih _
    rw [e]
    obtain ⟨h1, h2, h3⟩ := key (World.start.run two crossing) (by decide +kernel) rfl rfl
    refine ⟨h1, h2, ?_⟩
    rintro q ⟨h4, _, h5⟩
    rw [h2, h3] at h5
    have : q = 0 ∨ q = 1 := by
      have : q < 2 := h4
      omega
    rcases this with rfl | rfl
    · revert h5; decide
    · revert h5; decide

/-- A port answers its Complete late and sends its next Sync before. -/
def resync : List Ev := [.sync 0, .complete 1, .sync 0, .finish 0, .complete 1]

/-- The tracker of its second Sync is taken from the list with that of the first,
and the Complete of the other port fails an assertion. -/
theorem resync_asserts : All (Legal two) two .start resync ∧ (World.start.run two resync).s.failed = true := by
  refine ⟨⟨⟨by decide, rfl⟩, ⟨by decide, rfl, by decide⟩, ⟨by decide, rfl⟩, trivial, ⟨by decide, rfl, by decide⟩, trivial⟩, by decide +kernel⟩

/-- If no other port takes part, a Sync is never answered. -/
theorem alone_unanswered (c : Conf) (p : Nat) (hc : ∀ q, q < c.n → c.part q = true → q = p) (evs : List Ev)
    (hs : ∀ x, Ev.sync x ∈ evs → x = p) (hl : All (Legal c) c .start evs) : (World.start.run c evs).s.sent = [] := by
  have key : ∀ (w : World), w.s.sent = [] → (∀ x ∈ w.syncs, x = p) → All (Legal c) c w evs → (w.run c evs).s.sent = [] := by
    clear hl
    induction evs with
    | nil => intro w h1 _ _; exact h1
    | cons e t ih =>
      intro w h1 h2 hl
      have hs' : ∀ x, Ev.sync x ∈ t → x = p := fun x hx => hs x (List.mem_cons_of_mem _ hx)
      refine ih hs' _ ?_ ?_ hl.2
      · cases e with
        | sync x => simp only [World.next, step]; split <;> exact h1
        | finish k =>
          simp only [World.next, step, finish]
          split
          · exact h1
          · split <;> exact h1
        | complete q =>
          obtain ⟨ha, hb, hlt⟩ := hl.1
          have hq := hc q ha hb
          have : w.syncs.countP (fun p => p != q) = 0 := by
            rw [List.countP_eq_zero]
            intro x hx
            simp [h2 x hx, hq]
          omega
      · cases e with
        | sync x =>
          intro y hy
          rcases List.mem_append.mp hy with h | h
          · exact h2 y h
          · rw [List.mem_singleton.mp h]; exact hs x List.mem_cons_self
        | finish k => exact h2
        | complete q => exact h2
  exact key .start rfl (fun _ h => nomatch h) hl

/-- Three masters, Syncs of two at a time. -/
def three : Conf := ⟨3, fun _ => true⟩

def calm : List Ev :=
  [.sync 0, .sync 2, .complete 1, .complete 2, .finish 0, .complete 0, .complete 1, .finish 0, .sync 0]

example : All (Legal three) three .start calm ∧ All Calm three .start calm := by
  refine ⟨⟨⟨by decide, rfl⟩, ⟨by decide, rfl⟩, ⟨by decide, rfl, by decide⟩, ⟨by decide, rfl, by decide⟩, trivial,
    ⟨by decide, rfl, by decide⟩, ⟨by decide, rfl, by decide⟩, trivial, ⟨by decide, by decide +kernel⟩, trivial⟩, ?_⟩
  refine ⟨?_, ?_, rfl, rfl, trivial, rfl, rfl, trivial, ?_, trivial⟩ <;> simp only [Calm] <;> decide +kernel

example : ∀ p, p < three.n → ∃ q, q < three.n ∧ three.part q = true ∧ q ≠ p := by
  intro p _
  by_cases h : p = 0
  · exact ⟨1, by decide, rfl, by omega⟩
  · exact ⟨0, by decide, rfl, fun h1 => h h1.symm⟩

example : (World.start.run three calm).s.sent = [0, 2] ∧ (World.start.run three (calm.take 4)).s.sent = [0] ∧
    (World.start.run three (calm.take 3)).s.sent = [] := by decide +kernel

example : All (Legal ⟨2, fun q => q == 0⟩) ⟨2, fun q => q == 0⟩ .start [.sync 0] := ⟨⟨by decide, rfl⟩, trivial⟩

end Verif.Dvm
