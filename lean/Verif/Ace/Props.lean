import Verif.Ace.Lemmas
import Verif.Ace.Quiet

/-!
# Coherence of ACE caches behind the ACE interconnect (C33)

For every configuration, every memory contents, every schedule: any number of masters, requests,
lines, and any interleaving of the process segments.

The theorems are partial in that the requests are those of `OpOk`; `Verif.Ace.Findings` shows what
goes wrong with the requests left out.  `c.split = false ∨ w = true` leaves out non-secure accesses
to a memory that keeps secure and non-secure addresses apart, also a finding.
-/

namespace Verif.Ace

section
variable {c : Cfg} {w : Bool} {mem : LineId → Mem} {junk : Nat → Nat → Mem} {as : List Action}

theorem inv_run (hL : 0 < c.lineSz) (hsp : c.split = false ∨ w = true) (ha : ScheduleOk c w as) :
    Inv c w (fun k => mem (c.phys k)) (run c (init mem junk) as) :=
  Inv.run hL hsp as _ (inv_init _ _) ha

theorem Inv.holds {m0 : LineId → Mem} {s : State} (h : Inv c w m0 s) {p : Nat} {l : Line} (hl : s.Holds p l) :
    l.key.2 = w ∧ s.line c p l.key = l ∧ (viewOf c m0 s l.key).copy p = some ⟨l.shared, l.dirty, l.data⟩ := by
  obtain ⟨hv, i, hi⟩ := hl
  obtain ⟨h1, h2⟩ := h.line p i (by rw [hi]; exact hv)
  rw [hi] at h1 h2
  have : s.line c p l.key = l := by rw [State.line, h1, hi]
  refine ⟨h2, this, ?_⟩
  simp only [viewOf, this, lineCopy, hv, and_self, if_true]

/-- A cache never holds two copies of a line. -/
theorem one_copy_per_cache_partial (hL : 0 < c.lineSz) (hsp : c.split = false ∨ w = true)
    (ha : ScheduleOk c w as) {p : Nat} {i j : Nat}
    (hi : (((run c (init mem junk) as).ports p).lines i).valid = true)
    (hj : (((run c (init mem junk) as).ports p).lines j).valid = true)
    (hk : (((run c (init mem junk) as).ports p).lines i).key = (((run c (init mem junk) as).ports p).lines j).key) :
    i = j := by
  have h := inv_run (junk := junk) (mem := mem) hL hsp ha
  rw [← (h.line p i hi).1, ← (h.line p j hj).1, hk]

/-- **Single writer**: when two caches hold a line both hold it shared, and they do not both hold it
dirty. -/
theorem single_writer_partial (hL : 0 < c.lineSz) (hsp : c.split = false ∨ w = true)
    (ha : ScheduleOk c w as) {p q : Nat} {a b : Line} (hpq : p ≠ q)
    (hp : (run c (init mem junk) as).Holds p a) (hq : (run c (init mem junk) as).Holds q b)
    (hk : a.key = b.key) :
    a.shared = true ∧ b.shared = true ∧ ¬ (a.dirty = true ∧ b.dirty = true) := by
  have h := inv_run (junk := junk) (mem := mem) hL hsp ha
  obtain ⟨hw, -, ca⟩ := h.holds hp
  obtain ⟨-, -, cb⟩ := h.holds hq
  rw [← hk] at cb
  have hv := h.view _ hw
  exact ⟨hv.s1 p q _ _ hpq ca cb, hv.s1 q p _ _ (Ne.symm hpq) cb ca,
    fun ⟨x, y⟩ => hpq (hv.s2 p q _ _ ca cb x y)⟩

/-- **Loads see the last store**: in the log of all byte reads and byte writes, every byte read has
the value last written to it, or its initial value in memory. -/
theorem loads_see_last_store_partial (hL : 0 < c.lineSz) (hsp : c.split = false ∨ w = true)
    (ha : ScheduleOk c w as) :
    Consistent (fun k => mem (c.phys k)) (run c (init mem junk) as).log :=
  (inv_run hL hsp ha).log

/-- **Copies are up to date**: every valid copy holds the last value stored to each of its bytes,
except while the transaction of its own cache is done and the cache has not noticed. -/
theorem copies_up_to_date_partial (hL : 0 < c.lineSz) (hsp : c.split = false ∨ w = true)
    (ha : ScheduleOk c w as) {p : Nat} {l : Line} (hp : (run c (init mem junk) as).Holds p l)
    (hd : ∀ a, ((run c (init mem junk) as).ports p).act = some a → a.stage ≠ .done) :
    ∀ o, o < c.lineSz →
      l.data o = replay (fun k => mem (c.phys k)) (run c (init mem junk) as).log l.key o := by
  have h := inv_run (junk := junk) (mem := mem) hL hsp ha
  obtain ⟨hw, -, ca⟩ := h.holds hp
  have := (h.view _ hw).val p _ ca
  have he : ∀ d, expect ((viewOf c (fun k => mem (c.phys k)) (run c (init mem junk) as) l.key).tx p) d = d := by
    intro d
    simp only [viewOf, txOf]
    rcases hact : ((run c (init mem junk) as).ports p).act with _ | a
    · rfl
    · simp only
      split
      · have := hd a hact
        rcases hst : a.stage <;> first | rfl | exact absurd hst this
      · rfl
  rw [he] at this
  exact this

/-- **All copies agree**. -/
theorem copies_agree_partial (hL : 0 < c.lineSz) (hsp : c.split = false ∨ w = true)
    (ha : ScheduleOk c w as) {p q : Nat} {a b : Line}
    (hp : (run c (init mem junk) as).Holds p a) (hq : (run c (init mem junk) as).Holds q b)
    (hk : a.key = b.key)
    (hdp : ∀ x, ((run c (init mem junk) as).ports p).act = some x → x.stage ≠ .done)
    (hdq : ∀ x, ((run c (init mem junk) as).ports q).act = some x → x.stage ≠ .done) :
    ∀ o, o < c.lineSz → a.data o = b.data o := by
  intro o ho
  rw [copies_up_to_date_partial hL hsp ha hp hdp o ho, copies_up_to_date_partial hL hsp ha hq hdq o ho, hk]

/-- **Nothing is lost**: when no request is under way, the last value stored to each byte of a line
is in memory, or in the one dirty copy of the line. -/
theorem nothing_lost_partial (hL : 0 < c.lineSz) (hsp : c.split = false ∨ w = true)
    (ha : ScheduleOk c w as) (hi : (run c (init mem junk) as).Idle) (k : LineId) (hw : k.2 = w) :
    (∀ o, o < c.lineSz → (run c (init mem junk) as).mem (c.phys k) o =
      replay (fun k => mem (c.phys k)) (run c (init mem junk) as).log k o) ∨
    ∃ p l, (run c (init mem junk) as).Holds p l ∧ l.key = k ∧ l.dirty = true ∧
      ∀ o, o < c.lineSz → l.data o =
        replay (fun k => mem (c.phys k)) (run c (init mem junk) as).log k o := by
  have h := inv_run (junk := junk) (mem := mem) hL hsp ha
  rcases (h.view k hw).memv with hm | ⟨p, a, hc, hd⟩ | ⟨p, t, st, ht, -⟩
  · exact Or.inl hm
  · right
    simp only [viewOf, lineCopy] at hc
    split at hc
    · rename_i hv
      cases hc
      have hh : (run c (init mem junk) as).Holds p ((run c (init mem junk) as).line c p k) := ⟨hv.1, _, rfl⟩
      refine ⟨p, _, hh, hv.2, hd, ?_⟩
      have := copies_up_to_date_partial hL hsp ha hh (fun a ha => by rw [hi p] at ha; cases ha)
      rw [hv.2] at this
      exact this
    · cases hc
  · simp only [viewOf, txOf, hi p] at ht
    cases ht

/-- A clean copy that is not shared with a dirty one agrees with memory: when no cache holds the line
dirty and no request is under way, memory holds the last value stored. -/
theorem memory_current_partial (hL : 0 < c.lineSz) (hsp : c.split = false ∨ w = true)
    (ha : ScheduleOk c w as) (hi : (run c (init mem junk) as).Idle) (k : LineId) (hw : k.2 = w)
    (hn : ∀ p l, (run c (init mem junk) as).Holds p l → l.key = k → l.dirty = false) :
    ∀ o, o < c.lineSz → (run c (init mem junk) as).mem (c.phys k) o =
      replay (fun k => mem (c.phys k)) (run c (init mem junk) as).log k o := by
  rcases nothing_lost_partial hL hsp ha hi k hw with h | ⟨p, l, h1, h2, h3, -⟩
  · exact h
  · rw [hn p l h1 h2] at h3; cases h3

end

/-! ## The hypotheses are met by busy systems

Two write-back caches of two 4-byte lines, one write-through cache, one ACE-Lite master. -/

namespace Demo

def cfg : Cfg := { lineSz := 4, slots := 2, masters := 3, wt := fun p => p == 2, split := false }
def mem0 : LineId → Mem := fun k o => BitVec.ofNat 8 (16 * k.1 + o)
def junk : Nat → Nat → Mem := fun _ _ _ => 0xEE

/-- Everything a transaction of port `p` may need to make progress. -/
def fin (p : Nat) : List Action :=
  let once : List Action :=
    [.snoop p 0, .snoop p 1, .snoop p 2, .final p, .ds, .final p, .ds, .resume p]
  once ++ once ++ once ++ once

def sched : List Action :=
  [.start 0 (.store 2 [0xA1, 0xA2, 0xA3] [] false)] ++ fin 0 ++
  -- a load of the two lines just written, interleaved with a store to one of them
  [.start 1 (.load 0 8 [] false), .start 0 (.store 1 [0xB1] [] false), .snoop 1 0, .snoop 1 2] ++
  fin 1 ++ fin 0 ++ fin 1 ++ fin 0 ++
  [.start 2 (.store 0 [1, 2, 3, 4] [true, false, true, true] false)] ++ fin 2 ++
  [.start 3 (.load 0 8 [] false)] ++ fin 3 ++
  [.start 3 (.store 4 [5, 6, 7, 8] [] false)] ++ fin 3 ++
  -- same slot as line 0: write-out of a victim
  [.start 0 (.store 1 [0xC1] [] false)] ++ fin 0 ++
  [.start 0 (.store 17 [0xD1] [] false)] ++ fin 0 ++
  [.start 1 (.load 0 20 [] false)] ++ fin 1 ++ fin 1 ++
  [.start 1 (.maint .cleanShared 17 false)] ++ fin 1 ++
  [.start 2 (.load 2 4 [] false)] ++ fin 2

def final : State := run cfg (init mem0 junk) sched

theorem fullLines_short {L addr len : Nat} {be : List Bool} (h : len < L) : FullLines L addr len be := by
  intro n h1 h2
  rw [Nat.add_mul] at h2; omega

def starts : List Action → List (Nat × Op)
  | [] => []
  | .start p op :: as => (p, op) :: starts as
  | _ :: as => starts as

theorem mem_starts {p : Nat} {op : Op} : ∀ {as : List Action}, Action.start p op ∈ as → (p, op) ∈ starts as
  | .start p' op' :: as, h => by
    rcases List.mem_cons.1 h with h | h
    · cases h; exact List.mem_cons_self ..
    · exact List.mem_cons_of_mem _ (mem_starts h)
  | .snoop .. :: as, h => mem_starts (as := as) (by simpa using h)
  | .final _ :: as, h => mem_starts (as := as) (by simpa using h)
  | .ds :: as, h => mem_starts (as := as) (by simpa using h)
  | .resume _ :: as, h => mem_starts (as := as) (by simpa using h)

theorem scheduleOk_of {c : Cfg} {w : Bool} {as : List Action} {l : List (Nat × Op)} (e : starts as = l)
    (h : ∀ x ∈ l, OpOk c w x.1 x.2) : ScheduleOk c w as := by
  intro p op hm
  subst e
  exact h (p, op) (mem_starts hm)

/-- The schedule is one of those the theorems speak about. -/
theorem sched_ok : ScheduleOk cfg false sched := by
  refine scheduleOk_of (l := [(0, .store 2 [0xA1, 0xA2, 0xA3] [] false), (1, .load 0 8 [] false),
    (0, .store 1 [0xB1] [] false), (2, .store 0 [1, 2, 3, 4] [true, false, true, true] false),
    (3, .load 0 8 [] false), (3, .store 4 [5, 6, 7, 8] [] false), (0, .store 1 [0xC1] [] false),
    (0, .store 17 [0xD1] [] false), (1, .load 0 20 [] false), (1, .maint .cleanShared 17 false),
    (2, .load 2 4 [] false)]) rfl ?_
  simp only [List.mem_cons, List.not_mem_nil, or_false, forall_eq_or_imp, forall_eq, OpOk, cfg]
  refine ⟨⟨trivial, fun _ _ => fullLines_short (by decide), by decide, fun _ h => by simp at h⟩, ⟨trivial, by decide⟩,
    ⟨trivial, fun _ _ => fullLines_short (by decide), by decide, fun _ h => by simp at h⟩,
    ⟨trivial, fun _ h => by simp at h, by decide, fun _ _ i h1 h2 => absurd h2 (Nat.not_lt.2 h1)⟩,
    ⟨trivial, by decide⟩, ⟨trivial, fun h => by omega, by decide, fun h => by omega⟩,
    ⟨trivial, fun _ _ => fullLines_short (by decide), by decide, fun _ h => by simp at h⟩,
    ⟨trivial, fun _ _ => fullLines_short (by decide), by decide, fun _ h => by simp at h⟩,
    ⟨trivial, by decide⟩, ⟨trivial, trivial⟩, ⟨trivial, by decide⟩⟩

attribute [local irreducible] run

/-- Stores of all three kinds of masters, loads that return what others stored. -/
example : final.log.length = 53 ∧ Ev.rd 1 (0, false) 1 0xB1 ∈ final.log ∧
    Ev.wr 2 (0, false) 0 1 ∈ final.log ∧ Ev.rd 3 (0, false) 0 1 ∈ final.log ∧
    Ev.wr 3 (1, false) 3 8 ∈ final.log ∧ Ev.rd 2 (1, false) 0 5 ∈ final.log := by decide +kernel

example : Consistent (fun k => mem0 (cfg.phys k)) final.log :=
  loads_see_last_store_partial (c := cfg) (mem := mem0) (junk := junk) (as := sched) (by decide) (Or.inl rfl) sched_ok

/-- Two caches hold line 4. -/
theorem two_holders : final.Holds 0 ((final.ports 0).lines 0) ∧ final.Holds 1 ((final.ports 1).lines 0) ∧
    ((final.ports 0).lines 0).key = ((final.ports 1).lines 0).key :=
  ⟨⟨by decide +kernel, 0, rfl⟩, ⟨by decide +kernel, 0, rfl⟩, by decide +kernel⟩

example : ((final.ports 0).lines 0).shared = true ∧ ((final.ports 1).lines 0).shared = true ∧
    ¬ (((final.ports 0).lines 0).dirty = true ∧ ((final.ports 1).lines 0).dirty = true) :=
  single_writer_partial (c := cfg) (mem := mem0) (junk := junk) (as := sched) (by decide) (Or.inl rfl) sched_ok (by decide) two_holders.1 two_holders.2.1 two_holders.2.2

/-- All requests have been served. -/
theorem final_idle : final.Idle := by
  intro p
  by_cases h : p < 4
  · have : ∀ p, p < 4 → (final.ports p).act.isNone = true := by decide +kernel
    exact Option.isNone_iff_eq_none.1 (this p h)
  · show Quiet p (run cfg (init mem0 junk) sched)
    refine Quiet.run sched rfl (fun op hm => ?_)
    have := mem_starts hm
    have e : ∀ x ∈ starts sched, x.1 < 4 := by decide +kernel
    exact h (e _ this)

example : ∀ o, o < 4 → ((final.ports 0).lines 0).data o = ((final.ports 1).lines 0).data o :=
  copies_agree_partial (c := cfg) (mem := mem0) (junk := junk) (as := sched) (by decide) (Or.inl rfl) sched_ok two_holders.1 two_holders.2.1 two_holders.2.2
    (fun x hx => nomatch (final_idle 0).symm.trans hx) (fun x hx => nomatch (final_idle 1).symm.trans hx)

example : (∀ o, o < 4 → final.mem (cfg.phys (4, false)) o = replay (fun k => mem0 (cfg.phys k)) final.log (4, false) o) ∨
    ∃ p l, final.Holds p l ∧ l.key = (4, false) ∧ l.dirty = true ∧
      ∀ o, o < 4 → l.data o = replay (fun k => mem0 (cfg.phys k)) final.log (4, false) o :=
  nothing_lost_partial (c := cfg) (mem := mem0) (junk := junk) (as := sched) (by decide) (Or.inl rfl) sched_ok final_idle (4, false) rfl

/-- In the middle of it: cache 0 holds line 0 dirty, memory is out of date. -/
example : let s := run cfg (init mem0 junk) ([.start 0 (.store 2 [0xA1, 0xA2, 0xA3] [] false)] ++ fin 0)
    ((s.ports 0).lines 0).dirty = true ∧ ((s.ports 0).lines 0).data 2 = 0xA1 ∧ s.mem (0, false) 2 = 2 := by
  decide +kernel

end Demo
end Verif.Ace
