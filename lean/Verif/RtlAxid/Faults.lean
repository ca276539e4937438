import Verif.RtlAxid.FetchProps

/-! Histories of the store of IDs, and what goes wrong in shorter ones. -/

namespace Verif.RtlAxid

/-- `Good`, with other numbers of cycles. -/
def goodB (gap spare n : Nat) (w : World) (i : In) : Bool :=
  (!i.next || (decide (gap ≤ w.since) && decide (spare ≤ w.room))) &&
  (decide (2 < w.since) || (decide (i.id = w.last.1) && decide (i.desc = w.last.2))) &&
  match i.pop with
  | some k => decide (k < n) && !(w.s.q k).isEmpty
  | none => true

def allB (gap spare n : Nat) (w : World) : List In → Bool
  | [] => true
  | i :: t => goodB gap spare n w i && allB gap spare n (w.next n i) t

theorem all_of (n : Nat) (t : List In) (w : World) (h : allB 6 4 n w t = true) : All n w t := by
  induction t generalizing w with
  | nil => trivial
  | cons i t ih =>
    simp only [allB, goodB, Bool.and_eq_true, Bool.or_eq_true, decide_eq_true_eq, Bool.not_eq_true'] at h
    obtain ⟨⟨⟨h1, h2⟩, h3⟩, h4⟩ := h
    refine ⟨⟨?_, ?_, ?_⟩, ih _ h4⟩
    · intro hx
      rcases h1 with h1 | h1
      · rw [hx] at h1; cases h1
      · exact h1
    · intro hs
      rcases h2 with h2 | h2
      · omega
      · exact h2
    · intro k hk
      rw [hk] at h3
      simp at h3
      exact h3

/-- A request, with its ID and descriptor on the wires, and cycles after it. -/
def ask (id desc later : Nat) : List In := ⟨true, id, desc, none⟩ :: List.replicate later ⟨false, id, desc, none⟩
def quiet (m : Nat) : List In := List.replicate m ⟨false, 0, 0, none⟩
def answer (k : Nat) : In := ⟨false, 0, 0, some k⟩

/-- Requests of two IDs, six cycles apart, and one of the first ID again; then
one of them is answered. -/
def good : List In := quiet 3 ++ ask 7 0 5 ++ ask 8 1 5 ++ ask 7 2 5 ++ [answer 0]

example : All 4 World.start good := all_of _ _ _ (by decide +kernel)
example : 4 ≤ (World.start.run 4 good).since ∧ ofId (World.start.run 4 good).out 7 = [2] ∧
    (World.start.run 4 good).s.q 0 = [2] ∧ (World.start.run 4 good).s.q 1 = [1] := by decide +kernel
/-- Two requests of one ID are in one FIFO. -/
example : (World.start.run 4 (quiet 3 ++ ask 7 0 5 ++ ask 8 1 5 ++ ask 7 2 5)).s.q 0 = [0, 2] := by decide +kernel
/-- An older ID is found while the newest request is on its way. -/
example : All 4 World.start (quiet 3 ++ ask 7 0 5 ++ ask 8 1 0) ∧
    (World.start.run 4 (quiet 3 ++ ask 7 0 5 ++ ask 8 1 0)).last.1 = 8 ∧
    ofId (World.start.run 4 (quiet 3 ++ ask 7 0 5 ++ ask 8 1 0)).out 7 ≠ [] ∧
    (World.start.run 4 (quiet 3 ++ ask 7 0 5 ++ ask 8 1 0)).s.q 0 ≠ [] :=
  ⟨all_of _ _ _ (by decide +kernel), by decide +kernel⟩

/-- Two new IDs five cycles apart get the same FIFO: the first of them has none
any more, and a response to the second is taken for one to the first.  The code
asks for two cycles (`axid_store.v` 276-277). -/
theorem close_requests_mixed : ∃ t, allB 5 4 4 World.start t = true ∧ (World.start.run 4 t).out = [(7, 0), (8, 1)] ∧
    6 ≤ (World.start.run 4 t).since ∧ (World.start.run 4 t).s.q 0 = [0, 1] ∧ (World.start.run 4 t).s.id 0 = 8 ∧
    ∀ k < 4, (World.start.run 4 t).s.id k ≠ 7 :=
  ⟨quiet 3 ++ ask 7 0 4 ++ ask 8 1 5, by decide +kernel⟩

/-- A new ID three cycles after a FIFO became empty, all others being in use: the
FIFO of another ID is taken. -/
theorem late_room_mixed : ∃ t, allB 6 3 2 World.start t = true ∧ (World.start.run 2 t).out = [(7, 0), (9, 2)] ∧
    6 ≤ (World.start.run 2 t).since ∧ (World.start.run 2 t).s.q 0 = [0, 2] ∧ (World.start.run 2 t).s.q 1 = [] ∧
    (World.start.run 2 t).s.id 0 = 9 :=
  ⟨quiet 3 ++ ask 7 0 5 ++ ask 8 1 5 ++ [answer 1] ++ quiet 2 ++ ask 9 2 5, by decide +kernel⟩

/-- Two requests of one new ID two cycles apart: the first descriptor is lost and
the second is there twice. -/
theorem back_to_back_twice : ∃ t, (World.start.run 4 t).out = [(7, 0), (7, 1)] ∧
    6 ≤ (World.start.run 4 t).since ∧ (World.start.run 4 t).s.q 0 = [1, 1] :=
  ⟨quiet 3 ++ ask 7 0 1 ++ ask 7 1 5, by decide +kernel⟩

def keptB (n : Nat) (m : Master) : List FIn → Bool
  | [] => true
  | i :: t => (!m.f.en || (decide (i.head.1 < n) && !(m.w.out.map (·.2)).contains i.head.1)) &&
      (match i.pop with
      | some k => decide (k < n) && !(m.w.s.q k).isEmpty
      | none => true) && keptB n (m.next n i) t

theorem kept_of (n : Nat) (t : List FIn) (m : Master) (h : keptB n m t = true) : AllKept n m t := by
  induction t generalizing m with
  | nil => trivial
  | cons i t ih =>
    simp only [keptB, Bool.and_eq_true, Bool.or_eq_true, Bool.not_eq_true', decide_eq_true_eq] at h
    obtain ⟨⟨h1, h3⟩, h4⟩ := h
    refine ⟨⟨?_, ?_⟩, ih _ h4⟩
    · intro he
      rcases h1 with h1 | ⟨h1, h2⟩
      · rw [he] at h1; cases h1
      · exact ⟨h1, fun hm => by rw [List.contains_iff_mem.2 hm] at h2; cases h2⟩
    · intro k hk
      rw [hk] at h3
      simp at h3
      exact h3

/-- The other side takes every request at once; two descriptors with one ID. -/
def sends (d id m : Nat) : List FIn := List.replicate m ⟨true, (d, id), true, none⟩

def busyRun : List FIn := sends 0 7 8 ++ sends 1 7 8 ++ sends 2 5 8

example : AllKept 4 Master.start busyRun := kept_of _ _ _ (by decide +kernel)
example : (Master.start.run 4 busyRun).w.out = [(7, 0), (7, 1)] ∧ 4 ≤ (Master.start.run 4 busyRun).w.since ∧
    (Master.start.run 4 busyRun).w.s.q 0 = [0, 1] := by decide +kernel
/-- Nine cycles are what there may be: the third request is on the bus then. -/
example : AllKept 4 Master.start (busyRun ++ sends 2 5 2) ∧ (Master.start.run 4 (busyRun ++ sends 2 5 2)).f.valid = true ∧
    (Master.start.run 4 (busyRun ++ sends 2 5 2)).w.since = 9 :=
  ⟨kept_of _ _ _ (by decide +kernel), by decide +kernel⟩

end Verif.RtlAxid
