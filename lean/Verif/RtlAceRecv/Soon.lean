import Verif.RtlAceRecv.Step

/-! How far everything has come. -/

namespace Verif.RtlAceRecv

section
variable {α : Type}

/-- How far the nearest descriptor is from the FIFO. -/
def far (s : Regs α) : Nat :=
  if s.q.items ≠ [] then 0 else if s.gvld = true then 1 else if (lowest s.greq).isSome = true then 2 else 3

/-- There is a descriptor not yet taken. -/
def Avail (s : Regs α) : Prop :=
  s.q.items ≠ [] ∨ s.gvld = true ∨ (lowest s.greq).isSome = true ∨ (lowest s.freeup).isSome = true

theorem far_le (g : Regs α) : far g ≤ 3 := by
  unfold far
  split
  · omega
  · split
    · omega
    · split <;> omega

/-- While the FIFO is not read a descriptor comes nearer. -/
theorem far_next {c : Cfg} {w : World α} {u : List (Nat × α)} (v : Inv c w u) (i : In α) (ha : Avail w.s) (hr : w.s.drden = false) :
    Avail (step c w.s i) ∧ (far (step c w.s i) < far w.s ∨ far (step c w.s i) = 0) ∧ far (step c w.s i) ≤ far w.s := by
  have hq : (step c w.s i).q.items = w.s.q.items ++ (if (w.s.gvld && decide (w.s.q.items.length < 16)) = true then [w.s.gidx] else []) := by
    change (if w.s.drden = true then w.s.q.items.drop 1 else w.s.q.items) ++ _ = _
    rw [hr]; rfl
  by_cases h0 : w.s.q.items ≠ []
  · have : (step c w.s i).q.items ≠ [] := by
      rw [hq]; intro e; exact h0 (List.append_eq_nil_iff.mp e).1
    have e : far (step c w.s i) = 0 := by unfold far; rw [if_pos this]
    exact ⟨.inl this, .inr e, by omega⟩
  · have h0' : w.s.q.items = [] := by simpa using h0
    by_cases h1 : w.s.gvld = true
    · have : (step c w.s i).q.items ≠ [] := by
        rw [hq, h0', h1]; simp
      have e : far (step c w.s i) = 0 := by unfold far; rw [if_pos this]
      exact ⟨.inl this, .inr e, by omega⟩
    · have hq' : (step c w.s i).q.items = [] := by rw [hq, h0']; simp [h1]
      by_cases h2 : (lowest w.s.greq).isSome = true
      · have hg : (step c w.s i).gvld = true := h2
        have e : far (step c w.s i) = 1 := by unfold far; rw [if_neg (by simp [hq']), if_pos hg]
        have e' : far w.s = 2 := by unfold far; rw [if_neg h0, if_neg h1, if_pos h2]
        exact ⟨.inr (.inl hg), .inl (by omega), by omega⟩
      · have h3 : (lowest w.s.freeup).isSome = true := by
          rcases ha with h | h | h | h
          · exact absurd h h0
          · exact absurd h h1
          · exact absurd h h2
          · exact h
        obtain ⟨j, hj⟩ := Option.isSome_iff_exists.mp h3
        obtain ⟨f1, f2⟩ := lowest_req hj
        have hn : w.s.greq j = false := by
          rcases Bool.eq_false_or_eq_true (w.s.greq j) with h | h
          · exact absurd (lowest_some h f2) h2
          · exact h
        have hd : w.s.dinFf j = false := by
          rcases Bool.eq_false_or_eq_true (w.s.dinFf j) with h | h
          · rw [v.din j h] at f1; cases f1
          · exact h
        have hg : (lowest (step c w.s i).greq).isSome = true := by
          refine lowest_some (j := j) ?_ f2
          change greqNext w.s j = true
          rw [greqNext, hn, f1, hd]; rfl
        have hv : (step c w.s i).gvld = false := by
          change (lowest w.s.greq).isSome = false
          simpa using h2
        have e : far (step c w.s i) = 2 := by unfold far; rw [if_neg (by simp [hq']), if_neg (by simp [hv]), if_pos hg]
        have e' : far w.s = 3 := by unfold far; rw [if_neg h0, if_neg h1, if_neg h2]
        exact ⟨.inr (.inr (.inl hg)), .inl (by omega), by omega⟩

/-- The cycles until the transfer in work is written, at most. -/
def phase (s : Regs α) : Nat :=
  match s.st with
  | .idle => 8
  | .wait => if s.validFf then (if s.alc then 4 else if s.drden then 5 else 6) else 7
  | .txn => 3
  | .new => 14

def front (s : Regs α) : Nat := 20 * s.push.toList.length + 19 * s.usr.items.length + phase s

def back (s : Regs α) : Nat := 4 * s.avail.toList.length + 3 * s.xdone.toList.length + 2 * s.o.toList.length + s.oq.items.length

def rank (s : Regs α) : Nat := 4 * (front s + back s) + far s

/-- Nothing is under way. -/
def Done (s : Regs α) : Prop := s.push = none ∧ s.usr.items = [] ∧ s.st = .idle ∧ track s = []

theorem back_next {c : Cfg} {w : World α} {u : List (Nat × α)} (v : Inv c w u) {i : In α} (hp : i.pop = true) :
    back (step c w.s i) + (if track w.s = [] then 0 else 1) ≤ back w.s + if w.s.st = .new then 4 else 0 := by
  have e1 : (step c w.s i).oq.items.length = (w.s.oq.items.length - 1) + w.s.o.toList.length := by
    change ((if oPop w.s i = true then w.s.oq.items.drop 1 else w.s.oq.items) ++
      (if (w.s.o.isSome && decide (w.s.oq.items.length < 16)) = true then [w.s.o.getD 0] else [])).length = _
    have e : (if oPop w.s i = true then w.s.oq.items.drop 1 else w.s.oq.items) = w.s.oq.items.drop 1 := by
      unfold oPop
      rw [hp]
      cases w.s.oq.items <;> rfl
    rw [e, List.length_append, List.length_drop]
    congr 1
    cases ho : w.s.o with
    | none => rfl
    | some a => simp [oroom v (by rw [ho]; rfl)]
  have e2 : (step c w.s i).avail.toList.length = if w.s.st = .new then 1 else 0 := by
    change (availNext w.s).toList.length = _
    rw [avail_next v.av]
    split <;> rfl
  have e3 : (step c w.s i).o.toList.length = if c.late then w.s.xdone.toList.length else w.s.avail.toList.length := by
    change (if c.late then w.s.xdone else w.s.avail).toList.length = _
    split <;> rfl
  have e4 : (step c w.s i).xdone.toList.length = if c.late then w.s.avail.toList.length else 0 := by
    change (if c.late then w.s.avail else none).toList.length = _
    split <;> rfl
  have e5 : (if track w.s = [] then 0 else 1) ≤ min 1 w.s.oq.items.length + w.s.o.toList.length + w.s.xdone.toList.length + w.s.avail.toList.length := by
    split
    · omega
    · rename_i h
      have : 0 < (track w.s).length := List.length_pos_iff.mpr h
      unfold track at this
      simp only [List.length_append] at this
      omega
  unfold back
  rw [e1, e2, e3, e4]
  cases hc : c.late
  · rw [v.early hc] at e5 ⊢
    simp only [Option.toList_none, List.length_nil, Bool.false_eq_true, if_false] at e5 ⊢
    split <;> omega
  · simp only [if_true]
    split <;> omega

theorem items_len {c : Cfg} {w : World α} {u : List (Nat × α)} (v : Inv c w u) (i : In α) :
    (step c w.s i).usr.items.length = w.s.usr.items.length - (if w.s.st = .txn then 1 else 0) + w.s.push.toList.length := by
  rw [usr_items i v.room, rden_txn v.ok, List.length_append]
  by_cases h : w.s.st = .txn <;> simp [h]

/-- Waiting for a descriptor while there is none. -/
def stuck (s : Regs α) : Bool := decide (s.st = .wait) && s.validFf && !s.alc && !s.drden && s.q.items.isEmpty

theorem front_next {c : Cfg} {w : World α} {u : List (Nat × α)} (v : Inv c w u) {i : In α} (hq : i.req = none) :
    front (step c w.s i) + (if w.s.st = .new then 6 else if stuck w.s then w.s.push.toList.length else
      if w.s.st = .idle ∧ w.s.usr.items = [] then w.s.push.toList.length else 1) ≤ front w.s := by
  have e0 : (step c w.s i).push.toList.length = 0 := by
    change (if w.s.ready then i.req else none).toList.length = 0
    rw [hq]; split <;> rfl
  have e1 := items_len v i
  have hk := v.ok
  unfold front
  rw [e0, e1]
  have e2 : phase (step c w.s i) =
    match stNext w.s with
    | .idle => 8
    | .wait => if w.s.valid then (if w.s.drden then 4 else if drdenNext w.s then 5 else 6) else 7
    | .txn => 3
    | .new => 14 := rfl
  rw [e2]
  unfold phase stuck stNext drdenNext answered
  unfold ok at hk
  cases hs : w.s.st <;> rw [hs] at hk <;> simp only [] at hk ⊢
  · simp only [Bool.and_eq_true, Bool.not_eq_true'] at hk
    by_cases he : w.s.usr.items = []
    · simp [he]; omega
    · simp [he, hk.1.1.1.1.1]; omega
  · have hw := List.length_pos_iff.mpr (v.wt (.inl hs))
    cases hv : w.s.validFf <;> cases ha : w.s.alc <;> cases hd : w.s.drden <;> cases hr : w.s.dreq <;> cases hl : w.s.valid <;>
      cases he : w.s.q.items.isEmpty <;> simp [hv, ha, hd, hr, hl] at hk <;> simp <;> omega
  · have hw := List.length_pos_iff.mpr (v.wt (.inr hs))
    simp; omega
  · simp; omega

/-- While something waits there is a descriptor for it. -/
theorem avail_stuck {c : Cfg} {w : World α} {u : List (Nat × α)} (v : Inv c w u) (hg : w.accepted.length ≤ w.given.length)
    (h : stuck w.s = true) : Avail w.s := by
  simp only [stuck, Bool.and_eq_true, decide_eq_true_eq, Bool.not_eq_true', List.isEmpty_iff] at h
  obtain ⟨⟨⟨⟨hst, hvf⟩, hal⟩, hdr⟩, hqe⟩ := h
  by_cases ha : Avail w.s
  · exact ha
  · exfalso
    unfold Avail at ha
    simp only [not_or] at ha
    obtain ⟨_, h2, h3, h4⟩ := ha
    have hheld : held w.s = none := by unfold held; simp [hal, hst]
    have hs : ∀ j < 16, stock w.s j = (track w.s).count j := by
      intro j hj
      have a1 : w.s.freeup j ≠ true := fun e => h4 (lowest_some e hj)
      have a2 : w.s.greq j ≠ true := fun e => h3 (lowest_some e hj)
      unfold stock
      rw [hqe, hheld]
      simp [a1, a2, h2]
    have hperm : w.given.Perm (w.seen.map (·.1) ++ track w.s) := by
      rw [List.perm_iff_count]
      intro j
      have e : (w.seen.map (·.1)).count j = w.seenOf j := by
        unfold World.seenOf List.count
        rw [List.countP_map]
        congr 1
      rw [List.count_append, e]
      by_cases hj : j < 16
      · rw [← hs j hj]; exact v.bal j hj
      · have b1 : w.given.count j = 0 := List.count_eq_zero.mpr fun hm => hj (v.vlt j hm)
        have b2 : (track w.s).count j = 0 := List.count_eq_zero.mpr fun hm => hj (v.tlt j hm)
        have b3 : w.seenOf j = 0 := by
          rw [← e]
          refine List.count_eq_zero.mpr fun hm => ?_
          obtain ⟨p, hp, e⟩ := List.mem_map.mp hm
          exact hj (e ▸ v.slt p hp)
        omega
    have hl := hperm.length_eq
    have ht := congrArg List.length v.tr
    have hc := congrArg List.length v.acc
    have hw := List.length_pos_iff.mpr (v.wt (.inl hst))
    simp only [List.length_append, List.length_map] at hl ht hc
    omega

/-- In a quiet cycle everything comes nearer. -/
theorem rank_next {c : Cfg} {w : World α} {u : List (Nat × α)} (v : Inv c w u) {i : In α} (hi : i.quiet)
    (hg : w.accepted.length ≤ w.given.length) (hd : ¬ Done w.s) : rank (step c w.s i) < rank w.s := by
  have h1 := front_next (i := i) v hi.1
  have h2 := back_next v hi.2
  have h3 := far_le (step c w.s i)
  unfold rank
  by_cases hn : w.s.st = .new
  · simp only [if_pos hn] at h1 h2
    omega
  · simp only [if_neg hn] at h1 h2
    by_cases hs : stuck w.s = true
    · have hav := avail_stuck v hg hs
      rw [if_pos hs] at h1
      simp only [stuck, Bool.and_eq_true, decide_eq_true_eq, Bool.not_eq_true', List.isEmpty_iff] at hs
      obtain ⟨_, f2, f3⟩ := far_next v i hav hs.1.2
      have : 0 < far w.s := by
        unfold far
        rw [hs.2]
        simp only [ne_eq, not_true_eq_false, if_false]
        split
        · omega
        · split <;> omega
      omega
    · rw [if_neg hs] at h1
      by_cases he : w.s.st = .idle ∧ w.s.usr.items = []
      · rw [if_pos he] at h1
        have : ¬ (w.s.push = none ∧ track w.s = []) := fun e => hd ⟨e.1, he.2, he.1, e.2⟩
        by_cases ht : track w.s = []
        · have : w.s.push ≠ none := fun e => this ⟨e, ht⟩
          cases hp : w.s.push with
          | none => exact absurd hp this
          | some x =>
            rw [hp] at h1
            simp only [Option.toList_some, List.length_singleton] at h1
            omega
        · rw [if_neg ht] at h2
          omega
      · rw [if_neg he] at h1
        omega

theorem rank_le {c : Cfg} {w : World α} {u : List (Nat × α)} (v : Inv c w u) : rank w.s ≤ 800 := by
  have h1 := far_le w.s
  have h2 := v.room
  have h3 : phase w.s ≤ 14 := by
    unfold phase
    split
    · omega
    · split
      · split
        · omega
        · split <;> omega
      · omega
    · omega
    · omega
  have h4 := track16 v
  unfold track at h4
  simp only [List.length_append] at h4
  have a1 : w.s.avail.toList.length ≤ 1 := by cases w.s.avail <;> simp
  have a2 : w.s.xdone.toList.length ≤ 1 := by cases w.s.xdone <;> simp
  have a3 : w.s.o.toList.length ≤ 1 := by cases w.s.o <;> simp
  unfold rank front back
  omega

theorem done_next {c : Cfg} {w : World α} {u : List (Nat × α)} (v : Inv c w u) {i : In α} (hi : i.quiet) (hd : Done w.s) :
    Done (step c w.s i) := by
  obtain ⟨h1, h2, h3, h4⟩ := hd
  have hk := v.ok
  refine ⟨?_, ?_, ?_, ?_⟩
  · change (if w.s.ready then i.req else none) = none
    rw [hi.1]; split <;> rfl
  · rw [usr_items i v.room, h2, h1]; simp
  · change stNext w.s = .idle
    unfold stNext
    rw [h3, h2]; rfl
  · rw [track_next i v.early v.av (oroom v), h4, h3]
    simp

theorem done_run {c : Cfg} (l : List (In α)) {w : World α} {u : List (Nat × α)} (v : Inv c w u) (hp : AllPolite c w l)
    (hi : ∀ i ∈ l, i.quiet) (hg : w.accepted.length ≤ w.given.length) (hl : Done w.s ∨ rank w.s ≤ l.length) :
    (w.run c l).accepted = w.accepted ∧ (Done w.s ∨ rank w.s < l.length → Done (w.run c l).s) := by
  induction l generalizing w u with
  | nil =>
    refine ⟨rfl, fun h => ?_⟩
    rcases h with h | h
    · exact h
    · cases h
  | cons i t ih =>
    have hq := hi i List.mem_cons_self
    have ea : (w.next c i).accepted = w.accepted := by
      change w.accepted ++ (if w.s.ready then i.req else none).toList = _
      rw [hq.1]; split <;> simp
    have hn : Done (step c w.s i) ∨ rank (step c w.s i) < rank w.s := by
      by_cases hd : Done w.s
      · exact .inl (done_next v hq hd)
      · exact .inr (rank_next v hq hg hd)
    have hg' : (w.next c i).accepted.length ≤ (w.next c i).given.length := by
      rw [ea]
      change _ ≤ (w.given ++ gives w i).length
      rw [List.length_append]; omega
    simp only [List.length_cons] at hl ⊢
    have hl' : Done (w.next c i).s ∨ rank (w.next c i).s ≤ t.length := by
      rcases hn with h | h
      · exact .inl h
      · rcases hl with h' | h'
        · exact .inl (done_next v hq h')
        · right
          change rank (step c w.s i) ≤ _
          omega
    obtain ⟨r1, r2⟩ := ih (inv_next v hp.1) hp.2 (fun i hm => hi i (List.mem_cons_of_mem _ hm)) hg' hl'
    refine ⟨r1.trans ea, fun h => r2 ?_⟩
    rcases h with h | h
    · exact .inl (done_next v hq h)
    · rcases hn with h' | h'
      · exact .inl h'
      · right
        change rank (step c w.s i) < _
        omega

end

end Verif.RtlAceRecv
