import Verif.RtlAceRecv.Spec
import Verif.RtlDesc.Props

/-! The invariant: the phases, where every descriptor is, and what is under
way. -/

namespace Verif.RtlAceRecv

open RtlFifo (Queue)

section
variable {α : Type}

/-- The registers fit together. -/
def ok (s : Regs α) : Bool :=
  match s.st with
  | .idle => !s.valid && !s.validFf && !s.rden && !s.dreq && !s.drden && !s.alc
  | .wait => s.valid && !s.rden &&
    (if s.validFf then (s.dreq && !s.alc) || (!s.dreq && !s.drden && s.alc) else !s.dreq && !s.drden && !s.alc)
  | .txn => !s.valid && s.validFf && s.rden && !s.dreq && !s.drden && !s.alc
  | .new => !s.valid && !s.validFf && !s.rden && !s.dreq && !s.drden && !s.alc

/-- The descriptor taken from the FIFO and not yet written. -/
def held (s : Regs α) : Option Nat :=
  if s.alc then some (s.q.last.getD 0) else
    match s.st with
    | .txn | .new => some s.idx
    | _ => none

/-- The transfer taken from the FIFO and not yet written. -/
def cur (s : Regs α) : Option α := if s.st = .new then s.usr.last else none

/-- The descriptors written and not yet seen. -/
def track (s : Regs α) : List Nat := s.oq.items ++ s.o.toList ++ s.xdone.toList ++ s.avail.toList

/-- A descriptor which was given and not yet seen, counted over the places where
it can be. -/
def stock (s : Regs α) (j : Nat) : Nat :=
  (if s.freeup j = true then 1 else 0) + (if s.greq j = true then 1 else 0) +
    (if (s.gvld && s.gidx == j) = true then 1 else 0) + s.q.items.count j +
    (if held s = some j then 1 else 0) + (track s).count j

structure Inv (c : Cfg) (w : World α) (u : List (Nat × α)) : Prop where
  ok : ok w.s = true
  early : c.late = false → w.s.xdone = none
  av : w.s.avail.isSome = true → w.s.st = .idle
  wt : w.s.st = .wait ∨ w.s.st = .txn → w.s.usr.items ≠ []
  nw : w.s.st = .new → w.s.usr.last.isSome = true
  dr : w.s.drden = true → w.s.q.items ≠ []
  tr : track w.s = u.map (·.1)
  fld : ∀ p ∈ u, w.s.desc p.1 = some p.2
  acc : w.accepted.map some =
    w.seen.map (·.2) ++ (u.map (·.2) ++ (cur w.s).toList ++ w.s.usr.items ++ w.s.push.toList).map some
  bal : ∀ j < 16, w.givenOf j = w.seenOf j + stock w.s j
  one : ∀ j < 16, stock w.s j ≤ 1
  glt : w.s.gvld = true → w.s.gidx < 16
  qlt : ∀ j ∈ w.s.q.items, j < 16
  hlt : ∀ j, held w.s = some j → j < 16
  tlt : ∀ j ∈ track w.s, j < 16
  slt : ∀ p ∈ w.seen, p.1 < 16
  vlt : ∀ j ∈ w.given, j < 16
  up : ∀ j, w.s.freeup j = true → w.s.ownFf j = true
  din : ∀ j, w.s.dinFf j = true → w.s.freeup j = false
  own : w.own = w.s.ownFf
  room : w.s.usr.items.length + w.s.push.toList.length ≤ 8
  rdy : w.s.ready = true → w.s.usr.items.length + w.s.push.toList.length ≤ 7
  last : ∀ j < 16, ∀ x, stock w.s j = 0 → w.lastOf j = some x → w.s.desc j = x
  acks : w.acks + w.s.avail.toList.length = if c.late then w.seen.length + u.length else w.s.avail.toList.length

theorem lowest_req {f : Nat → Bool} {j : Nat} (h : lowest f = some j) : f j = true ∧ j < 16 :=
  ⟨List.find?_some h, List.mem_range.mp (List.mem_of_find?_eq_some h)⟩

theorem lowest_some {f : Nat → Bool} {j : Nat} (h : f j = true) (hj : j < 16) : (lowest f).isSome = true := by
  rw [lowest, List.find?_isSome]
  exact ⟨j, List.mem_range.mpr hj, h⟩

/-- The grant controller loses and makes nothing. -/
theorem grant_bal (s : Regs α) (j : Nat) (hd : s.freeup j = true → s.dinFf j = false)
    (h1 : s.freeup j = true → s.greq j = false) :
    (if greqNext s j = true then 1 else 0) + (if ((lowest s.greq).isSome && (lowest s.greq).getD 0 == j) = true then 1 else 0) =
      (if s.freeup j = true then 1 else 0) + (if s.greq j = true then 1 else 0) := by
  have e : ((lowest s.greq).isSome && (lowest s.greq).getD 0 == j) = decide (lowest s.greq = some j) := by
    cases lowest s.greq <;> simp
    rfl
  rw [e, greqNext]
  by_cases hr : s.greq j = true
  · have hf : s.freeup j = false := by
      rcases Bool.eq_false_or_eq_true (s.freeup j) with h | h
      · rw [h1 h] at hr; cases hr
      · exact h
    by_cases hl : lowest s.greq = some j <;> simp [hr, hf, hl]
  · have hl : lowest s.greq ≠ some j := fun h => hr (lowest_req h).1
    rcases Bool.eq_false_or_eq_true (s.freeup j) with h | h
    · simp [hr, hl, h, hd h]
    · simp [hr, hl, h]

theorem ok_next {c : Cfg} {s : Regs α} {i : In α} (h : ok s = true) : ok (step c s i) = true := by
  obtain ⟨ready, push, ⟨items, ul⟩, r, st, v, idx, avail, xdone, ack, desc, ownFf, freeup, dinFf, greq, gvld, gidx, ⟨qi, ql⟩, vf, d, dd, a, o, oq, oFf⟩ := s
  cases st <;> cases r <;> cases v <;> cases vf <;> cases d <;> cases dd <;> cases a <;>
    first
    | exact absurd h Bool.false_ne_true
    | rfl
    | (cases items <;> cases qi <;> rfl)

/-- Where the descriptor taken is after a cycle. -/
theorem held_next {c : Cfg} {s : Regs α} {i : In α} (h : ok s = true) :
    held (step c s i) = if s.drden then some ((step c s i).q.last.getD 0) else if s.st = .new then none else held s := by
  have e : held (step c s i) = if s.drden then some ((step c s i).q.last.getD 0) else
      match stNext s with
      | .txn | .new => some (idxNext s)
      | _ => none := rfl
  rw [e]
  cases hd : s.drden
  · simp only [Bool.false_eq_true, if_false]
    unfold held stNext idxNext answered
    unfold ok at h
    cases hst : s.st <;> rw [hst] at h <;> simp [hd] at h ⊢
    · by_cases h1 : s.usr.items = [] <;> by_cases h2 : s.valid = true <;> simp_all
    · cases ha : s.alc <;> simp [h.1.1]
    · simp [h]
  · simp

theorem held_drden {s : Regs α} (h : ok s = true) (hd : s.drden = true) : held s = none ∧ s.st = .wait := by
  unfold ok at h
  unfold held
  cases hst : s.st <;> rw [hst] at h <;> simp [hd] at h
  cases hv : s.validFf <;> rw [hv] at h <;> simp_all

theorem held_new {s : Regs α} (h : ok s = true) (hd : s.st = .new) : held s = some s.idx := by
  unfold ok at h
  unfold held
  rw [hd] at h ⊢
  simp at h
  simp [h]

theorem held_bal {c : Cfg} {s : Regs α} {i : In α} (h : ok s = true) (j : Nat) :
    (if held (step c s i) = some j then 1 else 0) + (if s.st = .new ∧ s.idx = j then 1 else 0) =
      (if held s = some j then 1 else 0) + (if s.drden = true ∧ (step c s i).q.last.getD 0 = j then 1 else 0) := by
  rw [held_next h]
  by_cases hd : s.drden = true
  · have := held_drden h hd
    simp [hd, this.1, this.2]
  · by_cases hn : s.st = .new
    · simp [hd, hn, held_new h hn]
    · simp [hd, hn]

/-- What is read from the FIFO is its first. -/
theorem popped {c : Cfg} {s : Regs α} {i : In α} (h : s.drden = true) (hn : s.q.items ≠ []) :
    ∃ a t, s.q.items = a :: t ∧ (step c s i).q.last = some a := by
  cases hq : s.q.items with
  | nil => exact absurd hq hn
  | cons a t =>
    refine ⟨a, t, rfl, ?_⟩
    change (if s.drden && !s.q.items.isEmpty then s.q.items.head? else s.q.last) = _
    rw [h, hq]; rfl

theorem avail_next {s : Regs α} (h : s.avail.isSome = true → s.st = .idle) :
    availNext s = if s.st = .new then some s.idx else none := by
  unfold availNext
  cases hst : s.st <;> simp <;> cases ha : s.avail <;> first | rfl | (rw [hst, ha] at h; simp at h)

theorem track_next {c : Cfg} {s : Regs α} (i : In α) (hl : c.late = false → s.xdone = none)
    (ha : s.avail.isSome = true → s.st = .idle) (hr : s.o.isSome = true → s.oq.items.length < 16) :
    track (step c s i) = (if oPop s i then (track s).drop 1 else track s) ++ (if s.st = .new then [s.idx] else []) := by
  have e1 : (step c s i).oq.items = (if oPop s i then s.oq.items.drop 1 else s.oq.items) ++ s.o.toList := by
    change (if oPop s i = true then s.oq.items.drop 1 else s.oq.items) ++
      (if (s.o.isSome && decide (s.oq.items.length < 16)) = true then [s.o.getD 0] else []) = _
    congr 1
    cases ho : s.o with
    | none => rfl
    | some a => simp [hr (by rw [ho]; rfl)]
  have e2 : (step c s i).o.toList ++ (step c s i).xdone.toList ++ (step c s i).avail.toList =
      s.xdone.toList ++ s.avail.toList ++ (if s.st = .new then [s.idx] else []) := by
    change (if c.late then s.xdone else s.avail).toList ++ (if c.late then s.avail else none).toList ++ (availNext s).toList = _
    rw [avail_next ha]
    cases hc : c.late
    · rw [hl hc]
      cases s.st <;> simp
    · cases s.st <;> simp
  have e3 : (if oPop s i then (track s).drop 1 else track s) =
      (if oPop s i then s.oq.items.drop 1 else s.oq.items) ++ (s.o.toList ++ s.xdone.toList ++ s.avail.toList) := by
    unfold track
    cases hp : oPop s i
    · simp
    · cases hq : s.oq.items with
      | nil => simp [oPop, hq] at hp
      | cons a t => simp
  rw [e3]
  unfold track
  rw [e1]
  simp only [List.append_assoc] at e2 ⊢
  rw [e2]

/-- What software gets. -/
theorem shown_next {c : Cfg} {s : Regs α} (i : In α) :
    shown (step c s i) = if oPop s i then (track s).head? else none := by
  change (if oPop s i then some ((s.oq.next 16 ⟨s.o.isSome, oPop s i, s.o.getD 0⟩).last.getD 0) else none) = _
  cases hp : oPop s i
  · rfl
  · cases hq : s.oq.items with
    | nil => simp [oPop, hq] at hp
    | cons a t => simp [Queue.next, track, hq]

/-- What software gives enters the books and the hardware. -/
theorem gives_count (w : World α) (i : In α) (j : Nat) (hj : j < 16) (ho : w.own = w.s.ownFf) :
    (gives w i).count j = if freeupNext w.s i j = true then 1 else 0 := by
  unfold gives
  rw [ho]
  by_cases h : freeupNext w.s i j = true
  · rw [if_pos h, List.count_filter (by exact h)]
    have h1 : (List.range 16).count j ≤ 1 := List.nodup_iff_count.mp List.nodup_range j
    have h2 := List.count_pos_iff.mpr (List.mem_range.mpr hj)
    omega
  · rw [if_neg h, List.count_eq_zero]
    intro hm
    exact h (List.mem_filter.mp hm).2

theorem mem_gives {w : World α} {i : In α} {j : Nat} (hj : j < 16) (ho : w.own = w.s.ownFf) (h : freeupNext w.s i j = true) :
    j ∈ gives w i := by
  refine List.mem_filter.mpr ⟨List.mem_range.mpr hj, ?_⟩
  rw [ho]; exact h

theorem len16 {l : List Nat} (h : ∀ a ∈ l, a < 16) (h1 : ∀ a < 16, l.count a ≤ 1) : l.length ≤ 16 := by
  have hn : l.Nodup := by
    rw [List.nodup_iff_count]
    intro a
    by_cases ha : a ∈ l
    · exact h1 a (h a ha)
    · rw [List.count_eq_zero.mpr ha]; omega
  have hs : l ⊆ List.range 16 := fun a ha => List.mem_range.mpr (h a ha)
  simpa using hn.length_le_of_subset hs

/-- A descriptor on its way into the FIFO finds room. -/
theorem groom {c : Cfg} {w : World α} {u : List (Nat × α)} (v : Inv c w u) (h : w.s.gvld = true) : w.s.q.items.length < 16 := by
  have : (w.s.gidx :: w.s.q.items).length ≤ 16 := by
    refine len16 ?_ ?_
    · intro a ha
      rcases List.mem_cons.mp ha with e | e
      · rw [e]; exact v.glt h
      · exact v.qlt a e
    · intro a ha
      have h1 := v.one a ha
      unfold stock at h1
      rw [h] at h1
      rw [List.count_cons]
      simp only [Bool.true_and] at h1
      omega
  simp only [List.length_cons] at this
  omega

theorem track16 {c : Cfg} {w : World α} {u : List (Nat × α)} (v : Inv c w u) : (track w.s).length ≤ 16 :=
  len16 v.tlt fun a ha => by
    have h1 := v.one a ha
    unfold stock at h1
    omega

theorem oroom {c : Cfg} {w : World α} {u : List (Nat × α)} (v : Inv c w u) (h : w.s.o.isSome = true) : w.s.oq.items.length < 16 := by
  have h1 := track16 v
  unfold track at h1
  cases ho : w.s.o with
  | none => rw [ho] at h; cases h
  | some a => simp [ho] at h1; omega

theorem shown_count (s : Regs α) (i : In α) (j : Nat) :
    (if oPop s i then (track s).drop 1 else track s).count j + (if (if oPop s i then (track s).head? else none) = some j then 1 else 0) =
      (track s).count j := by
  cases oPop s i
  · simp
  · cases track s with
    | nil => simp
    | cons a t => by_cases e : a = j <;> simp [e]

/-- The stock after a cycle. -/
theorem stock_next {c : Cfg} {w : World α} {u : List (Nat × α)} (v : Inv c w u) (i : In α) (j : Nat) (hj : j < 16) :
    stock (step c w.s i) j + (if shown (step c w.s i) = some j then 1 else 0) =
      stock w.s j + (if freeupNext w.s i j = true then 1 else 0) := by
  have h1 := v.one j hj
  have g := grant_bal w.s j
    (fun hf => by
      rcases Bool.eq_false_or_eq_true (w.s.dinFf j) with h | h
      · rw [v.din j h] at hf; cases hf
      · exact h)
    (fun hf => by
      rcases Bool.eq_false_or_eq_true (w.s.greq j) with h | h
      · unfold stock at h1
        rw [if_pos hf, if_pos h] at h1
        omega
      · exact h)
  have q := RtlDesc.count_next w.s.q w.s.gvld w.s.drden w.s.gidx j (groom v)
  have r := held_bal (c := c) (i := i) v.ok j
  have t := shown_count w.s i j
  have p : (if (if w.s.drden = true then w.s.q.items.head? else none) = some j then 1 else 0) =
      (if w.s.drden = true ∧ (step c w.s i).q.last.getD 0 = j then 1 else 0) := by
    by_cases hd : w.s.drden = true
    · obtain ⟨a, t, hq, hl⟩ := popped (c := c) (i := i) hd (v.dr hd)
      rw [hl, hq]
      simp [hd]
    · simp [hd]
  rw [p] at q
  rw [shown_next]
  unfold stock
  rw [track_next i v.early v.av (oroom v), List.count_append]
  have e : (if w.s.st = .new then [w.s.idx] else []).count j = if w.s.st = .new ∧ w.s.idx = j then 1 else 0 := by
    by_cases hn : w.s.st = .new
    · by_cases hi : w.s.idx = j <;> simp [hn, hi]
    · simp [hn]
  rw [e]
  change (if freeupNext w.s i j = true then 1 else 0) + (if greqNext w.s j = true then 1 else 0) +
    (if ((lowest w.s.greq).isSome && (lowest w.s.greq).getD 0 == j) = true then 1 else 0) +
    (w.s.q.next 16 ⟨w.s.gvld, w.s.drden, w.s.gidx⟩).items.count j +
    (if held (step c w.s i) = some j then 1 else 0) + _ + _ = _
  omega

end

end Verif.RtlAceRecv
