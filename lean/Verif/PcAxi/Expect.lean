import Verif.PcAxi.Writes

/-! # C47: what the handshake checker expects (`axi_handshakes_checker`, AXI4)

The time-outs only count while the checker expects something.  These theorems say what it expects. -/

namespace Verif.PcAxi

/-! ## Specification: counts over the trace -/

/-- Read beats asked for. -/
def readsAsked (tr : List HsCycle) : Nat := (tr.map fun c => match c.ar with | some len => len + 1 | none => 0).sum

/-- Read beats delivered. -/
def readsSeen (tr : List HsCycle) : Nat := tr.countP (·.r)

/-- Write beats announced. -/
def writesAsked (tr : List HsCycle) : Nat := (tr.map fun c => match c.aw with | some a => a.2 + 1 | none => 0).sum

/-- Write beats sent. -/
def writesSeen (tr : List HsCycle) : Nat := tr.countP (·.w.isSome)

/-- Identifiers of the write addresses, in order. -/
def awIds (tr : List HsCycle) : List Nat := tr.filterMap fun c => c.aw.map (·.1)

/-- Bursts ended. -/
def lasts (tr : List HsCycle) : Nat := tr.countP fun c => match c.w with | some w => w.1 | none => false

/-- Identifiers answered. -/
def bIds (tr : List HsCycle) : List Nat := tr.filterMap (·.b)

/-- Identifiers of the writes of which address and data are complete. -/
def doneIds (tr : List HsCycle) : List Nat := (awIds tr).take (lasts tr)

/-- No response comes without a complete write of its identifier. -/
def Answers (tr : List HsCycle) : Prop :=
  ∀ pre, pre <+: tr → ∀ id, (bIds pre).count id ≤ (doneIds pre).count id

/-! ## Proof -/

theorem Exp.run_snoc (axi3 : Bool) (e : Exp) (tr : List HsCycle) (x : HsCycle) :
    Exp.run axi3 e (tr ++ [x]) = (Exp.run axi3 e tr).step axi3 x := by
  simp [Exp.run]

theorem Exp.doAw_rt (axi3 : Bool) (e : Exp) (id len : Nat) :
    (e.doAw axi3 id len).rt = e.rt ∧ (e.doAw axi3 id len).wd = e.wd + len + 1 := by
  unfold Exp.doAw
  dsimp only
  split <;> exact ⟨rfl, rfl⟩

theorem Exp.doW_rt (axi3 : Bool) (e : Exp) (last : Bool) (id : Nat) :
    (e.doW axi3 last id).rt = e.rt ∧ (e.doW axi3 last id).wd = e.wd - 1 := by
  unfold Exp.doW
  dsimp only
  split
  · split
    · split
      · exact ⟨rfl, rfl⟩
      · split <;> exact ⟨rfl, rfl⟩
    · exact ⟨rfl, rfl⟩
  · exact ⟨rfl, rfl⟩

theorem Exp.doB_rt (e : Exp) (id : Nat) : (e.doB id).rt = e.rt ∧ (e.doB id).wd = e.wd := by
  unfold Exp.doB
  split <;> exact ⟨rfl, rfl⟩

/-- **The checker expects exactly the data that is still due**, in AXI3 and AXI4, whatever the traffic:
read beats asked minus delivered, write beats announced minus sent. -/
theorem data_expected (axi3 : Bool) (tr : List HsCycle) :
    (Exp.run axi3 {} tr).rt = (readsAsked tr : Int) - readsSeen tr ∧
    (Exp.run axi3 {} tr).wd = (writesAsked tr : Int) - writesSeen tr := by
  refine snoc_induction (P := fun tr => (Exp.run axi3 {} tr).rt = (readsAsked tr : Int) - readsSeen tr ∧
    (Exp.run axi3 {} tr).wd = (writesAsked tr : Int) - writesSeen tr) ⟨rfl, rfl⟩ ?_ tr
  rintro tr ⟨ar, r, aw, w, b⟩ ⟨i1, i2⟩
  rw [Exp.run_snoc]
  generalize Exp.run axi3 {} tr = e at i1 i2
  unfold readsAsked readsSeen writesAsked writesSeen at *
  rw [List.map_append, List.map_append, List.countP_append, List.countP_append, List.sum_append, List.sum_append]
  unfold Exp.step
  rcases w with _ | ⟨last, wid⟩ <;> rcases aw with _ | ⟨id, len⟩ <;> rcases ar with _ | al <;> cases r <;>
    cases b <;> simp [Exp.doAw_rt, Exp.doW_rt, Exp.doB_rt] <;> omega

/-- The counters and identifier lists of AXI4 against the whole trace. -/
structure Exp.Counts (e : Exp) (A : List Nat) (n : Nat) : Prop where
  aw : e.aw = (A.length - n : Nat)
  wlast : e.wlast = (n - A.length : Nat)
  awids : e.awids = A.drop n
  b : e.b = e.bids.length

/-- As `Counts`, with the responses. -/
structure Exp.Ids (e : Exp) (A : List Nat) (n : Nat) (B : List Nat) : Prop extends e.Counts A n where
  bids : ∀ id, e.bids.count id + B.count id = (A.take n).count id

theorem Exp.Counts.doAw {e : Exp} {A : List Nat} {n : Nat} (h : e.Counts A n) (id len : Nat) :
    (e.doAw false id len).Counts (A ++ [id]) n ∧
      ∀ x, (e.doAw false id len).bids.count x + (A.take n).count x = e.bids.count x + ((A ++ [id]).take n).count x := by
  obtain ⟨h1, h2, h3, h4⟩ := h
  unfold Exp.doAw
  simp only [Bool.not_false, Bool.true_or, Bool.true_and, decide_eq_true_eq, Bool.false_eq_true, if_false]
  by_cases c : e.wlast > e.aw
  · rw [if_pos c]
    have hl : A.length < n := by omega
    refine ⟨⟨?_, ?_, ?_, ?_⟩, ?_⟩
    · simp only [List.length_append, List.length_singleton]; omega
    · simp only [List.length_append, List.length_singleton]; omega
    · rw [h3, List.drop_eq_nil_of_le (by omega), List.drop_eq_nil_of_le (by simp; omega)]
    · simp only [List.length_append, List.length_singleton]; omega
    · intro x
      rw [List.take_of_length_le (by omega : A.length ≤ n), List.take_of_length_le (by simp; omega)]
      simp only [List.count_append]; omega
  · rw [if_neg c]
    have hl : n ≤ A.length := by omega
    refine ⟨⟨?_, ?_, ?_, h4⟩, ?_⟩
    · simp only [List.length_append, List.length_singleton]; omega
    · simp only [List.length_append, List.length_singleton]; omega
    · rw [h3, List.drop_append_of_le_length hl]
    · intro x
      rw [List.take_append_of_le_length hl]

theorem Exp.Counts.doW {e : Exp} {A : List Nat} {n : Nat} (h : e.Counts A n) (last : Bool) (wid : Nat) :
    (e.doW false last wid).Counts A (if last then n + 1 else n) ∧
      ∀ x, (e.doW false last wid).bids.count x + (A.take n).count x =
        e.bids.count x + (A.take (if last then n + 1 else n)).count x := by
  obtain ⟨h1, h2, h3, h4⟩ := h
  unfold Exp.doW
  cases last with
  | false => exact ⟨⟨h1, h2, h3, h4⟩, fun _ => rfl⟩
  | true =>
    simp only [Bool.not_false, Bool.true_or, Bool.true_and, decide_eq_true_eq, Bool.false_eq_true, if_false, if_true]
    by_cases c : e.aw > e.wlast
    · rw [if_pos c]
      have hl : n < A.length := by omega
      have hd : e.awids = A[n] :: A.drop (n + 1) := by rw [h3]; exact List.drop_eq_getElem_cons hl
      have ht : A.take (n + 1) = A.take n ++ [A[n]] := by rw [List.take_succ_eq_append_getElem hl]
      rw [hd]
      refine ⟨⟨?_, ?_, rfl, ?_⟩, ?_⟩
      · dsimp only; omega
      · dsimp only; omega
      · simp only [List.length_append, List.length_singleton]; omega
      · intro x
        rw [ht]
        simp only [List.count_append]; omega
    · rw [if_neg c]
      have hl : A.length ≤ n := by omega
      refine ⟨⟨?_, ?_, ?_, h4⟩, ?_⟩
      · dsimp only; omega
      · dsimp only; omega
      · rw [show ({ e with wd := e.wd - 1, wlast := e.wlast + 1 } : Exp).awids = e.awids from rfl, h3,
          List.drop_eq_nil_of_le hl, List.drop_eq_nil_of_le (by omega)]
      · intro x
        rw [List.take_of_length_le hl, List.take_of_length_le (by omega : A.length ≤ n + 1)]

theorem Exp.Counts.doB {e : Exp} {A : List Nat} {n : Nat} (h : e.Counts A n) (bid : Nat) :
    (e.doB bid).Counts A n := by
  obtain ⟨h1, h2, h3, h4⟩ := h
  unfold Exp.doB
  split
  · rename_i c
    have hm : bid ∈ e.bids := by simpa using c
    refine ⟨h1, h2, h3, ?_⟩
    have := List.length_erase_of_mem hm
    have : 0 < e.bids.length := List.length_pos_of_mem hm
    simp only; omega
  · exact ⟨h1, h2, h3, h4⟩

theorem doB_count (e : Exp) (bid : Nat) (h : 0 < e.bids.count bid) (x : Nat) :
    (e.doB bid).bids.count x + (if bid = x then 1 else 0) = e.bids.count x := by
  have hm : bid ∈ e.bids := List.count_pos_iff.mp h
  unfold Exp.doB
  rw [if_pos (by simpa using hm)]
  by_cases c : bid = x
  · subst c
    simp only [List.count_erase_self, if_true]
    omega
  · rw [if_neg c]
    simp only [List.count_erase_of_ne (fun e : x = bid => c e.symm), Nat.add_zero]

theorem awIds_snoc (tr : List HsCycle) (x : HsCycle) : awIds (tr ++ [x]) = awIds tr ++ (x.aw.map (·.1)).toList := by
  unfold awIds
  rw [List.filterMap_append]
  cases e : x.aw <;> simp [e]

theorem lasts_snoc (tr : List HsCycle) (x : HsCycle) :
    lasts (tr ++ [x]) = lasts tr + (match x.w with | some w => if w.1 then 1 else 0 | none => 0) := by
  unfold lasts
  rw [List.countP_append]
  cases e : x.w <;> simp [List.countP_cons, e]

theorem bIds_snoc (tr : List HsCycle) (x : HsCycle) : bIds (tr ++ [x]) = bIds tr ++ x.b.toList := by
  unfold bIds
  rw [List.filterMap_append]
  cases e : x.b <;> simp [e]

/-- The state after the address and data part of a cycle. -/
def Exp.mid (e : Exp) (c : HsCycle) : Exp := Exp.step false e { c with b := none }

theorem Exp.step_mid (e : Exp) (c : HsCycle) :
    e.step false c = match c.b with | some bid => (e.mid c).doB bid | none => e.mid c := by
  unfold Exp.mid Exp.step
  cases c.b <;> rfl

theorem Exp.Counts.mid {e : Exp} {tr : List HsCycle} (h : e.Counts (awIds tr) (lasts tr)) (x : HsCycle) :
    (e.mid x).Counts (awIds (tr ++ [x])) (lasts (tr ++ [x])) ∧
      ∀ id, (e.mid x).bids.count id + (doneIds tr).count id = e.bids.count id + (doneIds (tr ++ [x])).count id := by
  obtain ⟨ar, r, aw, w, b⟩ := x
  unfold doneIds
  rw [awIds_snoc, lasts_snoc]
  unfold Exp.mid Exp.step
  dsimp only
  generalize hA : awIds tr = A at *
  generalize hn : lasts tr = n at *
  have h1 : ∀ e1 : Exp, e1.Counts A n → (∀ id, e1.bids.count id = e.bids.count id) →
      ((match w with
        | some (last, wid) => (match aw with | some (id, len) => e1.doAw false id len | none => e1).doW false last wid
        | none => (match aw with | some (id, len) => e1.doAw false id len | none => e1)) : Exp).Counts
          (A ++ (aw.map (·.1)).toList) (n + (match w with | some w => if w.1 then 1 else 0 | none => 0)) ∧
      ∀ id, ((match w with
        | some (last, wid) => (match aw with | some (id, len) => e1.doAw false id len | none => e1).doW false last wid
        | none => (match aw with | some (id, len) => e1.doAw false id len | none => e1)) : Exp).bids.count id +
          (A.take n).count id = e.bids.count id + ((A ++ (aw.map (·.1)).toList).take
            (n + (match w with | some w => if w.1 then 1 else 0 | none => 0))).count id := by
    intro e1 hc hb
    have h2 : ((match aw with | some (id, len) => e1.doAw false id len | none => e1) : Exp).Counts
          (A ++ (aw.map (·.1)).toList) n ∧
        ∀ x, ((match aw with | some (id, len) => e1.doAw false id len | none => e1) : Exp).bids.count x +
          (A.take n).count x = e1.bids.count x + ((A ++ (aw.map (·.1)).toList).take n).count x := by
      rcases aw with _ | ⟨id, len⟩
      · simpa using hc
      · exact hc.doAw id len
    generalize ((match aw with | some (id, len) => e1.doAw false id len | none => e1) : Exp) = e2 at h2
    generalize A ++ (aw.map (·.1)).toList = A' at h2
    rcases w with _ | ⟨last, wid⟩
    · refine ⟨h2.1, fun id => ?_⟩
      have := h2.2 id
      rw [hb] at this
      exact this
    · have h3 := h2.1.doW last wid
      have en : (n + (if last then 1 else 0)) = if last then n + 1 else n := by cases last <;> rfl
      dsimp only
      rw [en]
      refine ⟨h3.1, fun id => ?_⟩
      have a1 := h2.2 id
      have a2 := h3.2 id
      rw [hb] at a1
      omega
  obtain ⟨g1, g2, g3, g4⟩ := h
  rcases ar with _ | al
  · cases r
    · exact h1 e ⟨g1, g2, g3, g4⟩ fun _ => rfl
    · exact h1 _ ⟨g1, g2, g3, g4⟩ fun _ => rfl
  · cases r
    · exact h1 _ ⟨g1, g2, g3, g4⟩ fun _ => rfl
    · exact h1 _ ⟨g1, g2, g3, g4⟩ fun _ => rfl

theorem Exp.counts_run (tr : List HsCycle) : (Exp.run false {} tr).Counts (awIds tr) (lasts tr) := by
  refine snoc_induction (P := fun tr => (Exp.run false {} tr).Counts (awIds tr) (lasts tr)) ⟨rfl, rfl, rfl, rfl⟩ ?_ tr
  intro tr x ih
  rw [Exp.run_snoc, Exp.step_mid]
  have := (ih.mid x).1
  cases x.b with
  | none => exact this
  | some b => exact this.doB b

/-- **The assertion on the identifier list never fails** (checker-utils.h 474): when a burst ends and
an address waits for it, the list of waiting identifiers is not empty. -/
theorem Exp.doW_nonempty (tr : List HsCycle) (h : (Exp.run false {} tr).aw > (Exp.run false {} tr).wlast) :
    (Exp.run false {} tr).awids ≠ [] := by
  obtain ⟨h1, h2, h3, _⟩ := Exp.counts_run tr
  rw [h3]
  intro hd
  have := List.drop_eq_nil_iff.mp hd
  omega

theorem Exp.ids_run (tr : List HsCycle) (ha : Answers tr) (id : Nat) :
    (Exp.run false {} tr).bids.count id + (bIds tr).count id = (doneIds tr).count id := by
  revert ha id
  refine snoc_induction (P := fun tr => Answers tr → ∀ id,
    (Exp.run false {} tr).bids.count id + (bIds tr).count id = (doneIds tr).count id) ?_ ?_ tr
  · intro _ id; rfl
  · intro tr x ih ha id
    have i := ih (fun pre hp => ha pre (hp.trans (List.prefix_append _ _)))
    rw [Exp.run_snoc, Exp.step_mid, bIds_snoc]
    have m := ((Exp.counts_run tr).mid x).2
    cases hb : x.b with
    | none =>
      have := i id
      have := m id
      simp only [Option.toList_none, List.append_nil]
      omega
    | some b =>
      have hp := ha _ (List.prefix_refl _) b
      rw [bIds_snoc, hb, List.count_append] at hp
      have e : (some b).toList = [b] := rfl
      rw [e] at hp ⊢
      rw [List.count_singleton_self] at hp
      have h0 : 0 < ((Exp.run false {} tr).mid x).bids.count b := by
        have := i b
        have := m b
        omega
      have c := doB_count _ b h0 id
      have := i id
      have := m id
      have e2 : [b].count id = if b = id then 1 else 0 := by
        rw [List.count_singleton]
        simp
      rw [List.count_append, e2]
      dsimp only
      omega

/-- **The checker expects a write response iff one is due** (AXI4): if no response came unasked, its
counter is positive iff some identifier has more complete writes than responses; the number is the
total. -/
theorem responses_expected (tr : List HsCycle) (ha : Answers tr) :
    (0 < (Exp.run false {} tr).b ↔ ∃ id, (bIds tr).count id < (doneIds tr).count id) ∧
      ∀ id, (Exp.run false {} tr).bids.count id = (doneIds tr).count id - (bIds tr).count id := by
  have h := Exp.ids_run tr ha
  have hb := (Exp.counts_run tr).b
  refine ⟨?_, fun id => by have := h id; omega⟩
  rw [hb]
  constructor
  · intro hp
    have hl : (Exp.run false {} tr).bids ≠ [] := by
      intro e; rw [e] at hp; simp at hp
    obtain ⟨x, hx⟩ := List.exists_mem_of_ne_nil _ hl
    have hc := List.count_pos_iff.mpr hx
    exact ⟨x, by have := h x; omega⟩
  · rintro ⟨id, hid⟩
    have hc : 0 < (Exp.run false {} tr).bids.count id := by have := h id; omega
    have := List.length_pos_of_mem (List.count_pos_iff.mp hc)
    omega

/-! ## Witnesses -/

/-- **AXI3: a response that never comes may go unnoticed.**  Address of write 1, all the data of write
2, address of write 2: write 2 is complete and its response due, but none is expected, since the code
compares the total numbers of addresses and bursts before it matches identifiers. -/
theorem axi3_response_not_expected :
    let tr : List HsCycle := [{ aw := some (1, 0) }, { w := some (true, 2) }, { aw := some (2, 0) }]
    (Exp.run true {} tr).b = 0 ∧ (Exp.run true {} tr).wd = 1 := by decide

/-- And in AXI4 the same counters follow data that precedes its address. -/
example : let tr : List HsCycle := [{ w := some (true, 0) }, { aw := some (2, 0) }]
    (Exp.run false {} tr).b = 1 ∧ doneIds tr = [2] ∧ bIds tr = [] := by decide

example : let tr : List HsCycle := [{ w := some (true, 0) }, { aw := some (2, 0) }, { b := some 2 }]
    (Exp.run false {} tr).b = 0 := by decide

end Verif.PcAxi
