import Verif.RtlFifo.Spec

/-!
# The FIFO is a queue
-/

namespace Verif.RtlFifo

variable {α : Type}

/-- The element `k` places behind the read pointer. -/
def slot (c : Cfg) (s : Regs α) (k : Nat) : Nat := (s.rd + k) % 2 ^ c.bits

/-- What ties the registers to the queue. -/
structure Inv (c : Cfg) (s : Regs α) (q : Queue α) : Prop where
  rd : s.rd < 2 ^ c.bits
  len : q.items.length ≤ 2 ^ c.bits
  cnt : s.cnt = q.items.length
  empty : s.empty = decide (q.items.length = 0)
  full : s.full = decide (q.items.length = 2 ^ c.bits)
  wr : s.wr = slot c s q.items.length
  dout : s.dout = q.last
  items : ∀ k x, q.items[k]? = some x → s.mem (slot c s k) = some x

theorem inv_reset (c : Cfg) : Inv c (reset : Regs α) ⟨[], none⟩ where
  rd := Nat.two_pow_pos _
  len := by simp
  cnt := rfl
  empty := rfl
  full := by
    have := Nat.two_pow_pos c.bits
    simp only [reset, List.length_nil, Bool.false_eq, decide_eq_false_iff_not]
    omega
  wr := by simp [slot, reset]
  dout := rfl
  items := by intro k x h; simp at h

theorem slot_lt (c : Cfg) (s : Regs α) (k : Nat) : slot c s k < 2 ^ c.bits := Nat.mod_lt _ (Nat.two_pow_pos _)

theorem slot_ne {n a b r : Nat} (h : a < b) (hb : b < n) : (r + a) % n ≠ (r + b) % n := by
  intro e
  have h1 : (r + a) % n = (r + b) % n := e
  have e2 : (r + b - (r + a)) % n = 0 := Nat.sub_mod_eq_zero_of_mod_eq h1.symm
  rw [show r + b - (r + a) = b - a by omega, Nat.mod_eq_of_lt (by omega)] at e2
  omega

theorem inv_step (c : Cfg) (hb : 0 < c.bits) (hc : c.depth = 2 ^ c.bits) {s : Regs α} {q : Queue α} (v : Inv c s q) (i : In α) :
    Inv c (step c s i) (q.next c.depth i) := by
  have hp : 0 < 2 ^ c.bits := Nat.two_pow_pos _
  have hpp : 2 ^ (c.bits + 1) = 2 * 2 ^ c.bits := by rw [Nat.pow_succ]; omega
  have h2 : 2 ≤ 2 ^ c.bits := by
    calc 2 = 2 ^ 1 := rfl
      _ ≤ 2 ^ c.bits := Nat.pow_le_pow_right (by omega) hb
  obtain ⟨items, last⟩ := q
  have vl : items.length ≤ 2 ^ c.bits := v.len
  have vc : s.cnt = items.length := v.cnt
  have ve : s.empty = decide (items.length = 0) := v.empty
  have vf : s.full = decide (items.length = 2 ^ c.bits) := v.full
  have vw : s.wr = slot c s items.length := v.wr
  have vd : s.dout = last := v.dout
  have vi : ∀ k x, items[k]? = some x → s.mem (slot c s k) = some x := v.items
  have vr := v.rd
  -- the write and the read as the queue sees them
  have hw : (!s.full && i.wren) = (i.wren && decide (items.length < 2 ^ c.bits)) := by
    rw [vf, Bool.and_comm]
    congr 1
    by_cases e : items.length = 2 ^ c.bits
    · simp [e]
    · simp only [e, decide_false, Bool.not_false]; symm; simp; omega
  have hr : (!s.empty && i.rden) = (i.rden && !items.isEmpty) := by
    rw [ve, Bool.and_comm]
    congr 2
    cases items <;> simp
  -- reading the head
  have hhead : items ≠ [] → read c s s.rd = items.head? := by
    intro hne
    cases items with
    | nil => exact absurd rfl hne
    | cons a t =>
      have := vi 0 a rfl
      rw [slot, Nat.add_zero, Nat.mod_eq_of_lt vr] at this
      rw [read, if_pos (by omega), this]
      rfl
  -- the memory after the step holds the old elements
  have hold : ∀ k, k < items.length → (step c s i).mem (slot c s k) = s.mem (slot c s k) := by
    intro k hk
    change (if (!s.full && i.wren) && slot c s k == s.wr && decide (slot c s k < c.depth) then some i.din
      else s.mem (slot c s k)) = _
    by_cases hwr : (!s.full && i.wren) = true
    · have hlt : items.length < 2 ^ c.bits := by
        rw [hw] at hwr
        simpa using (Bool.and_eq_true_iff.mp hwr).2
      have hne : slot c s k ≠ s.wr := by rw [vw]; exact slot_ne hk hlt
      simp [hne]
    · simp [hwr]
  -- the element which is written
  have hnew : (!s.full && i.wren) = true → (step c s i).mem (slot c s items.length) = some i.din := by
    intro hwr
    change (if (!s.full && i.wren) && slot c s items.length == s.wr && decide (slot c s items.length < c.depth) then some i.din
      else _) = _
    have : decide (slot c s items.length < c.depth) = true := by rw [hc]; simpa using slot_lt c s _
    rw [hwr, this, vw]
    simp
  have hrd : (step c s i).rd = if (!s.empty && i.rden) = true then (s.rd + 1) % 2 ^ c.bits else s.rd := rfl
  have hsl : ∀ k, slot c (step c s i) k = if (!s.empty && i.rden) = true then slot c s (k + 1) else slot c s k := by
    intro k
    unfold slot
    rw [hrd]
    split
    · rw [Nat.mod_add_mod]
      congr 1
      omega
    · rfl
  have hrlen : (!s.empty && i.rden) = true → 0 < items.length := by
    intro h
    rw [ve] at h
    have := (Bool.and_eq_true_iff.mp h).1
    simp at this
    cases items with
    | nil => exact absurd rfl this
    | cons a t => simp
  -- the queue after the step
  have hq : (Queue.next c.depth ⟨items, last⟩ i).items =
      (if (!s.empty && i.rden) = true then items.drop 1 else items) ++ (if (!s.full && i.wren) = true then [i.din] else []) := by
    change (if i.rden = true then items.drop 1 else items) ++ (if (i.wren && decide (items.length < c.depth)) = true then [i.din] else []) = _
    rw [hw, hc, hr]
    congr 1
    cases i.rden
    · rfl
    · cases items <;> rfl
  have hqlen : (Queue.next c.depth ⟨items, last⟩ i).items.length =
      (if (!s.empty && i.rden) = true then items.length - 1 else items.length) + (if (!s.full && i.wren) = true then 1 else 0) := by
    rw [hq, List.length_append]
    congr 1
    · split
      · rw [List.length_drop]
      · rfl
    · split <;> rfl
  have hwlen : (!s.full && i.wren) = true → items.length < 2 ^ c.bits := by
    intro h
    rw [hw] at h
    simpa using (Bool.and_eq_true_iff.mp h).2
  refine ⟨?_, ?_, ?_, ?_, ?_, ?_, ?_, ?_⟩
  · rw [hrd]
    split
    · exact Nat.mod_lt _ hp
    · exact vr
  · rw [hqlen]
    split <;> split
    · rename_i h1 h2; have := hwlen h2; omega
    · omega
    · rename_i h1 h2; have := hwlen h2; omega
    · omega
  · rw [hqlen]
    change (if ((!s.full && i.wren) && (!s.empty && i.rden)) = true then s.cnt else if (!s.full && i.wren) = true then _ else
      if (!s.empty && i.rden) = true then _ else s.cnt) = _
    cases hw' : (!s.full && i.wren) <;> cases hr' : (!s.empty && i.rden)
    · simp [vc]
    · have := hrlen hr'
      simp only [Bool.false_and, Bool.false_eq_true, if_false, if_true, vc]
      rw [show items.length + 2 ^ (c.bits + 1) - 1 = (items.length - 1) + 2 ^ (c.bits + 1) by omega, Nat.add_mod_right,
        Nat.mod_eq_of_lt (by omega)]
      rfl
    · have := hwlen hw'
      simp only [Bool.and_false, Bool.false_eq_true, if_false, if_true, vc]
      exact Nat.mod_eq_of_lt (by omega)
    · have := hrlen hr'
      simp only [Bool.and_self, if_true, vc]
      omega
  · rw [hqlen]
    change (if ((!s.full && i.wren) && (!s.empty && i.rden)) = true then s.empty else if (!s.full && i.wren) = true then false else
      if (!s.empty && i.rden) = true then (decide (s.cnt / 2 = 0) && decide (s.cnt % 2 = 1)) else s.empty) = _
    cases hw' : (!s.full && i.wren) <;> cases hr' : (!s.empty && i.rden)
    · simp [ve]
    · have := hrlen hr'
      simp only [Bool.false_and, Bool.false_eq_true, if_false, if_true, vc]
      rw [← Bool.decide_and]
      apply decide_eq_decide.mpr
      omega
    · simp
    · have := hrlen hr'
      simp only [Bool.and_self, if_true, ve]
      apply decide_eq_decide.mpr
      omega
  · rw [hqlen]
    change (if ((!s.full && i.wren) && (!s.empty && i.rden)) = true then s.full else if (!s.full && i.wren) = true then
      (decide (s.cnt / 2 ^ c.bits = 0) && decide (s.cnt % 2 ^ c.bits = 2 ^ c.bits - 1)) else
      if (!s.empty && i.rden) = true then false else s.full) = _
    cases hw' : (!s.full && i.wren) <;> cases hr' : (!s.empty && i.rden)
    · simp [vf]
    · have := hrlen hr'
      simp only [Bool.false_and, Bool.false_eq_true, if_false, if_true]
      symm
      apply decide_eq_false
      omega
    · have := hwlen hw'
      simp only [Bool.and_false, Bool.false_eq_true, if_false, if_true, vc]
      rw [Nat.div_eq_of_lt this, Nat.mod_eq_of_lt this]
      simp only [decide_true, Bool.true_and]
      apply decide_eq_decide.mpr
      omega
    · have := hrlen hr'
      simp only [Bool.and_self, if_true, vf]
      apply decide_eq_decide.mpr
      omega
  · rw [hqlen, hsl]
    change (if (!s.full && i.wren) = true then (s.wr + 1) % 2 ^ c.bits else s.wr) = _
    have hw1 : (s.wr + 1) % 2 ^ c.bits = slot c s (items.length + 1) := by
      rw [vw, slot, Nat.mod_add_mod, slot]; congr 1
    cases hw' : (!s.full && i.wren) <;> cases hr' : (!s.empty && i.rden)
    · simpa using vw
    · have := hrlen hr'
      simp only [Bool.false_eq_true, if_false, if_true, Nat.add_zero]
      rw [Nat.sub_add_cancel this]
      exact vw
    · simpa using hw1
    · have := hrlen hr'
      simp only [if_true]
      rw [hw1, Nat.sub_add_cancel this]
  · change (if (!s.empty && i.rden) = true then read c s s.rd else s.dout) = (if (i.rden && !items.isEmpty) = true then items.head? else last)
    rw [hr]
    split
    · rename_i h
      apply hhead
      intro e
      rw [e] at h
      simp at h
    · exact vd
  · intro k x hx
    rw [hq] at hx
    rw [hsl]
    cases hr' : (!s.empty && i.rden)
    · rw [hr'] at hx
      simp only [Bool.false_eq_true, if_false] at hx ⊢
      by_cases hk : k < items.length
      · rw [List.getElem?_append_left hk] at hx
        rw [hold k hk]
        exact vi k x hx
      · rw [List.getElem?_append_right (by omega)] at hx
        cases hw' : (!s.full && i.wren) <;> rw [hw'] at hx
        · simp at hx
        · simp only [if_true] at hx
          have hk0 : k = items.length := by
            by_cases e : k - items.length = 0
            · omega
            · rw [List.getElem?_eq_none (by simp; omega)] at hx; cases hx
          subst hk0
          simp at hx
          rw [← hx]
          exact hnew hw'
    · rw [hr'] at hx
      simp only [if_true] at hx ⊢
      have hl := hrlen hr'
      by_cases hk : k < items.length - 1
      · rw [List.getElem?_append_left (by rw [List.length_drop]; exact hk), List.getElem?_drop, Nat.add_comm] at hx
        rw [hold (k + 1) (by omega)]
        exact vi (k + 1) x hx
      · rw [List.getElem?_append_right (by rw [List.length_drop]; omega), List.length_drop] at hx
        cases hw' : (!s.full && i.wren) <;> rw [hw'] at hx
        · simp at hx
        · simp only [if_true] at hx
          have hk0 : k = items.length - 1 := by
            by_cases e : k - (items.length - 1) = 0
            · omega
            · rw [List.getElem?_eq_none (by simp; omega)] at hx; cases hx
          rw [hk0, Nat.sub_self] at hx
          simp at hx
          rw [hk0, Nat.sub_add_cancel hl, ← hx]
          exact hnew hw'

theorem inv_run (c : Cfg) (hb : 0 < c.bits) (hc : c.depth = 2 ^ c.bits) (ins : List (In α)) : ∀ {s : Regs α} {q : Queue α},
    Inv c s q → Inv c (run c s ins) (q.run c.depth ins) := by
  induction ins with
  | nil => intro s q v; exact v
  | cons i t ih => intro s q v; exact ih (inv_step c hb hc v i)

/-- **The FIFO is a queue.**  For every depth which is a power of two, and
whatever is written and read when, the element count, the `empty`, `full` and
threshold outputs and the data output are those of a queue of that size. -/
theorem fifo_is_queue (c : Cfg) (hb : 0 < c.bits) (hc : c.depth = 2 ^ c.bits) (ins : List (In α)) :
    Shows c (run c reset ins) (Queue.run c.depth ⟨[], none⟩ ins) := by
  have v := inv_run c hb hc ins (inv_reset (α := α) c)
  refine ⟨v.cnt, ?_, ?_, v.dout, ?_, ?_⟩
  · rw [v.empty]
    cases (Queue.run c.depth ⟨[], none⟩ ins).items <;> simp
  · rw [v.full, hc]
  · rw [almostEmpty, v.cnt]
  · rw [almostFull, v.cnt, ← Bool.decide_and]
    apply decide_eq_decide.mpr
    have := v.len
    omega

/-- Eight deep, with traffic which fills it and wraps around. -/
def busy : List (In Nat) :=
  (List.range 20).map (fun n => { wren := true, rden := decide (5 ≤ n), din := n }) ++
    (List.range 12).map (fun n => { wren := false, rden := true, din := n })

def eight (cut : Bool) : Cfg := { depth := 8, bits := 3, cut, almostFull := 6, almostEmpty := 1 }

example : 0 < (eight true).bits ∧ (eight true).depth = 2 ^ (eight true).bits := by decide
example : ((run (eight true) reset (busy.take 14)).cnt, (run (eight true) reset (busy.take 14)).dout) = (5, some 8) := by decide
example : (run (eight true) reset (busy.take 8)).rd = 3 ∧ (run (eight true) reset (busy.take 14)).wr = 6 := by decide

/-! ## The early output -/

/-- The cycle in which the only element is read and another one written: the
memory is read at the location which is written. -/
def Replaces (q : Queue α) (i : In α) : Prop := q.items.length = 1 ∧ i.rden = true ∧ i.wren = true

/-- When the early output is said to be valid: there was an element before the
cycle and there is one after it. -/
theorem early_valid (c : Cfg) (hb : 0 < c.bits) (hc : c.depth = 2 ^ c.bits) (ins : List (In α)) (i : In α) :
    let q := Queue.run c.depth ⟨[], none⟩ ins
    (step c (run c reset ins) i).preValid = (!q.items.isEmpty && !(q.next c.depth i).items.isEmpty) := by
  have v := inv_run c hb hc ins (inv_reset (α := α) c)
  have v' := inv_step c hb hc v i
  dsimp only
  generalize Queue.run c.depth ⟨[], none⟩ ins = q at v v' ⊢
  generalize run c reset ins = s at v v' ⊢
  have e1 : q.items.isEmpty = s.empty := by
    rw [v.empty]; cases q.items <;> simp
  have e2 : (q.next c.depth i).items.isEmpty = (step c s i).empty := by
    rw [v'.empty]; cases (q.next c.depth i).items <;> simp
  rw [e1, e2]
  change (if ((!s.full && i.wren) && (!s.empty && i.rden)) = true then !s.empty else if (!s.full && i.wren) = true then !s.empty else
    if (!s.empty && i.rden) = true then (!s.empty && !decide (s.cnt / 2 = 0)) else !s.empty) =
    (!s.empty && !(if ((!s.full && i.wren) && (!s.empty && i.rden)) = true then s.empty else if (!s.full && i.wren) = true then false else
      if (!s.empty && i.rden) = true then (decide (s.cnt / 2 = 0) && decide (s.cnt % 2 = 1)) else s.empty))
  cases hw' : (!s.full && i.wren) <;> cases hr' : (!s.empty && i.rden)
  · simp
  · have he : s.empty = false := by
      have := (Bool.and_eq_true_iff.mp hr').1
      simpa using this
    rw [he]
    have hn : s.cnt ≠ 0 := by
      have h1 := v.empty
      rw [he] at h1
      rw [v.cnt]
      intro h0
      rw [h0] at h1
      simp at h1
    simp only [Bool.false_and, Bool.false_eq_true, if_false, if_true, Bool.not_false, Bool.true_and]
    by_cases h : s.cnt / 2 = 0
    · have : s.cnt % 2 = 1 := by omega
      simp [h, this]
    · simp [h]
  · simp
  · simp

/-- **The early output is the next element** in every cycle after one which
did not replace the only element, in a synthesised memory. -/
theorem early_output (c : Cfg) (hb : 0 < c.bits) (hc : c.depth = 2 ^ c.bits) (hcut : c.cut = true) (ins : List (In α)) (i : In α)
    (h : ¬ Replaces (Queue.run c.depth ⟨[], none⟩ ins) i) :
    Early (run c reset (ins ++ [i])) (Queue.run c.depth ⟨[], none⟩ (ins ++ [i])) := by
  have hrun : ∀ (s : Regs α) (a : List (In α)), run c s (a ++ [i]) = step c (run c s a) i := by
    intro s a
    induction a generalizing s with
    | nil => rfl
    | cons x t ih => exact ih _
  have hqrun : ∀ (q : Queue α) (a : List (In α)), q.run c.depth (a ++ [i]) = (q.run c.depth a).next c.depth i := by
    intro q a
    induction a generalizing q with
    | nil => rfl
    | cons x t ih => exact ih _
  rw [hrun, hqrun]
  have hv := early_valid c hb hc ins i
  have v := inv_run c hb hc ins (inv_reset (α := α) c)
  dsimp only at hv
  generalize Queue.run c.depth ⟨[], none⟩ ins = q at v h hv ⊢
  generalize run c reset ins = s at v hv ⊢
  intro hp
  rw [hp] at hv
  obtain ⟨h1, h2⟩ := Bool.and_eq_true_iff.mp hv.symm
  obtain ⟨items, last⟩ := q
  cases items with
  | nil => simp at h1
  | cons a t =>
    have vr := v.rd
    have he : s.empty = false := by rw [v.empty]; simp
    have hmem : ∀ k x, (a :: t)[k]? = some x → read c s (slot c s k) = some x := by
      intro k x hx
      rw [read, if_pos (by rw [hc]; exact slot_lt c s k)]
      exact v.items k x hx
    cases hr : i.rden
    · refine ⟨a, ?_, ?_⟩
      · change ((if i.rden = true then t else a :: t) ++ _).head? = _
        rw [hr]; rfl
      · change (if (!s.empty && i.rden) = true then _ else read c s s.rd) = some a
        rw [hr, Bool.and_false, if_neg (by decide)]
        have := hmem 0 a rfl
        rwa [slot, Nat.add_zero, Nat.mod_eq_of_lt vr] at this
    · have hpre : (step c s i).pre = read c s (slot c s 1) := by
        change (if (!s.empty && i.rden) = true then read c s (ahead c s) else _) = _
        rw [he, hr, if_pos (by decide), ahead, hcut, if_pos rfl]
        rfl
      cases t with
      | nil =>
        exfalso
        have hw : i.wren = false := by
          cases hw : i.wren
          · rfl
          · exact absurd ⟨rfl, hr, hw⟩ h
        have : (Queue.next c.depth ⟨[a], last⟩ i).items = [] := by
          change (if i.rden = true then [] else [a]) ++ (if (i.wren && _) = true then _ else []) = []
          rw [hr, hw]; rfl
        rw [this] at h2
        simp at h2
      | cons b t =>
        refine ⟨b, ?_, ?_⟩
        · change ((if i.rden = true then b :: t else a :: b :: t) ++ _).head? = _
          rw [hr]; rfl
        · rw [hpre]
          exact hmem 1 b rfl

example : ¬ Replaces (Queue.run 8 ⟨[], none⟩ (busy.take 14)) ⟨true, true, 14⟩ ∧
    (run (eight true) reset (busy.take 15)).preValid = true ∧ (run (eight true) reset (busy.take 15)).pre = some 10 := by
  refine ⟨?_, by decide, by decide⟩
  rintro ⟨h, _⟩
  revert h
  decide

/-! ## Where it is not -/

/-- Write 7, wait, then read it and write 9 in one cycle. -/
def swap : List (In Nat) := [⟨true, false, 7⟩, ⟨false, false, 0⟩, ⟨true, true, 9⟩]

/-- **The early output is stale** in the cycle after the only element was
read and another one written: it is said to be valid and is not the element
the next read gives (here the memory was never written; after a round it is
an old element). -/
theorem early_stale (cut : Bool) :
    let s := run (eight cut) reset swap
    let q := Queue.run 8 ⟨[], none⟩ swap
    s.preValid = true ∧ q.items = [9] ∧ s.pre = none ∧ ¬ Early s q := by
  refine ⟨by cases cut <;> decide, by decide, by cases cut <;> decide, ?_⟩
  intro h
  obtain ⟨x, hx, hp⟩ := h (by cases cut <;> decide)
  have : (run (eight cut) reset swap).pre = none := by cases cut <;> decide
  rw [this] at hp
  cases hp

/-- One round later the stale value is an element read long ago. -/
theorem early_old_element :
    let ins := (List.range 8).flatMap (fun n => [⟨true, false, n⟩, ⟨false, true, 0⟩]) ++ swap
    let s := run (eight true) reset ins
    s.preValid = true ∧ (Queue.run 8 ⟨[], none⟩ ins).items = [9] ∧ s.pre = some 1 := by
  decide +kernel

/-- **By the rules of the language the early output leaves the memory** when
the last location is read: with eight elements written and eight more, the
ninth element is next but the early output is unknown for a cycle.  A
synthesised memory gives the right element. -/
theorem early_leaves_memory :
    let ins := (List.range 8).map (fun n => (⟨true, false, n⟩ : In Nat)) ++ [⟨false, true, 0⟩, ⟨true, false, 8⟩] ++
      (List.range 7).map (fun _ => ⟨false, true, 0⟩)
    (Queue.run 8 ⟨[], none⟩ ins).items = [8] ∧
      (run (eight false) reset ins).preValid = true ∧ (run (eight false) reset ins).pre = none ∧
      (run (eight true) reset ins).pre = some 8 := by
  decide +kernel

/-- **A depth which is not a power of two**: of three locations the FIFO says
it has room for a fourth element and loses it. -/
theorem odd_depth_loses :
    let c : Cfg := { depth := 3, bits := 2, cut := true, almostFull := 2, almostEmpty := 1 }
    let four := (List.range 4).map (fun n => (⟨true, false, n⟩ : In Nat))
    (run c reset (four.take 3)).full = false ∧ (run c reset four).cnt = 4 ∧
      (run c reset (four ++ List.replicate 4 ⟨false, true, 0⟩)).dout = none := by
  decide +kernel

end Verif.RtlFifo
