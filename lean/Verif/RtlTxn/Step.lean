import Verif.RtlTxn.Lemmas
import Verif.RtlDesc.Props

/-! The invariant: where every descriptor is. -/

namespace Verif.RtlTxn

open RtlFifo (Queue)

/-- A descriptor which was given and is not yet under an accepted request,
counted over the places where it can be. -/
def stock {α : Type} (s : Regs α) (j : Nat) : Nat :=
  (if s.freeup j = true then 1 else 0) + (if s.req j = true then 1 else 0) +
    (if (s.gvld && s.gidx == j) = true then 1 else 0) + s.q.items.count j +
    (if held s.r s.q.last = some j then 1 else 0) + (if held s.w s.q.last = some j then 1 else 0)

structure Inv {α : Type} (w : World α) : Prop where
  okR : ok w.s.r w.r.owed = true
  okW : ok w.s.w w.w.owed = true
  rden : w.s.rden = (w.s.r.fifo || w.s.w.fifo)
  excl : w.s.r.fifo = true → w.s.w.fifo = false
  some : w.s.rden = true → w.s.q.items ≠ []
  bal : ∀ j < 16, w.givenOf j = w.takenOf j + stock w.s j
  one : ∀ j < 16, stock w.s j ≤ 1
  glt : w.s.gvld = true → w.s.gidx < 16
  qlt : ∀ j ∈ w.s.q.items, j < 16
  rlt : ∀ j, held w.s.r w.s.q.last = Option.some j → j < 16
  wlt : ∀ j, held w.s.w w.s.q.last = Option.some j → j < 16
  up : ∀ j, w.s.freeup j = true → w.s.ownFf j = true
  din : ∀ j, w.s.dinFf j = true → w.s.freeup j = false
  offR : w.s.r.off = w.r.off
  offW : w.s.w.off = w.w.off

theorem lowest_req {f : Nat → Bool} {j : Nat} (h : lowest f = some j) : f j = true ∧ j < 16 :=
  ⟨List.find?_some h, List.mem_range.mp (List.mem_of_find?_eq_some h)⟩

theorem lowest_some {f : Nat → Bool} {j : Nat} (h : f j = true) (hj : j < 16) : (lowest f).isSome = true := by
  rw [lowest, List.find?_isSome]
  exact ⟨j, List.mem_range.mpr hj, h⟩

/-- The grant controller loses and makes nothing. -/
theorem grant_bal {α : Type} (s : Regs α) (j : Nat) (hj : j < 16) (hd : s.freeup j = true → s.dinFf j = false)
    (h1 : s.freeup j = true → s.req j = false) :
    (if grantReq s j = true then 1 else 0) + (if ((lowest s.req).isSome && (lowest s.req).getD 0 == j) = true then 1 else 0) =
      (if s.freeup j = true then 1 else 0) + (if s.req j = true then 1 else 0) := by
  have e : ((lowest s.req).isSome && (lowest s.req).getD 0 == j) = decide (lowest s.req = some j) := by
    cases lowest s.req <;> simp
    rfl
  rw [e, grantReq]
  by_cases hr : s.req j = true
  · have hf : s.freeup j = false := by
      rcases Bool.eq_false_or_eq_true (s.freeup j) with h | h
      · rw [h1 h] at hr; cases hr
      · exact h
    by_cases hl : lowest s.req = some j <;> simp [hr, hf, hl]
  · have hl : lowest s.req ≠ some j := fun h => hr (lowest_req h).1
    rcases Bool.eq_false_or_eq_true (s.freeup j) with h | h
    · simp [hr, hl, h, hd h]
    · simp [hr, hl, h]

/-- A channel after a cycle: it gets what was read from the FIFO for it, and
loses what it accepts. -/
theorem held_bal {α : Type} {s : Side} {o : Bool} {i : Chan α} {sel : Bool} {d d' : Option Nat} (h : ok s o = true) (j : Nat) :
    (if held (s.step i sel d) d' = some j then 1 else 0) +
        (if s.inf = .fill ∧ i.req.isSome = true ∧ s.cur = j then 1 else 0) =
      (if held s d = some j then 1 else 0) + (if s.fifo = true ∧ d'.getD 0 = j then 1 else 0) := by
  rw [side_held (d' := d') h]
  by_cases hf : s.fifo = true
  · have h1 := held_fifo (d := d) h hf
    have h2 : s.inf ≠ .fill := by
      intro e
      rw [held_fill (d := d) h e] at h1; cases h1
    simp [hf, h1, h2]
  · by_cases hi : s.inf = .fill
    · have := held_fill (d := d) h hi
      cases i.req <;> simp [hf, hi, this]
    · simp [hf, hi]

theorem accept_count {α : Type} {s : Side} {o : Bool} (read : Bool) (b : Book α) {i : Chan α} (h : ok s o = true) (j : Nat) :
    (accepts read s b i).countP (fun a => a.idx = j) =
      if s.inf = .fill ∧ i.req.isSome = true ∧ s.cur = j then 1 else 0 := by
  have := ready_iff h
  unfold accepts
  cases i.req with
  | none => simp
  | some x =>
    by_cases hr : s.ready = true
    · simp only [if_pos hr]
      by_cases hc : s.cur = j <;> simp [this.mp hr, hc]
    · have hn : s.inf ≠ .fill := fun e => hr (this.mpr e)
      simp [hr, hn]

/-- What software gives enters the books and the hardware. -/
theorem gives_count {α : Type} (w : World α) (i : In α) (j : Nat) (hj : j < 16) :
    (gives w i).count j = if freeupNext w.s i j = true then 1 else 0 := by
  unfold gives
  by_cases h : freeupNext w.s i j = true
  · rw [if_pos h, List.count_filter (by exact h)]
    have h1 : (List.range 16).count j ≤ 1 := List.nodup_iff_count.mp List.nodup_range j
    have h2 := List.count_pos_iff.mpr (List.mem_range.mpr hj)
    omega
  · rw [if_neg h, List.count_eq_zero]
    intro hm
    exact h (List.mem_filter.mp hm).2

theorem mem_gives {α : Type} {w : World α} {i : In α} {j : Nat} (hj : j < 16) (h : freeupNext w.s i j = true) : j ∈ gives w i :=
  List.mem_filter.mpr ⟨List.mem_range.mpr hj, h⟩

theorem pick_some {α : Type} {s : Regs α} {b : Bool} (h : pick s = some b) :
    s.rden = false ∧ s.q.items ≠ [] ∧ (if b then s.r else s.w).req = true := by
  unfold pick at h
  split at h
  · cases h
  · rename_i h1
    split at h
    · cases h
    · rename_i h2
      refine ⟨by simpa using h1, by simpa using h2, ?_⟩
      cases hw : s.w.req <;> cases hr : s.r.req <;> simp [hw, hr] at h <;> subst h <;> simp [hw, hr]

/-- A descriptor on its way into the FIFO finds room. -/
theorem room {α : Type} {w : World α} (v : Inv w) (h : w.s.gvld = true) : w.s.q.items.length < 16 := by
  have hg := v.glt h
  have hn : (w.s.gidx :: w.s.q.items).Nodup := by
    rw [List.nodup_iff_count]
    intro a
    by_cases ha : a ∈ w.s.gidx :: w.s.q.items
    · have : a < 16 := by
        rcases List.mem_cons.mp ha with h | h
        · rw [h]; exact hg
        · exact v.qlt a h
      have h1 := v.one a this
      unfold stock at h1
      rw [h] at h1
      rw [List.count_cons]
      simp only [Bool.true_and] at h1
      omega
    · rw [List.count_eq_zero.mpr ha]; omega
  have hs : (w.s.gidx :: w.s.q.items) ⊆ List.range 16 := by
    intro a ha
    rw [List.mem_range]
    rcases List.mem_cons.mp ha with h | h
    · rw [h]; exact hg
    · exact v.qlt a h
  have := hn.length_le_of_subset hs
  simp only [List.length_cons, List.length_range] at this
  omega

/-- What is read from the FIFO is its first. -/
theorem popped {α : Type} {w : World α} {i : In α} (v : Inv w) (h : w.s.rden = true) :
    ∃ a t, w.s.q.items = a :: t ∧ (step w.s i).q.last = some a := by
  cases hq : w.s.q.items with
  | nil => exact absurd hq (v.some h)
  | cons a t =>
    refine ⟨a, t, rfl, ?_⟩
    change (if w.s.rden && !w.s.q.items.isEmpty then w.s.q.items.head? else w.s.q.last) = _
    rw [h, hq]; rfl

/-- The stock after a cycle. -/
theorem stock_next {α : Type} {w : World α} (v : Inv w) (i : In α) (j : Nat) (hj : j < 16) :
    stock (step w.s i) j +
        (if w.s.r.inf = .fill ∧ i.r.req.isSome = true ∧ w.s.r.cur = j then 1 else 0) +
        (if w.s.w.inf = .fill ∧ i.w.req.isSome = true ∧ w.s.w.cur = j then 1 else 0) =
      stock w.s j + (if freeupNext w.s i j = true then 1 else 0) := by
  have h1 := v.one j hj
  have g := grant_bal w.s j hj
    (fun hf => by
      rcases Bool.eq_false_or_eq_true (w.s.dinFf j) with h | h
      · rw [v.din j h] at hf; cases hf
      · exact h)
    (fun hf => by
      rcases Bool.eq_false_or_eq_true (w.s.req j) with h | h
      · unfold stock at h1
        rw [if_pos hf, if_pos h] at h1
        omega
      · exact h)
  have q := RtlDesc.count_next w.s.q w.s.gvld w.s.rden w.s.gidx j (room v)
  have r := held_bal (i := i.r) (sel := decide (pick w.s = some true)) (d := w.s.q.last) (d' := (step w.s i).q.last) v.okR j
  have x := held_bal (i := i.w) (sel := decide (pick w.s = some false)) (d := w.s.q.last) (d' := (step w.s i).q.last) v.okW j
  have p : (if (if w.s.rden = true then w.s.q.items.head? else none) = some j then 1 else 0) =
      (if w.s.r.fifo = true ∧ (step w.s i).q.last.getD 0 = j then 1 else 0) +
      (if w.s.w.fifo = true ∧ (step w.s i).q.last.getD 0 = j then 1 else 0) := by
    have e := v.rden
    by_cases hd : w.s.rden = true
    · obtain ⟨a, t, hq, hl⟩ := popped (i := i) v hd
      rw [hl, hq]
      rw [hd] at e
      cases hr : w.s.r.fifo
      · rw [hr] at e
        rw [← (show true = w.s.w.fifo from e)]
        simp [hd]
      · rw [v.excl hr]
        simp [hd]
    · have e' : w.s.r.fifo = false ∧ w.s.w.fifo = false := by
        have : w.s.rden = false := by simpa using hd
        rw [this] at e
        simpa using e.symm
      simp [hd, e'.1, e'.2]
  unfold stock
  change (if freeupNext w.s i j = true then 1 else 0) + (if grantReq w.s j = true then 1 else 0) +
    (if ((lowest w.s.req).isSome && (lowest w.s.req).getD 0 == j) = true then 1 else 0) +
    (w.s.q.next 16 ⟨w.s.gvld, w.s.rden, w.s.gidx⟩).items.count j +
    (if held (w.s.r.step i.r (decide (pick w.s = some true)) w.s.q.last) (step w.s i).q.last = some j then 1 else 0) +
    (if held (w.s.w.step i.w (decide (pick w.s = some false)) w.s.q.last) (step w.s i).q.last = some j then 1 else 0) + _ + _ = _
  rw [p] at q
  omega

theorem taken_next {α : Type} {w : World α} (v : Inv w) (i : In α) (j : Nat) :
    (w.next i).takenOf j = w.takenOf j +
        (if w.s.r.inf = .fill ∧ i.r.req.isSome = true ∧ w.s.r.cur = j then 1 else 0) +
        (if w.s.w.inf = .fill ∧ i.w.req.isSome = true ∧ w.s.w.cur = j then 1 else 0) := by
  unfold World.takenOf
  change (accepts true w.s.r w.r i.r ++ accepts false w.s.w w.w i.w ++ w.taken).countP _ = _
  rw [List.countP_append, List.countP_append, accept_count true w.r v.okR j, accept_count false w.w v.okW j]
  omega

theorem given_next {α : Type} (w : World α) (i : In α) (j : Nat) (hj : j < 16) :
    (w.next i).givenOf j = w.givenOf j + if freeupNext w.s i j = true then 1 else 0 := by
  unfold World.givenOf
  change (gives w i ++ w.given).count j = _
  rw [List.count_append, gives_count w i j hj]
  omega

theorem held_lt {α : Type} {w : World α} (v : Inv w) (i : In α) {s : Side} {o : Bool} {c : Chan α} {sel : Bool} (h : ok s o = true)
    (hf : s.fifo = true → w.s.rden = true) (hl : ∀ j, held s w.s.q.last = some j → j < 16) (j : Nat)
    (hj : held (s.step c sel w.s.q.last) (step w.s i).q.last = some j) : j < 16 := by
  rw [side_held h] at hj
  split at hj
  · rename_i hs
    obtain ⟨a, t, hq, hp⟩ := popped (i := i) v (hf hs)
    rw [hp] at hj
    have : a = j := by simpa using hj
    rw [← this]
    exact v.qlt a (by rw [hq]; exact List.mem_cons_self)
  · split at hj
    · cases hj
    · exact hl j hj

theorem inv_start {α : Type} : Inv (World.start : World α) where
  okR := rfl
  okW := rfl
  rden := rfl
  excl := fun _ => rfl
  some := by intro h; cases h
  bal := fun _ _ => rfl
  one := fun _ _ => Nat.zero_le _
  glt := by intro h; cases h
  qlt := by intro j h; cases h
  rlt := by intro j h; cases h
  wlt := by intro j h; cases h
  up := by intro j h; cases h
  din := by intro j h; cases h
  offR := rfl
  offW := rfl

theorem inv_step {α : Type} {w : World α} (v : Inv w) {i : In α} (p : Proper w i) : Inv (w.next i) where
  okR := side_ok v.okR
    (by
      intro h
      have h := pick_some (of_decide_eq_true h)
      refine ⟨by simpa using h.2.2, ?_⟩
      have e := v.rden
      rw [h.1] at e
      simp at e
      exact e.1) p.r.answer
  okW := side_ok v.okW
    (by
      intro h
      have h := pick_some (of_decide_eq_true h)
      refine ⟨by simpa using h.2.2, ?_⟩
      have e := v.rden
      rw [h.1] at e
      simp at e
      exact e.2) p.w.answer
  rden := by
    change (pick w.s).isSome = (decide (pick w.s = some true) || decide (pick w.s = some false))
    cases pick w.s with
    | none => rfl
    | some b => cases b <;> rfl
  excl := by
    intro h
    have h : decide (pick w.s = some true) = true := h
    change decide (pick w.s = some false) = false
    rw [of_decide_eq_true h]; rfl
  some := by
    intro h
    have h : (pick w.s).isSome = true := h
    obtain ⟨b, hb⟩ := Option.isSome_iff_exists.mp h
    obtain ⟨h1, h2, _⟩ := pick_some hb
    change (if w.s.rden = true then w.s.q.items.drop 1 else w.s.q.items) ++ _ ≠ []
    rw [h1]
    intro he
    exact h2 (List.append_eq_nil_iff.mp he).1
  bal := by
    intro j hj
    have h1 := v.bal j hj
    have h2 := stock_next v i j hj
    have h3 := taken_next v i j
    have h4 := given_next w i j hj
    change _ = _ + stock (step w.s i) j
    omega
  one := by
    intro j hj
    have h1 := v.bal j hj
    have h2 := stock_next v i j hj
    have h3 := v.one j hj
    change stock (step w.s i) j ≤ 1
    by_cases hf : freeupNext w.s i j = true
    · have := p.give j (mem_gives hj hf)
      rw [if_pos hf] at h2
      omega
    · rw [if_neg hf] at h2
      omega
  glt := by
    intro h
    have h : (lowest w.s.req).isSome = true := h
    obtain ⟨b, hb⟩ := Option.isSome_iff_exists.mp h
    change (lowest w.s.req).getD 0 < 16
    rw [hb]
    exact (lowest_req hb).2
  qlt := by
    intro j h
    rcases RtlDesc.mem_next h with h | ⟨h, e⟩
    · exact v.qlt j h
    · rw [e]; exact v.glt h
  rlt := held_lt v i v.okR (fun h => by rw [v.rden, h]; rfl) v.rlt
  wlt := held_lt v i v.okW (fun h => by rw [v.rden, h]; exact Bool.or_true _) v.wlt
  up := by
    intro j h
    have h : freeupNext w.s i j = true := h
    unfold freeupNext at h
    simp only [Bool.and_eq_true] at h
    exact h.1.1
  din := by
    intro j h
    have h := v.up j h
    change freeupNext w.s i j = false
    unfold freeupNext
    rw [h]; simp
  offR := by
    change i.r.addr.getD w.s.r.off = i.r.addr.getD w.r.off
    rw [v.offR]
  offW := by
    change i.w.addr.getD w.s.w.off = i.w.addr.getD w.w.off
    rw [v.offW]

end Verif.RtlTxn
