import Verif.RtlRx.Step

/-! What the receive side does for software and for the other side. -/

namespace Verif.RtlRx

open Verif.RtlTx (Kind ring bits Seg ring_seg)

/-- C78: software finds every flit, once and in the order in which the other
side sent them; at most 15 are still to be taken.  Partial: under `Good`,
`Peer` and `Calm`, see `Faults.lean` for what happens otherwise. -/
theorem found_in_order_partial {α : Type} (k : Kind) (m : Nat → α) (t : List (In α))
    (g : All Good k (World.start m) t) (p : All Peer k (World.start m) t) (c : All (Calm k) k (World.start m) t) :
    let w := (World.start m).run k t
    ∃ later, w.sent = w.got ++ later ∧ later.length ≤ w.total ∧ w.total ≤ 15 := by
  obtain ⟨f, b, a, o, h⟩ := inv_run t (inv_start k m) g p c
  generalize (World.start m).run k t = w at *
  have h1 := h.ordered
  have h2 := h.room
  have h3 := h.allowed
  have h4 := h.came
  refine ⟨w.sent.drop w.got.length, ?_, ?_, h.total⟩
  · have e := List.take_append_drop w.got.length w.sent
    rw [← h.got] at e
    exact e.symm
  · rw [List.length_drop]; omega

/-- C78: a place software owns and did not give back holds the flit of its
turn, for as long as it owns it. -/
theorem owned_holds_flit_partial {α : Type} (k : Kind) (m : Nat → α) (t : List (In α))
    (g : All Good k (World.start m) t) (p : All Peer k (World.start m) t) (c : All (Calm k) k (World.start m) t)
    (j : Nat) :
    let w := (World.start m).run k t
    w.got.length ≤ j → j < w.got.length + 15 → w.s.own (j % 15) = true → w.s.flip (j % 15) = false →
      w.sent[j]? = some (w.s.mem (j % 15)) := by
  obtain ⟨f, b, a, o, h⟩ := inv_run t (inv_start k m) g p c
  intro w hj1 hj2 ho hf
  have hk : j % 15 < 15 := Nat.mod_lt _ (by omega)
  have h1 : f ≤ w.got.length ∧ w.got.length ≤ b ∧ b ≤ a ∧ a ≤ b + 1 := h.ordered
  have so : Seg f b (j % 15) := (h.own _ hk).1 ho
  have nf : ¬Seg f w.got.length (j % 15) := by
    intro e
    have : pulse w.s (j % 15) = true := (h.fresh _ hk).2 e
    unfold pulse at this
    rw [hf] at this; cases this
  have hb : b ≤ f + 15 := by
    have h2 : w.granted + _ + _ + o = w.total + f + w.returned := h.room
    have h3 : w.sent.length + w.returned ≤ w.granted := h.allowed
    have h4 : w.sent.length = _ := h.came
    have h5 : w.total ≤ 15 := h.total
    omega
  unfold Seg at so nf
  exact h.mem j (by omega) (by omega)

/-- C78: the other side never has more credits than there are places free, so
no flit is written over one which software did not take. -/
theorem credits_fit_partial {α : Type} (k : Kind) (m : Nat → α) (t : List (In α))
    (g : All Good k (World.start m) t) (p : All Peer k (World.start m) t) (c : All (Calm k) k (World.start m) t) :
    let w := (World.start m).run k t
    (w.granted - w.returned - w.sent.length) + (w.sent.length - w.got.length) ≤ w.total := by
  obtain ⟨f, b, a, o, h⟩ := inv_run t (inv_start k m) g p c
  intro w
  have h1 : f ≤ w.got.length ∧ w.got.length ≤ b ∧ b ≤ a ∧ a ≤ b + 1 := h.ordered
  have h2 : w.granted + _ + _ + o = w.total + f + w.returned := h.room
  have h3 : w.sent.length + w.returned ≤ w.granted := h.allowed
  have h4 : w.sent.length = _ := h.came
  omega

/-- C78: a flit is software's three cycles after it was sent. -/
theorem seen_soon_partial {α : Type} (k : Kind) (m : Nat → α) (t u : List (In α)) (hu : u.length = 3)
    (g : All Good k (World.start m) t) (p : All Peer k (World.start m) t) (c : All (Calm k) k (World.start m) t)
    (g2 : All Good k ((World.start m).run k t) u) (p2 : All Peer k ((World.start m).run k t) u)
    (c2 : All (Calm k) k ((World.start m).run k t) u) (j : Nat) :
    let w := (World.start m).run k t
    (w.run k u).got.length ≤ j → j < w.sent.length → (w.run k u).s.own (j % 15) = true := by
  obtain ⟨f, b, a, o, h⟩ := inv_run t (inv_start k m) g p c
  generalize (World.start m).run k t = w at *
  intro w' hj1 hj2
  subst w'
  match u, hu with
  | [i1, i2, i3], _ =>
    have c1 := h.came
    have e1 := inv_next h g2.1 p2.1 c2.1
    have e2 := inv_next e1 g2.2.1 p2.2.1 c2.2.1
    have e3 := inv_next e2 g2.2.2.1 p2.2.2.1 c2.2.2.1
    have hk : j % 15 < 15 := Nat.mod_lt _ (by omega)
    have s1 : (w.next k i1).s.second = w.s.first := second_first c2.1
    rw [s1] at e3
    have hg : (World.next k (World.next k w i1) i2).got.length ≤ j := by
      refine Nat.le_trans ?_ hj1
      exact e3.ordered.1
    have o3 := e3.ordered
    have r3 := e3.room
    have a3 := e3.allowed
    have t3 := e3.total
    have m3 := e3.came
    refine (e3.own _ hk).2 ?_
    generalize (World.next k (World.next k w i1) i2).got.length = q at *
    unfold Seg
    have : j < a + (if w.s.second.isSome then 1 else 0) + (if w.s.first.isSome then 1 else 0) := by omega
    omega

/-- A cycle in which software does nothing and the link is in RUN. -/
def Idle {α : Type} (i : In α) : Prop :=
  i.wr = false ∧ i.refill = none ∧ i.run = true ∧ i.lp = false ∧ i.rtn = false

/-- The cycles until every credit is out. -/
def need {α : Type} (s : Regs α) : Nat := if s.left = 0 then (if s.give then 1 else 0) else s.left + 1

theorem takes_idle {α : Type} {w : World α} {i : In α} (q : Idle i) : takes w i = [] := by
  unfold takes; rw [q.1]

theorem idle_run {α : Type} {k : Kind} (u : List (In α)) {w : World α} {f b a o : Nat} (h : Inv k w f b a o)
    (g : All Good k w u) (p : All Peer k w u) (c : All (Calm k) k w u) (q : ∀ i ∈ u, Idle i)
    (hf : f = w.got.length) (hl : w.s.lpd = false) (hn : need w.s ≤ u.length) :
    (w.run k u).granted + o = (w.run k u).total + (w.run k u).got.length + (w.run k u).returned := by
  induction u generalizing w f b a o with
  | nil =>
    have h2 := h.room
    have : need w.s = 0 := by simpa using hn
    unfold need at this
    split at this
    · rename_i e
      cases hg : w.s.give with
      | true => rw [hg] at this; simp at this
      | false =>
        rw [hg] at h2
        show w.granted + o = w.total + w.got.length + w.returned
        simp at h2
        omega
    · omega
  | cons i u ih =>
    have qi := q i (by simp)
    obtain ⟨q1, q2, q3, q4, q5⟩ := qi
    have hi := inv_next h g.1 p.1 c.1
    have eo : owedNext w i o = o := by simp [owedNext, hl, q5]
    rw [eo] at hi
    refine ih hi g.2 p.2 c.2 (fun j hj => q j (by simp [hj])) ?_ q4 ?_
    · show _ = (w.got ++ takes w i).length
      rw [takes_idle ⟨q1, q2, q3, q4, q5⟩, List.append_nil]
    · have na : (List.range 15).any (pulse w.s) = false := by
        rw [seg_any _ _ _ h.ordered.1 h.fresh, hf]; simp
      have lv : leftNext k w.s i = if w.s.left ≠ 0 then (w.s.left - 1, true) else (w.s.left, false) := by
        simp [leftNext, q2, na, hl, q3]
      have l1 : (w.next k i).s.left = (leftNext k w.s i).1 := rfl
      have l2 : (w.next k i).s.give = (leftNext k w.s i).2 := rfl
      unfold need at hn ⊢
      rw [l1, l2, lv]
      simp only [List.length_cons] at hn
      by_cases e : w.s.left = 0
      · simp [e]
      · rw [if_pos e]
        rw [if_neg e] at hn
        dsimp only
        split <;> simp <;> omega

theorem need_le {α : Type} {k : Kind} {w : World α} {f b a o : Nat} (h : Inv k w f b a o) : need w.s ≤ 16 := by
  have h1 := h.ordered
  have h2 := h.room
  have h3 := h.allowed
  have h4 := h.came
  have h5 := h.total
  unfold need
  split
  · split <;> omega
  · omega

/-- C78: seventeen cycles of RUN after the last place was given back, the other
side got a credit for every place, as long as it gave none back. -/
theorem granted_soon_partial {α : Type} (k : Kind) (m : Nat → α) (t u : List (In α)) (hu : 17 ≤ u.length)
    (g : All Good k (World.start m) t) (p : All Peer k (World.start m) t) (c : All (Calm k) k (World.start m) t)
    (g2 : All Good k ((World.start m).run k t) u) (p2 : All Peer k ((World.start m).run k t) u)
    (c2 : All (Calm k) k ((World.start m).run k t) u) (q : ∀ i ∈ u, Idle i) :
    let w := ((World.start m).run k t).run k u
    w.returned = 0 → w.granted = w.total + w.got.length := by
  obtain ⟨f, b, a, o, h⟩ := inv_run t (inv_start k m) g p c
  generalize (World.start m).run k t = w at *
  intro w' hr
  subst w'
  match u, hu with
  | i :: u, hu =>
    have hi := inv_next h g2.1 p2.1 c2.1
    have qi := q i (by simp)
    have e := idle_run u hi g2.2 p2.2 c2.2 (fun j hj => q j (by simp [hj]))
      (by show _ = (_ ++ takes _ i).length; rw [takes_idle qi, List.append_nil]) qi.2.2.2.1
      (Nat.le_trans (need_le hi) (by simpa using hu))
    have mono : ∀ (u : List (In α)) (w : World α), w.returned ≤ (w.run k u).returned := by
      intro u
      induction u with
      | nil => intro w; exact Nat.le_refl _
      | cons i u ih =>
        intro w
        refine Nat.le_trans ?_ (ih _)
        show _ ≤ (if i.rtn then w.returned + 1 else w.returned)
        split <;> omega
    have hz := mono u (w.next k i)
    have ho := hi.owed.1
    rw [World.run] at hr ⊢
    omega

/-- C78: low power, CXS: when it ends, with every flit taken and no credit on
its way, the credits given back go out again, within sixteen cycles of RUN. -/
theorem granted_again_partial {α : Type} (m : Nat → α) (t u : List (In α)) (i : In α) (hu : 16 ≤ u.length)
    (g : All Good .cxs (World.start m) t) (p : All Peer .cxs (World.start m) t)
    (c : All (Calm .cxs) .cxs (World.start m) t)
    (g2 : All Good .cxs ((World.start m).run .cxs t) (i :: u)) (p2 : All Peer .cxs ((World.start m).run .cxs t) (i :: u))
    (c2 : All (Calm .cxs) .cxs ((World.start m).run .cxs t) (i :: u))
    (e : ends ((World.start m).run .cxs t).s i) (hb : ((World.start m).run .cxs t).s.back = false)
    (qi : i.wr = false ∧ i.refill = none ∧ i.rtn = false) (q : ∀ j ∈ u, Idle j) :
    let w := ((World.start m).run .cxs t).run .cxs (i :: u)
    w.granted = w.total + w.got.length + w.returned := by
  obtain ⟨f, b, a, o, h⟩ := inv_run t (inv_start .cxs m) g p c
  generalize (World.start m).run .cxs t = w at *
  have hi := inv_next h g2.1 p2.1 c2.1
  have eo : owedNext w i o = 0 := by
    simp [owedNext, e.1, e.2, qi, hb]
  rw [eo] at hi
  exact idle_run u hi g2.2 p2.2 c2.2 q
    (by
      show _ = (_ ++ takes _ i).length
      rw [show takes w i = [] by unfold takes; rw [qi.1], List.append_nil])
    e.2 (Nat.le_trans (need_le hi) hu)

/-- C78: three cycles without a write of a register after a place was given
back, its bit in the flip register is clear, so it can be given back again. -/
theorem flip_clears {α : Type} (k : Kind) (s : Regs α) (i i1 i2 i3 : In α) (f : Nat → Bool) (j : Nat)
    (hi : i.wr = true ∧ i.flip = some f) (hf : f j = true) (ho : s.own j = true) (hs : s.flip j = false)
    (h1 : i1.wr = false) (h2 : i2.wr = false) (h3 : i3.wr = false) :
    (step k (step k (step k (step k s i) i1) i2) i3).flip j = false ∧
      (step k (step k (step k s i) i1) i2).own j = (step k (step k s i) i1).upd j ∧
      (step k (step k s i) i1).own j = false := by
  simp only [step, flipNext, clearNext, ownNext, pulse, hi, hf, ho, hs, h1, h2, h3]
  cases s.clear j <;> simp

/-- C78: so it is, two cycles without a write later, when it is written for a
place software does not own. -/
theorem flip_clears_unowned {α : Type} (k : Kind) (s : Regs α) (i1 i2 : In α) (j : Nat) (ho : s.own j = false)
    (h1 : i1.wr = false) (h2 : i2.wr = false) : (step k (step k s i1) i2).flip j = false := by
  simp only [step, flipNext, clearNext, h1, h2, ho]
  cases s.clear j <;> cases s.flip j <;> simp

/-- C78: a credit is granted only in the cycle after one in which the link was
in RUN. -/
theorem grants_in_run {α : Type} (k : Kind) (s : Regs α) (i : In α) (h : grants (step k s i) = true) :
    i.run = true := by
  have g : (leftNext k s i).2 = true := by
    unfold grants step at h
    simp only [Bool.and_eq_true] at h
    exact h.2
  unfold leftNext at g
  cases hr : i.refill with
  | some r => rw [hr] at g; cases g
  | none =>
    rw [hr] at g
    dsimp only at g
    split at g
    · cases g
    · split at g
      · cases g
      · split at g
        · rename_i e; simp only [Bool.and_eq_true] at e; exact e.2
        · cases g

end Verif.RtlRx
