import Verif.RtlTxn.Soon

/-! How the AXI RTL slave bridge takes a request: what holds. -/

namespace Verif.RtlTxn

theorem run_inv {α : Type} (t : List (In α)) : ∀ w : World α, Inv w → Told w → AllProper w t → Inv (w.run t) ∧ Told (w.run t) := by
  induction t with
  | nil => intro w v d _; exact ⟨v, d⟩
  | cons i t ih => intro w v d p; exact ih _ (inv_step v p.1) (told_step v d p.1) p.2

theorem reach {α : Type} (t : List (In α)) (p : AllProper (World.start : World α) t) :
    Inv (World.start.run t) ∧ Told (World.start.run t) := run_inv t _ inv_start told_start p

/-- C82: a descriptor is used once for every time software gives it: the
requests accepted under it are as many as the times it was given, or one less
while it waits for a request. -/
theorem one_each_partial {α : Type} (t : List (In α)) (p : AllProper (World.start : World α) t) (j : Nat) (hj : j < 16) :
    let w := (World.start : World α).run t
    w.takenOf j ≤ w.givenOf j ∧ w.givenOf j ≤ w.takenOf j + 1 := by
  obtain ⟨v, _⟩ := reach t p
  have h1 := v.bal j hj
  have h2 := v.one j hj
  dsimp only
  omega

/-- C82: a request is accepted only under one of the 16 descriptors, which was
given and waited for a request. -/
theorem accepted_under_given_partial {α : Type} (t : List (In α)) (i : In α) (p : AllProper (World.start : World α) t) (read : Bool)
    (a : Taken α) :
    let w := (World.start : World α).run t
    a ∈ (if read then accepts true w.s.r w.r i.r else accepts false w.s.w w.w i.w) →
      a.idx < 16 ∧ w.givenOf a.idx = w.takenOf a.idx + 1 := by
  obtain ⟨v, d⟩ := reach t p
  generalize World.start.run t = w at v d ⊢
  dsimp only
  intro ha
  have key : ∀ (s : Side) (o : Bool) (b : Book α) (c : Chan α) (k : Bool), ok s o = true → a ∈ accepts k s b c →
      held s w.s.q.last = some a.idx := by
    intro s o b c k h hm
    unfold accepts at hm
    split at hm
    · split at hm
      · rename_i hr
        have : a = _ := List.mem_singleton.mp hm
        rw [this]
        exact held_fill h ((ready_iff h).mp hr)
      · cases hm
    · cases hm
  have fin : a.idx < 16 → 1 ≤ stock w.s a.idx → a.idx < 16 ∧ w.givenOf a.idx = w.takenOf a.idx + 1 := by
    intro h1 h2
    have := v.bal _ h1
    have := v.one _ h1
    exact ⟨h1, by omega⟩
  cases read with
  | true =>
    have h := key _ _ _ _ _ v.okR ha
    exact fin (v.rlt _ h) (held_r h)
  | false =>
    have h := key _ _ _ _ _ v.okW ha
    exact fin (v.wlt _ h) (held_w h)

/-- C82: what software reads: a descriptor which is not given again holds the
last request accepted under it, of its channel, with its place in the data
RAM; whatever else was accepted before, at the same time or after. -/
theorem descriptor_tells_partial {α : Type} (t : List (In α)) (p : AllProper (World.start : World α) t) (j : Nat) (hj : j < 16) (a : Taken α) :
    let w := (World.start : World α).run t
    w.lastOf j = some a → w.givenOf j = w.takenOf j → w.s.desc j = some a.fields := by
  obtain ⟨v, d⟩ := reach t p
  dsimp only
  intro hl he
  have h1 := v.bal j hj
  exact d.last j hj (by omega) a hl

/-- C82: it does so from the cycle in which the request is accepted on. -/
theorem descriptor_tells_at_once_partial {α : Type} (t : List (In α)) (i : In α) (p : AllProper (World.start : World α) t)
    (q : Proper (World.start.run t) i) (read : Bool) (a : Taken α) :
    let w := (World.start : World α).run t
    a ∈ (if read then accepts true w.s.r w.r i.r else accepts false w.s.w w.w i.w) →
      (w.next i).s.desc a.idx = some a.fields := by
  intro w ha
  obtain ⟨hj, hg⟩ := accepted_under_given_partial t i p read a ha
  obtain ⟨v, d⟩ := reach t p
  have d' := told_step v d q
  have v' := inv_step v q
  change Told (w.next i) at d'
  have hs := stock_next v i a.idx hj
  have hb := v.bal a.idx hj
  have ho := v.one a.idx hj
  have hc : ∀ (s : Side) (o : Bool) (b : Book α) (c : Chan α) (k : Bool), ok s o = true → a ∈ accepts k s b c →
      (s.inf = .fill ∧ c.req.isSome = true ∧ s.cur = a.idx) ∧ (accepts k s b c).find? (fun x => x.idx = a.idx) = some a := by
    intro s o b c k h hm
    have hp := List.countP_pos_iff (p := fun x : Taken α => decide (x.idx = a.idx)) |>.mpr ⟨a, hm, by simp⟩
    rw [accept_count k b h] at hp
    refine ⟨by split at hp <;> first | assumption | omega, ?_⟩
    unfold accepts at hm ⊢
    split at hm
    · split at hm
      · rename_i hx hr
        have e : a = _ := List.mem_singleton.mp hm
        rw [if_pos hr, e]; simp
      · cases hm
    · cases hm
  have hn : freeupNext (World.start.run t).s i a.idx ≠ true := by
    intro hf
    have := q.give _ (mem_gives hj hf)
    change (World.start.run t).givenOf a.idx = _ + 1 at hg
    omega
  rw [if_neg hn] at hs
  change (World.start.run t).givenOf a.idx = (World.start.run t).takenOf a.idx + 1 at hg
  cases read with
  | true =>
    obtain ⟨h1, h2⟩ := hc _ _ _ _ _ v.okR ha
    rw [if_pos h1] at hs
    refine d'.last a.idx hj (by change stock (step (World.start.run t).s i) _ = 0; omega) a ?_
    change (accepts true _ _ _ ++ accepts false _ _ _ ++ _).find? _ = _
    rw [List.find?_append, List.find?_append, h2]; rfl
  | false =>
    obtain ⟨h1, h2⟩ := hc _ _ _ _ _ v.okW ha
    have hr : ¬((World.start.run t).s.r.inf = .fill ∧ i.r.req.isSome = true ∧ (World.start.run t).s.r.cur = a.idx) := by
      intro h
      rw [if_pos h, if_pos h1] at hs
      omega
    rw [if_pos h1, if_neg hr] at hs
    refine d'.last a.idx hj (by change stock (step (World.start.run t).s i) _ = 0; omega) a ?_
    change (accepts true _ _ _ ++ accepts false _ _ _ ++ _).find? _ = _
    rw [List.find?_append, List.find?_append, accepts_none true _ v.okR _ hr, h2]; rfl

theorem run_append {α : Type} (a b : List (In α)) : ∀ w : World α, w.run (a ++ b) = (w.run a).run b := by
  induction a with
  | nil => intro w; rfl
  | cons i a ih => intro w; exact ih _

theorem allProper_append {α : Type} (a b : List (In α)) : ∀ w : World α, AllProper w (a ++ b) → AllProper w a ∧ AllProper (w.run a) b := by
  induction a with
  | nil => intro w h; exact ⟨trivial, h⟩
  | cons i a ih => intro w h; exact ⟨⟨h.1, (ih _ h.2).1⟩, (ih _ h.2).2⟩

/-- A channel without a request does not take part. -/
theorem quiet_side {s : Side} {o : Bool} (h : ok s o = true) (hi : s.inf = .idle ∨ s.inf = .done) (d : Option Nat) :
    s.fifo = false ∧ s.req = false ∧ held s d = none := by
  obtain ⟨inf, v, rd, cur, ff, rq, ffo, al, got, av, idx, off⟩ := s
  simp only at hi
  rcases hi with e | e <;> subst e <;> simp [ok, rest] at h <;> simp [held, h]

theorem quiet_inf {s : Side} {α : Type} {b : Book α} (h : s.inf = .wait ∨ s.inf = .fill → b.hold.isSome = true) (hb : b.hold = none) :
    s.inf = .idle ∨ s.inf = .done := by
  rw [hb] at h
  cases hi : s.inf
  · exact .inl rfl
  · exact absurd (h (.inl hi)) Bool.false_ne_true
  · exact absurd (h (.inr hi)) Bool.false_ne_true
  · exact .inr rfl

/-- One cycle of a channel which is alone. -/
theorem alone_step {α : Type} {w : World α} (v : Inv w) (d : Told w) (k : Bool) (i : In α) (p : Proper w i) (x : α)
    (hb : (w.book !k).hold = none) (hx : (i.chan k).req = some x) (hn : (i.chan !k).req = none)
    (ha : Avail w.s ∨ rank (w.side k) w.s ≤ 2) :
    ((w.next i).book !k).hold = none ∧
      (((w.side k).inf = .fill ∧ ∃ a, a.read = k ∧ a.req = x ∧ (w.next i).taken = a :: w.taken) ∨
        ((w.next i).taken = w.taken ∧ (Avail (w.next i).s ∨ rank ((w.next i).side k) (w.next i).s ≤ 2) ∧
          (rank ((w.next i).side k) (w.next i).s < rank (w.side k) w.s ∨ rank ((w.next i).side k) (w.next i).s = 0))) := by
  cases k with
  | true =>
    have hx : i.r.req = some x := hx
    have hn : i.w.req = none := hn
    have hb : w.w.hold = none := hb
    have q := quiet_side v.okW (quiet_inf d.holdW hb) w.s.q.last
    have e1 : accepts false w.s.w w.w i.w = [] := by unfold accepts; rw [hn]
    refine ⟨?_, ?_⟩
    · change (if w.s.w.ready = true then none else i.w.req) = none
      rw [hn]; split <;> rfl
    · by_cases hf : w.s.r.inf = .fill
      · refine .inl ⟨hf, { read := true, idx := w.s.r.cur, off := w.r.off, req := x }, rfl, rfl, ?_⟩
        · change accepts true w.s.r w.r i.r ++ accepts false w.s.w w.w i.w ++ w.taken = _
          rw [e1]; unfold accepts; rw [hx]; simp [(ready_iff v.okR).mpr hf]
      · have hr : ¬w.s.r.ready = true := fun h => hf ((ready_iff v.okR).mp h)
        refine .inr ⟨?_, ?_⟩
        · change accepts true w.s.r w.r i.r ++ accepts false w.s.w w.w i.w ++ w.taken = _
          rw [e1]; unfold accepts; rw [hx]; simp [hr]
        · refine rank_next v i v.okR (by rw [v.rden, q.1]; exact Bool.or_false _) ?_ (by rw [hx]; rfl) ha hf
          unfold pick
          rw [v.rden, q.1, q.2.1]
          cases w.s.r.fifo <;> cases w.s.q.items.isEmpty <;> cases w.s.r.req <;> rfl
  | false =>
    have hx : i.w.req = some x := hx
    have hn : i.r.req = none := hn
    have hb : w.r.hold = none := hb
    have q := quiet_side v.okR (quiet_inf d.holdR hb) w.s.q.last
    have e1 : accepts true w.s.r w.r i.r = [] := by unfold accepts; rw [hn]
    refine ⟨?_, ?_⟩
    · change (if w.s.r.ready = true then none else i.r.req) = none
      rw [hn]; split <;> rfl
    · by_cases hf : w.s.w.inf = .fill
      · refine .inl ⟨hf, { read := false, idx := w.s.w.cur, off := w.w.off, req := x }, rfl, rfl, ?_⟩
        · change accepts true w.s.r w.r i.r ++ accepts false w.s.w w.w i.w ++ w.taken = _
          rw [e1]; unfold accepts; rw [hx]; simp [(ready_iff v.okW).mpr hf]
      · have hr : ¬w.s.w.ready = true := fun h => hf ((ready_iff v.okW).mp h)
        refine .inr ⟨?_, ?_⟩
        · change accepts true w.s.r w.r i.r ++ accepts false w.s.w w.w i.w ++ w.taken = _
          rw [e1]; unfold accepts; rw [hx]; simp [hr]
        · refine rank_next v i v.okW (by rw [v.rden, q.1]; rfl) ?_ (by rw [hx]; rfl) ha hf
          unfold pick
          rw [v.rden, q.1, q.2.1]
          cases w.s.w.fifo <;> cases w.s.q.items.isEmpty <;> cases w.s.w.req <;> rfl

theorem alone_run {α : Type} (k : Bool) (x : α) (u : List (In α)) : ∀ {w : World α}, Inv w → Told w → AllProper w u →
    (w.book !k).hold = none → (∀ i ∈ u, (i.chan k).req = some x ∧ (i.chan !k).req = none) →
    (Avail w.s ∨ rank (w.side k) w.s ≤ 2) →
    (∃ n ≤ u.length, ∃ a, a.read = k ∧ a.req = x ∧ (w.run (u.take n)).taken = a :: w.taken) ∨
      ((w.run u).taken = w.taken ∧ ((w.run u).book !k).hold = none ∧
        (Avail (w.run u).s ∨ rank ((w.run u).side k) (w.run u).s ≤ 2) ∧
        rank ((w.run u).side k) (w.run u).s ≤ rank (w.side k) w.s - u.length) := by
  induction u with
  | nil => intro w _ _ _ h _ ha; exact .inr ⟨rfl, h, ha, Nat.le_refl _⟩
  | cons i u ih =>
    intro w v d p hb hu ha
    obtain ⟨hx, hn⟩ := hu i List.mem_cons_self
    obtain ⟨h1, h2⟩ := alone_step v d k i p.1 x hb hx hn ha
    rcases h2 with ⟨_, a, a1, a2, a3⟩ | ⟨b1, b2, b3⟩
    · exact .inl ⟨1, by simp, a, a1, a2, a3⟩
    · rcases ih (inv_step v p.1) (told_step v d p.1) p.2 h1 (fun j hj => hu j (List.mem_cons_of_mem _ hj)) b2 with
        ⟨n, n1, a, a1, a2, a3⟩ | ⟨c1, c2, c3, c4⟩
      · refine .inl ⟨n + 1, by simpa using n1, a, a1, a2, ?_⟩
        rw [List.take_succ_cons, ← b1]
        exact a3
      · refine .inr ⟨by rw [← b1]; exact c1, c2, c3, ?_⟩
        rw [List.length_cons]
        change rank (((w.next i).run u).side k) ((w.next i).run u).s ≤ _
        omega

/-- A channel which has its descriptor and owes no address accepts within two
cycles. -/
theorem rank_zero {α : Type} {s : Side} {o : Bool} {g : Regs α} (h : ok s o = true) (hr : rank s g = 0) (ho : o = false) :
    s.alcValid = true ∨ s.inf = .fill := by
  subst ho
  obtain ⟨inf, v, rd, cur, ff, rq, ffo, al, got, av, idx, off⟩ := s
  cases inf
  · simp [rank] at hr
  · left
    cases ff <;> cases got <;> simp [ok, rank] at h hr ⊢ <;> simp_all
    all_goals (revert hr; cases al <;> cases ffo <;> simp <;> omega)
  · exact .inr rfl
  · simp [rank] at hr

/-- C82: a request does not wait for ever: on a channel which is alone, while
there is a descriptor which was given and not used, it is accepted within
twelve cycles, or two after the address allocator has answered. -/
theorem accepted_soon_partial {α : Type} (t u : List (In α)) (p : AllProper (World.start : World α) (t ++ u)) (k : Bool) (x : α)
    (hl : u.length = 12) (hu : ∀ i ∈ u, (i.chan k).req = some x ∧ (i.chan !k).req = none) :
    let w := (World.start : World α).run t
    (w.book !k).hold = none → (∃ j < 16, w.takenOf j < w.givenOf j) →
      ((w.run (u.take 10)).book k).owed = false →
      ∃ n ≤ 12, ∃ a, a.read = k ∧ a.req = x ∧ (w.run (u.take n)).taken = a :: w.taken := by
  obtain ⟨p1, p2⟩ := allProper_append t u _ p
  obtain ⟨v, d⟩ := reach t p1
  generalize World.start.run t = w at v d p2 ⊢
  dsimp only
  intro hb ⟨j, hj, hg⟩ ho
  have hs : 1 ≤ stock w.s j := by have := v.bal j hj; omega
  have key : ∀ s : Side, ∀ o, ok s o = true → held s w.s.q.last = some j → rank s w.s ≤ 2 := by
    intro s o h hh
    obtain ⟨inf, vv, rd, cur, ff, rq, ffo, al, got, av, idx, off⟩ := s
    cases inf
    · simp [ok, rest] at h; simp [held, h] at hh
    · cases ff
      · simp [ok, rest] at h; simp [held, h] at hh
      · cases got <;> cases al <;> simp [held] at hh <;> simp [rank]
    · simp [rank]
    · simp [ok, rest] at h; simp [held, h] at hh
  have ha : Avail w.s ∨ rank (w.side k) w.s ≤ 2 := by
    by_cases h1 : w.s.freeup j = true
    · exact .inl (.inr (.inr (.inr (lowest_some h1 hj))))
    by_cases h2 : w.s.req j = true
    · exact .inl (.inr (.inr (.inl (lowest_some h2 hj))))
    by_cases h3 : w.s.gvld = true
    · exact .inl (.inr (.inl h3))
    by_cases h4 : w.s.q.items = []
    · right
      have h3 : w.s.gvld = false := by simpa using h3
      unfold stock at hs
      rw [if_neg h1, if_neg h2, h3, h4] at hs
      cases k with
      | true =>
        rw [(quiet_side v.okW (quiet_inf d.holdW hb) w.s.q.last).2.2] at hs
        by_cases h5 : held w.s.r w.s.q.last = some j
        · exact key _ _ v.okR h5
        · simp [h5] at hs
      | false =>
        rw [(quiet_side v.okR (quiet_inf d.holdR hb) w.s.q.last).2.2] at hs
        by_cases h5 : held w.s.w w.s.q.last = some j
        · exact key _ _ v.okW h5
        · simp [h5] at hs
    · exact .inl (.inl h4)
  have e : u = u.take 10 ++ u.drop 10 := (List.take_append_drop 10 u).symm
  have l1 : (u.take 10).length = 10 := by rw [List.length_take]; omega
  have l2 : (u.drop 10).length = 2 := by rw [List.length_drop]; omega
  obtain ⟨q1, q2⟩ := allProper_append (u.take 10) (u.drop 10) w (by rw [← e]; exact p2)
  rcases alone_run k x (u.take 10) v d q1 hb (fun i hi => hu i (List.mem_of_mem_take hi)) ha with
    ⟨n, n1, a, a1, a2, a3⟩ | ⟨c1, c2, c3, c4⟩
  · refine ⟨n, by omega, a, a1, a2, ?_⟩
    rw [List.take_take, Nat.min_eq_left (by omega)] at a3
    exact a3
  · obtain ⟨v', d'⟩ := run_inv _ _ v d q1
    have r0 : rank ((w.run (u.take 10)).side k) (w.run (u.take 10)).s = 0 := by
      have := rank_le (w.side k) w.s
      omega
    have lift : ∀ n ≤ 2, (w.run (u.take 10)).run ((u.drop 10).take n) = w.run (u.take (10 + n)) := by
      intro n hn
      rw [← run_append]
      congr 1
      rw [List.take_add]
    generalize hw : w.run (u.take 10) = y at *
    have hc := rank_zero (s := y.side k) (o := (y.book k).owed) (g := y.s) (by cases k; exact v'.okW; exact v'.okR) r0 ho
    have hd : ∀ i ∈ u.drop 10, (i.chan k).req = some x ∧ (i.chan !k).req = none := fun i hi => hu i (List.mem_of_mem_drop hi)
    match hm : u.drop 10, l2 with
    | [i1, i2], _ =>
      rw [hm] at hd q2 lift
      obtain ⟨s1, s2⟩ := alone_step v' d' k i1 q2.1 x c2 (hd i1 (by simp)).1 (hd i1 (by simp)).2 c3
      rcases s2 with ⟨_, a, a1, a2, a3⟩ | ⟨b1, b2, b3⟩
      · refine ⟨11, by omega, a, a1, a2, ?_⟩
        rw [← lift 1 (by omega), ← c1]
        exact a3
      · have hav : (y.side k).alcValid = true := by
          rcases hc with h | h
          · exact h
          · exfalso
            have hx := (hd i1 (by simp)).1
            cases k with
            | true =>
              have hx : i1.r.req = some x := hx
              have := congrArg List.length b1
              change (accepts true y.s.r y.r i1.r ++ accepts false y.s.w y.w i1.w ++ y.taken).length = _ at this
              rw [List.length_append, List.length_append] at this
              unfold accepts at this
              rw [hx] at this
              simp [(ready_iff v'.okR).mpr h] at this
            | false =>
              have hx : i1.w.req = some x := hx
              have := congrArg List.length b1
              change (accepts true y.s.r y.r i1.r ++ accepts false y.s.w y.w i1.w ++ y.taken).length = _ at this
              rw [List.length_append, List.length_append] at this
              unfold accepts at this
              rw [hx] at this
              simp [(ready_iff v'.okW).mpr h] at this
        have hfill : ((y.next i1).side k).inf = .fill := by
          cases k with
          | true => exact (of_both (sel := decide (pick y.s = some true)) (d := y.s.q.last) v'.okR q2.1.r hav).1
          | false => exact (of_both (sel := decide (pick y.s = some false)) (d := y.s.q.last) v'.okW q2.1.w hav).1
        obtain ⟨_, s4⟩ := alone_step (inv_step v' q2.1) (told_step v' d' q2.1) k i2 q2.2.1 x s1 (hd i2 (by simp)).1 (hd i2 (by simp)).2 b2
        rcases s4 with ⟨_, a, a1, a2, a3⟩ | ⟨f1, f2, f3⟩
        · refine ⟨12, by omega, a, a1, a2, ?_⟩
          rw [← lift 2 (by omega), ← c1, ← b1]
          exact a3
        · exfalso
          have hx := (hd i2 (by simp)).1
          have v2 := inv_step v' q2.1
          have := congrArg List.length f1
          change (accepts true (y.next i1).s.r (y.next i1).r i2.r ++ accepts false (y.next i1).s.w (y.next i1).w i2.w ++ (y.next i1).taken).length = _ at this
          rw [List.length_append, List.length_append] at this
          unfold accepts at this
          cases k with
          | true =>
            have hx : i2.r.req = some x := hx
            rw [hx] at this
            simp [(ready_iff v2.okR).mpr hfill] at this
          | false =>
            have hx : i2.w.req = some x := hx
            rw [hx] at this
            simp [(ready_iff v2.okW).mpr hfill] at this

end Verif.RtlTxn
