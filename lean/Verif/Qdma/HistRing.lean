import Verif.Qdma.Hist

/-! # C49: the history of an interrupt ring -/

namespace Verif.Qdma

/-! ### Helpers -/

/-- Nothing of ring `r` moved. -/
structure Still (r : Nat) (s s' : S) : Prop where
  log : entriesOf r s'.log = entriesOf r s.log
  slot : s'.slot r = s.slot r
  ctx : s'.ctx r intSel = s.ctx r intSel

/-- One entry was written to ring `r`. -/
structure Wrote (v : Ver) (r : Nat) (s s' : S) : Prop where
  log : ∃ e, entriesOf r s'.log = entriesOf r s.log ++
      [((icBaddr v (s.ctx r intSel) * 4096 + 8 * s.slot r) % 2 ^ 64, e)] ∧
    e.toNat / 2 ^ 32 % 2 = icColor v (s.ctx r intSel) ∧ e.toNat / 2 ^ 63 % 2 = icColor v (s.ctx r intSel)
  slot : s'.slot r = if s.slot r + 1 = 512 * (1 + icPage v (s.ctx r intSel)) then 0 else s.slot r + 1
  color : icColor v (s'.ctx r intSel) =
    if s.slot r + 1 = 512 * (1 + icPage v (s.ctx r intSel)) then 1 - icColor v (s.ctx r intSel)
    else icColor v (s.ctx r intSel)
  baddr : icBaddr v (s'.ctx r intSel) = icBaddr v (s.ctx r intSel)
  page : icPage v (s'.ctx r intSel) = icPage v (s.ctx r intSel)

theorem Still.refl (r : Nat) (s : S) : Still r s s := ⟨rfl, rfl, rfl⟩

theorem Still.trans {r : Nat} {a b c : S} (h : Still r a b) (k : Still r b c) : Still r a c :=
  ⟨k.log.trans h.log, k.slot.trans h.slot, k.ctx.trans h.ctx⟩

theorem Wrote.after {v : Ver} {r : Nat} {a b c : S} (h : Still r a b) (k : Wrote v r b c) : Wrote v r a c := by
  obtain ⟨k1, k2, k3, k4, k5⟩ := k
  rw [h.slot, h.ctx] at k1 k2 k3
  rw [h.ctx] at k4 k5
  rw [h.log] at k1
  exact ⟨k1, k2, k3, k4, k5⟩

theorem mkEntry_color (v : Ver) (junk : BitVec 64) (q : Nat) (h2c : Bool) (color cidx pidx : Nat)
    (hc : color < 2) :
    (mkEntry v junk q h2c color cidx pidx).toNat / 2 ^ 32 % 2 = color ∧
    (mkEntry v junk q h2c color cidx pidx).toNat / 2 ^ 63 % 2 = color := by
  have g : ∀ lo, (mkEntry v junk q h2c color cidx pidx).toNat / 2 ^ lo % 2 =
      getF (mkEntry v junk q h2c color cidx pidx) lo 1 := by
    intro lo; rw [getF_eq]
  have m5 : color % 2 ^ 1 = color := Nat.mod_eq_of_lt (by omega)
  rw [g, g]
  cases v <;> simp only [mkEntry]
  · rw [getF_setF_disj _ 0 _ _ 32 _ (by decide) (by decide),
      getF_setF_disj _ 16 _ _ 32 _ (by decide) (by decide), getF_setF_same _ 32 _ _ (by decide), m5,
      getF_setF_disj _ 0 _ _ _ _ (by decide) (by decide),
      getF_setF_disj _ 16 _ _ _ _ (by decide) (by decide),
      getF_setF_disj _ 32 _ _ _ _ (by decide) (by decide),
      getF_setF_disj _ 33 _ _ _ _ (by decide) (by decide),
      getF_setF_disj _ 35 _ _ _ _ (by decide) (by decide),
      getF_setF_same _ _ _ _ (by decide), m5]
    exact ⟨rfl, rfl⟩
  · rw [getF_setF_disj _ 0 _ _ 32 _ (by decide) (by decide),
      getF_setF_disj _ 16 _ _ 32 _ (by decide) (by decide), getF_setF_same _ 32 _ _ (by decide), m5,
      getF_setF_disj _ 0 _ _ _ _ (by decide) (by decide),
      getF_setF_disj _ 16 _ _ _ _ (by decide) (by decide),
      getF_setF_disj _ 32 _ _ _ _ (by decide) (by decide),
      getF_setF_disj _ 33 _ _ _ _ (by decide) (by decide),
      getF_setF_disj _ 35 _ _ _ _ (by decide) (by decide),
      getF_setF_same _ _ _ _ (by decide), m5]
    exact ⟨rfl, rfl⟩

theorem notify_still (r i : Nat) (s s' : S) (h : notify i s = .ok s') : Still r s s' := by
  unfold notify at h
  split at h
  · injection h with h
    rw [← h]
    refine ⟨?_, rfl, rfl⟩
    show entriesOf r (s.log ++ [_]) = _
    rw [entriesOf_append]
    exact List.append_nil _
  · cases h

theorem flip_bit (c : Nat) (h : c < 2) : (if c != 0 then 0 else 1) = 1 - c := by
  match c, h with
  | 0, _ => rfl
  | 1, _ => rfl
  | k + 2, h => omega

theorem bit_toNat (c : Nat) (h : c < 2) : (c != 0).toNat = c := by
  match c, h with
  | 0, _ => rfl
  | 1, _ => rfl
  | k + 2, h => omega

theorem bit_not (c : Nat) (h : c < 2) : (1 - c != 0) = !(c != 0) := by
  match c, h with
  | 0, _ => rfl
  | 1, _ => rfl
  | k + 2, h => omega

theorem aggregate_ring (v : Ver) (env : Env) (q : Nat) (h2c : Bool) (p r : Nat) (s s' : S)
    (h : aggregate v env q h2c p s = .ok s') : Still r s s' ∨ Wrote v r s s' := by
  obtain ⟨r', s1, e, hr', hlt, hval, he, hw, hvec, hn⟩ := aggregate_inv v env q h2c p s s' h
  have hst := notify_still r _ _ _ hn
  obtain ⟨w1, w2, w3, w4, w5, w6, w7⟩ := writeEntry_inv _ _ _ _ _ _ hw
  obtain ⟨i1, i2, i3, i4, i5, i6⟩ := ic_setPidx v (s.ctx r' intSel) p
  rw [setCtx_same] at w3 w6 w7
  have hl : (s.setCtx r' intSel (setF (s.ctx r' intSel) (64 + icOff v) 12 p)).log = s.log := rfl
  have hsl : ∀ x, (s.setCtx r' intSel (setF (s.ctx r' intSel) (64 + icOff v) 12 p)).slot x = s.slot x :=
    fun _ => rfl
  rw [hl] at w3
  rw [hsl] at w3 w6 w7
  by_cases hrr : r = r'
  · subst hrr
    right
    refine ⟨⟨e, ?_, ?_⟩, ?_, ?_, ?_, ?_⟩
    · rw [hst.log, w3, entriesOf_append, i4]
      congr 1
      simp only [entriesOf, if_true]
      unfold w64
      rw [Nat.mod_add_mod]
    · rw [he]
      exact mkEntry_color _ _ _ _ _ _ _ (getF_lt _ _ _)
    · rw [hst.slot]
      split
      · rename_i hx; exact (w6 (by rw [i5]; omega)).1
      · rename_i hx; exact (w7 (by rw [i5]; omega)).1
    · rw [hst.ctx]
      have hcol : icColor v (s.ctx r intSel) < 2 := getF_lt _ _ _
      split
      · rename_i hx
        rw [(w6 (by rw [i5]; omega)).2]
        have := (ic_setColor v (setF (s.ctx r intSel) (64 + icOff v) 12 p)
          (if icColor v (setF (s.ctx r intSel) (64 + icOff v) 12 p) != 0 then 0 else 1)
          (by split <;> decide)).2.2.1
        rw [this, i3, flip_bit _ hcol]
      · rename_i hx; rw [(w7 (by rw [i5]; omega)).2, i3]
    · rw [hst.ctx]
      by_cases hx : s.slot r + 1 = 512 * (1 + icPage v (s.ctx r intSel))
      · rw [(w6 (by rw [i5]; omega)).2]
        rw [(ic_setColor v (setF (s.ctx r intSel) (64 + icOff v) 12 p)
          (if icColor v (setF (s.ctx r intSel) (64 + icOff v) 12 p) != 0 then 0 else 1)
          (by split <;> decide)).2.2.2.1, i4]
      · rw [(w7 (by rw [i5]; omega)).2, i4]
    · rw [hst.ctx]
      by_cases hx : s.slot r + 1 = 512 * (1 + icPage v (s.ctx r intSel))
      · rw [(w6 (by rw [i5]; omega)).2]
        rw [(ic_setColor v (setF (s.ctx r intSel) (64 + icOff v) 12 p)
          (if icColor v (setF (s.ctx r intSel) (64 + icOff v) 12 p) != 0 then 0 else 1)
          (by split <;> decide)).2.2.2.2, i5]
      · rw [(w7 (by rw [i5]; omega)).2, i5]
  · left
    refine Still.trans ⟨?_, ?_, ?_⟩ hst
    · rw [w3, entriesOf_append]
      simp only [entriesOf, if_neg (Ne.symm hrr), List.append_nil]
    · rw [w4 _ hrr]; rfl
    · rw [w5 _ _ fun x => hrr x.1]
      exact setCtx_ne _ _ _ _ _ _ fun x => hrr x.1

theorem signal_ring (v : Ver) (env : Env) (q : Nat) (h2c : Bool) (p r : Nat) (s s' : S)
    (h : signal v env q h2c p s = .ok s') : Still r s s' ∨ Wrote v r s s' := by
  unfold signal at h
  split at h
  · injection h with h; rw [← h]; exact Or.inl (Still.refl _ _)
  · split at h
    · exact aggregate_ring _ _ _ _ _ _ _ _ h
    · exact Or.inl (notify_still _ _ _ _ h)

theorem storeEmit_still (r : Nat) (s : S) (a : Nat) (d : List Byte) (e : Ev) (he : entriesOf r [e] = []) :
    Still r s ((s.storeHost a d).emit e) := by
  refine ⟨?_, rfl, rfl⟩
  show entriesOf r (s.log ++ [e]) = _
  rw [entriesOf_append, he, List.append_nil]

theorem writeStatus_still (env : Env) (q : Nat) (h2c : Bool) (p r : Nat) (s s' : S)
    (h : writeStatus env q h2c p s = .ok s') : Still r s s' := by
  unfold writeStatus at h
  split at h
  · cases h
  · split at h
    · injection h with h
      rw [← h]
      exact storeEmit_still r s _ _ _ rfl
    · cases h

theorem finish_ring (v : Ver) (env : Env) (q : Nat) (h2c : Bool) (p r : Nat) (s s' : S)
    (h : finish v env q h2c p s = .ok s') : Still r s s' ∨ Wrote v r s s' := by
  unfold finish at h
  split at h
  · split at h
    · rename_i s1 h1
      have k := writeStatus_still _ _ _ _ r _ _ h1
      rcases signal_ring _ _ _ _ _ r _ _ h with x | x
      · exact Or.inl (k.trans x)
      · exact Or.inr (x.after k)
    · cases h
  · exact signal_ring _ _ _ _ _ _ _ _ h

theorem run_ring (v : Ver) (env : Env) (q : Nat) (h2c : Bool) (r : Nat) (s s' : S)
    (h : run v env q h2c s = .ok s') : Still r s s' ∨ Wrote v r s s' := by
  obtain ⟨hq, p, hpe, hpn, hA, hB⟩ := run_inv v env q h2c s s' h
  by_cases e : s.cidx q h2c = p
  · rw [hA e]
    exact Or.inl ⟨rfl, rfl, setPidx_ne _ _ _ _ _ _ fun x => swSel_ne_int _ x.2.symm⟩
  · obtain ⟨is, m, k1, _⟩ := hB e
    have k : Still r s ((s.setPidx q h2c p).upd q h2c p m (s.log ++ is.map (.desc q h2c ·))) := by
      refine ⟨?_, rfl, ?_⟩
      · show entriesOf r (s.log ++ _) = _
        rw [entriesOf_append, entriesOf_map, List.append_nil]
      · rw [upd_ctx_ne _ _ _ _ _ _ _ _ fun x => hwSel_ne_int _ x.2.symm]
        exact setPidx_ne _ _ _ _ _ _ fun x => swSel_ne_int _ x.2.symm
    rcases finish_ring _ _ _ _ _ r _ _ k1 with x | x
    · exact Or.inl (k.trans x)
    · exact Or.inr (x.after k)

theorem step_ring (v : Ver) (s s' : S) (r : Nat) (o : Op) (h : step v s o = .ok s')
    (ht : ¬ Touches v r intSel o) : Still r s s' ∨ Wrote v r s s' := by
  cases o with
  | host m => injection h with h; rw [← h]; exact Or.inl ⟨rfl, rfl, rfl⟩
  | card m => injection h with h; rw [← h]; exact Or.inl ⟨rfl, rfl, rfl⟩
  | reset => injection h with h; rw [← h]; exact Or.inl ⟨rfl, rfl, rfl⟩
  | user g =>
    left
    simp only [step, user] at h
    split at h
    · cases h; exact ⟨rfl, rfl, rfl⟩
    · split at h
      · split at h
        · cases h; exact ⟨rfl, rfl, rfl⟩
        · cases h
      · split at h
        · cases h; exact ⟨rfl, rfl, rfl⟩
        · cases h
      · cases h; exact ⟨rfl, rfl, rfl⟩
  | cfg env g =>
    cases cfg_cases v env g s s' h with
    | quiet h =>
      rcases h with h | ⟨w, x, _, h⟩
      · rw [h]; exact Or.inl ⟨rfl, rfl, rfl⟩
      · rw [h]; exact Or.inl ⟨rfl, rfl, rfl⟩
    | bell q' h' p hb' hc ho hp hr =>
      have k : Still r s (s.setReg (pidxReg v h' q') (wordOf g.data)) := ⟨rfl, rfl, rfl⟩
      rcases run_ring _ _ _ _ r _ _ hr with x | x
      · exact Or.inl (k.trans x)
      · exact Or.inr (x.after k)
    | ctx s1 hb' hc h1 hs =>
      obtain ⟨_, _, _, k4, k5, k6⟩ := ctxCmd_frame _ _ _ h1
      rw [hs]
      refine Or.inl ⟨by show entriesOf r s1.log = _; rw [k4], k6 _ ?_, k5 _ _ ?_⟩
      · rintro ⟨e1, e2, e3⟩
        exact ht ⟨_, e3, by rw [hc, ← e1, ← e2]⟩
      · rintro ⟨e1, e2, e3⟩
        exact ht ⟨_, e3, by rw [hc, ← e1, ← e2]⟩

theorem ringEntry_succ (n i k : Nat) (b : Bool) (_hi : i < n) :
    ringEntry n (if i + 1 = n then 0 else i + 1) (if i + 1 = n then !b else b) k = ringEntry n i b (k + 1) := by
  unfold ringEntry
  by_cases h : i + 1 = n
  · rw [if_pos h, if_pos h, show i + (k + 1) = 0 + k + n by omega, Nat.add_mod_right,
      Nat.add_div_right _ (by omega)]
    congr 1
    generalize (0 + k) / n = x
    by_cases hx : x % 2 = 0
    · rw [if_pos hx, if_neg (by omega)]
    · rw [if_neg hx, if_pos (by omega), Bool.not_not]
  · rw [if_neg h, if_neg h, show i + 1 + k = i + (k + 1) by omega]

/-! ### The property -/

/-- What the `k`-th entry written to a ring must look like: its place and its
colour bits. -/
def EntryAt (baddr n i : Nat) (b : Bool) (k : Nat) (x : Nat × BitVec 64) : Prop :=
  x.1 = (baddr * 4096 + 8 * (ringEntry n i b k).1) % 2 ^ 64 ∧
  x.2.toNat / 2 ^ 32 % 2 = (ringEntry n i b k).2.toNat ∧
  x.2.toNat / 2 ^ 63 % 2 = (ringEntry n i b k).2.toNat

/-- **An interrupt ring over any history.**  As long as the ring's context is left
alone, the entries written to it by whichever queues use it go to consecutive slots
of a ring of `512 * (page_size + 1)` entries, and the colour flips exactly when the
ring wraps. -/
theorem irq_ring_history (v : Ver) (r : Nat) (os : List Op) :
    ∀ (s s' : S), hist v s os = .ok s' → (∀ o ∈ os, ¬ Touches v r intSel o) →
    s.slot r < 512 * (1 + icPage v (s.ctx r intSel)) →
    ∃ new, entriesOf r s'.log = entriesOf r s.log ++ new ∧
      ∀ k x, new[k]? = some x →
        EntryAt (icBaddr v (s.ctx r intSel)) (512 * (1 + icPage v (s.ctx r intSel))) (s.slot r)
          (icColor v (s.ctx r intSel) != 0) k x := by
  induction os with
  | nil =>
    intro s s' h _ _
    injection h with h
    subst h
    exact ⟨[], (List.append_nil _).symm, fun k x hx => by simp at hx⟩
  | cons o os ih =>
    intro s s' h ht hs
    simp only [hist] at h
    cases h1 : step v s o with
    | error e => rw [h1] at h; cases h
    | ok s1 =>
      rw [h1] at h
      simp only at h
      have ht1 : ∀ o ∈ os, ¬ Touches v r intSel o := fun o ho => ht o (List.mem_cons_of_mem _ ho)
      rcases step_ring v s s1 r o h1 (ht o (List.mem_cons_self ..)) with k | k
      · obtain ⟨new, n1, n2⟩ := ih s1 s' h ht1 (by rw [k.slot, k.ctx]; exact hs)
        rw [k.slot, k.ctx] at n2
        rw [k.log] at n1
        exact ⟨new, n1, n2⟩
      · obtain ⟨new, n1, n2⟩ := ih s1 s' h ht1 (by rw [k.slot, k.page]; split <;> omega)
        obtain ⟨e, e1, e2, e3⟩ := k.log
        rw [k.page, k.baddr] at n2
        rw [e1, List.append_assoc] at n1
        refine ⟨_, n1, ?_⟩
        have hcol : icColor v (s.ctx r intSel) < 2 := getF_lt _ _ _
        have hb : (icColor v (s.ctx r intSel) != 0).toNat = icColor v (s.ctx r intSel) := bit_toNat _ hcol
        have hnb : (icColor v (s1.ctx r intSel) != 0) =
            if s.slot r + 1 = 512 * (1 + icPage v (s.ctx r intSel)) then !(icColor v (s.ctx r intSel) != 0)
            else (icColor v (s.ctx r intSel) != 0) := by
          rw [k.color]
          split
          · exact bit_not _ hcol
          · rfl
        intro j x hx
        cases j with
        | zero =>
          simp only [List.singleton_append, List.getElem?_cons_zero, Option.some.injEq] at hx
          subst hx
          have : ringEntry (512 * (1 + icPage v (s.ctx r intSel))) (s.slot r)
              (icColor v (s.ctx r intSel) != 0) 0 = (s.slot r, icColor v (s.ctx r intSel) != 0) := by
            unfold ringEntry
            rw [Nat.add_zero, Nat.mod_eq_of_lt hs, Nat.div_eq_of_lt hs]
            rfl
          unfold EntryAt
          rw [this, hb]
          exact ⟨rfl, e2, e3⟩
        | succ j =>
          simp only [List.singleton_append, List.getElem?_cons_succ] at hx
          have := n2 j x hx
          unfold EntryAt at this ⊢
          rw [hnb, k.slot, ringEntry_succ _ _ _ _ hs] at this
          exact this

end Verif.Qdma
