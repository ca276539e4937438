import Verif.Qdma.Bell

/-!
# C49: QDMA queues, one doorbell

A driver posts descriptors by writing the producer index (`bell`).  For every
ring content, every pair of indices and both directions, the call returns with
exactly the posted descriptors executed, each once, in ring order, and tells the
driver once.
-/

namespace Verif.Qdma

/-- A queue in use: an existing one, consumer index inside the ring, descriptors
big enough to hold all fields, the ring (with its status slot) inside the address
space. -/
structure Ready (s : S) (q : Nat) (h2c : Bool) : Prop where
  queue : q < 2
  cidx : s.cidx q h2c < s.ringSize q h2c
  size : 32 ≤ s.descSize q h2c
  fits : s.base q h2c + s.descSize q h2c * (s.ringSize q h2c + 1) ≤ 2 ^ 64

/-! ### Helpers -/

theorem getF_eq {w : Nat} (e : BitVec w) (lo n : Nat) : getF e lo n = e.toNat / 2 ^ lo % 2 ^ n := by
  unfold getF
  rw [BitVec.extractLsb'_toNat, Nat.shiftRight_eq_div_pow]

theorem descAddr_eq (s : S) (q : Nat) (h2c : Bool) (n : Nat) (hs : 8 ≤ s.descSize q h2c)
    (hb : s.base q h2c + s.descSize q h2c * (n + 1) ≤ 2 ^ 64) :
    s.descAddr q h2c n = s.base q h2c + s.descSize q h2c * n ∧
      s.descAddr q h2c n + 4 * (s.descSize q h2c / 4) ≤ 2 ^ 64 := by
  rw [Nat.mul_add, Nat.mul_one] at hb
  have e : s.descAddr q h2c n = s.base q h2c + s.descSize q h2c * n := by
    unfold S.descAddr
    exact w64_of_lt (by omega)
  rw [e, descSize_mul]
  exact ⟨rfl, by omega⟩

theorem storeEmit (s : S) (a : Nat) (d : List Byte) (e : Ev) :
    ((s.storeHost a d).emit e).ctx = s.ctx ∧ ((s.storeHost a d).emit e).slot = s.slot ∧
    ((s.storeHost a d).emit e).card = s.card ∧ ((s.storeHost a d).emit e).host = s.host.store a d ∧
    ((s.storeHost a d).emit e).log = s.log ++ [e] := ⟨rfl, rfl, rfl, rfl, rfl⟩

theorem writeStatus_inv (env : Env) (q : Nat) (h2c : Bool) (p : Nat) (s s1 : S)
    (h : writeStatus env q h2c p s = .ok s1) (hc : s.cidx q h2c = p)
    (hs : 8 ≤ s.descSize q h2c)
    (hb : s.base q h2c + s.descSize q h2c * (s.ringSize q h2c + 1) ≤ 2 ^ 64) :
    s1.ctx = s.ctx ∧ s1.slot = s.slot ∧ s1.card = s.card ∧
      StatusWritten (s.base q h2c + s.descSize q h2c * s.ringSize q h2c) p s.host s1.host ∧
      s1.log = s.log ++ [.status q h2c] := by
  obtain ⟨ha, hf⟩ := descAddr_eq s q h2c (s.ringSize q h2c) hs hb
  unfold writeStatus at h
  cases hd : fetch env s.host (s.descSize q h2c / 4) (s.descAddr q h2c (s.ringSize q h2c)) with
  | error e => rw [hd] at h; cases h
  | ok d =>
    rw [hd] at h
    simp only at h
    have e := fetch_eq _ _ _ _ _ hf hd
    rw [descSize_mul] at e
    by_cases c : env.hostOk .write (s.descAddr q h2c (s.ringSize q h2c)) (s.descSize q h2c) = true
    · rw [if_pos c] at h
      injection h with h
      rw [e, hc, ha] at h
      rw [← h]
      obtain ⟨k1, k2, k3, k4, k5⟩ := storeEmit s (s.base q h2c + s.descSize q h2c * s.ringSize q h2c)
        (putStatus (s.host.range (s.base q h2c + s.descSize q h2c * s.ringSize q h2c)
          (s.descSize q h2c)) p p) (.status q h2c)
      refine ⟨k1, k2, k3, ?_, k5⟩
      rw [k4]
      exact store_status _ _ _ _ (Nat.le_trans (by decide) hs)
    · rw [if_neg c] at h; cases h

theorem finish_inv (v : Ver) (env : Env) (q : Nat) (h2c : Bool) (p : Nat) (s s' : S)
    (h : finish v env q h2c p s = .ok s') (hc : s.cidx q h2c = p)
    (hs : 8 ≤ s.descSize q h2c)
    (hb : s.base q h2c + s.descSize q h2c * (s.ringSize q h2c + 1) ≤ 2 ^ 64) :
    ∃ s1, signal v env q h2c p s1 = .ok s' ∧ s1.ctx = s.ctx ∧ s1.slot = s.slot ∧
      s1.card = s.card ∧
      (s.wbEn q h2c = true → StatusWritten (s.base q h2c + s.descSize q h2c * s.ringSize q h2c) p
        s.host s1.host ∧ s1.log = s.log ++ [.status q h2c]) ∧
      (s.wbEn q h2c = false → s1.host = s.host ∧ s1.log = s.log) := by
  unfold finish at h
  by_cases w : s.wbEn q h2c
  · rw [if_pos w] at h
    cases hw : writeStatus env q h2c p s with
    | error e => rw [hw] at h; cases h
    | ok s1 =>
      rw [hw] at h
      obtain ⟨g1, g2, g3, g4, g5⟩ := writeStatus_inv env q h2c p s s1 hw hc hs hb
      exact ⟨s1, h, g1, g2, g3, fun _ => ⟨g4, g5⟩, fun x => by rw [w] at x; cases x⟩
  · rw [if_neg w] at h
    exact ⟨s, h, rfl, rfl, rfl, fun x => absurd x w, fun _ => ⟨rfl, rfl⟩⟩

theorem sw_fields_of (s t : S) (q : Nat) (h2c : Bool)
    (h : ∀ lo n, 16 ≤ lo → getF (t.ctx q (swSel h2c)) lo n = getF (s.ctx q (swSel h2c)) lo n) :
    t.irqArm q h2c = s.irqArm q h2c ∧ t.irqEn q h2c = s.irqEn q h2c ∧ t.wbEn q h2c = s.wbEn q h2c ∧
    t.base q h2c = s.base q h2c ∧ t.descSize q h2c = s.descSize q h2c ∧
    t.ringSize q h2c = s.ringSize q h2c := by
  unfold S.irqArm S.irqEn S.wbEn S.base S.descSize S.ringSize S.descCode S.ringCode
  simp only [h _ _ (by decide : 16 ≤ 16), h _ _ (by decide : 16 ≤ 44), h _ _ (by decide : 16 ≤ 48),
    h _ _ (by decide : 16 ≤ 52), h _ _ (by decide : 16 ≤ 53), h _ _ (by decide : 16 ≤ 64),
    h _ _ (by decide : 16 ≤ 96), and_self]

theorem vec_of (v : Ver) (s t : S) (q : Nat) (h2c : Bool)
    (h : ∀ lo n, 16 ≤ lo → getF (t.ctx q (swSel h2c)) lo n = getF (s.ctx q (swSel h2c)) lo n)
    (hv : t.ctx q vecSel = s.ctx q vecSel) :
    t.aggr v q h2c = s.aggr v q h2c ∧ t.vec v q h2c = s.vec v q h2c := by
  unfold S.aggr S.vec
  cases v with
  | cpm4 => simp only [hv, and_self]
  | cpm5 => simp only [h _ _ (by decide : 16 ≤ 139), h _ _ (by decide : 16 ≤ 128), and_self]

/-- Everything up to the interrupt. -/
theorem doorbell_core (v : Ver) (env : Env) (s s' : S) (q p : Nat) (h2c : Bool) (st : Status)
    (d : List Byte) (m : Mems) (hr : Ready s q h2c) (hp : p < s.ringSize q h2c)
    (hne : s.cidx q h2c ≠ p)
    (hx : execAll h2c (s.base q h2c) (s.descSize q h2c)
      (ringWalk (s.ringSize q h2c) (s.cidx q h2c) p) ⟨s.host, s.card⟩ = some m)
    (h : cfg v env (bell v q h2c p) s = .ok (s', st, d)) :
    st = .ok ∧ ∃ s1, signal v env q h2c p s1 = .ok s' ∧
      (∀ a b, ¬ (a = q ∧ (b = swSel h2c ∨ b = hwSel h2c)) → s1.ctx a b = s.ctx a b) ∧
      (∀ lo n, 16 ≤ lo → getF (s1.ctx q (swSel h2c)) lo n = getF (s.ctx q (swSel h2c)) lo n) ∧
      s1.cidx q h2c = p ∧ s1.slot = s.slot ∧ s1.card = m.card ∧
      (s.wbEn q h2c = true → StatusWritten (s.base q h2c + s.descSize q h2c * s.ringSize q h2c) p
        m.host s1.host ∧ s1.log = s.log ++ (ringWalk (s.ringSize q h2c) (s.cidx q h2c) p).map
          (.desc q h2c ·) ++ [.status q h2c]) ∧
      (s.wbEn q h2c = false → s1.host = m.host ∧ s1.log = s.log ++
        (ringWalk (s.ringSize q h2c) (s.cidx q h2c) p).map (.desc q h2c ·)) := by
  have hn := ringSize_le s q h2c
  have hq := hr.queue
  have hfits := hr.fits
  have hsz := hr.size
  rw [cfg_bell _ _ _ _ _ _ (by omega)] at h
  generalize hs0 : s.setReg (pidxReg v h2c q) (wordOf (leEnc 4 p)) = s0 at h
  have hctx : s0.ctx = s.ctx := by rw [← hs0]; rfl
  have hlog : s0.log = s.log := by rw [← hs0]; rfl
  have hhost : s0.host = s.host := by rw [← hs0]; rfl
  have hcard : s0.card = s.card := by rw [← hs0]; rfl
  have hslot : s0.slot = s.slot := by rw [← hs0]; rfl
  have hreg : (s0.regs (pidxReg v h2c q)).toNat % 65536 = p := by
    rw [← hs0, setReg_same, wordOf_leEnc]; omega
  cases hrun : run v env q h2c s0 with
  | error e => rw [hrun] at h; cases h
  | ok s2 =>
    rw [hrun] at h
    injection h with h
    obtain ⟨e1, e2⟩ := Prod.mk.inj h
    obtain ⟨e2, -⟩ := Prod.mk.inj e2
    subst e1
    refine ⟨e2.symm, ?_⟩
    obtain ⟨_, p', hp', hpn, _, hB⟩ := run_inv v env q h2c s0 s2 hrun
    rw [hreg] at hp'
    subst hp'
    have c0 : s0.cidx q h2c = s.cidx q h2c := by unfold S.cidx; rw [hctx]
    have r0 : s0.ringSize q h2c = s.ringSize q h2c := by unfold S.ringSize S.ringCode; rw [hctx]
    have d0 : s0.descSize q h2c = s.descSize q h2c := by unfold S.descSize S.descCode; rw [hctx]
    have b0 : s0.base q h2c = s.base q h2c := by unfold S.base; rw [hctx]
    rw [c0, r0, d0, b0, hlog, hhost, hcard] at hB
    obtain ⟨is, mm, k1, k2, k3⟩ := hB hne
    have his := k2 hr.cidx
    subst his
    have hm : s.descSize q h2c * (s.ringSize q h2c + 1) =
        s.descSize q h2c * s.ringSize q h2c + s.descSize q h2c := by rw [Nat.mul_add, Nat.mul_one]
    have := k3 hr.cidx (by omega) (by omega) m hx
    subst this
    have fsw : ∀ lo n, 16 ≤ lo → getF (((s0.setPidx q h2c p').upd q h2c p' mm (s.log ++
        (ringWalk (s.ringSize q h2c) (s.cidx q h2c) p').map (.desc q h2c ·))).ctx q (swSel h2c)) lo n =
        getF (s.ctx q (swSel h2c)) lo n := by
      intro lo n hlo
      rw [upd_sw, setPidx_sw _ _ _ _ _ _ hlo, hctx]
    obtain ⟨_, _, fw, fb, fd, fr⟩ := sw_fields_of s _ q h2c fsw
    have hci : ((s0.setPidx q h2c p').upd q h2c p' mm (s.log ++
        (ringWalk (s.ringSize q h2c) (s.cidx q h2c) p').map (.desc q h2c ·))).cidx q h2c = p' := by
      rw [upd_cidx, Nat.mod_eq_of_lt (by omega)]
    obtain ⟨s1, g1, g2, g3, g4, g5, g6⟩ := finish_inv v env q h2c p' _ s2 k1 hci
      (by rw [fd]; omega) (by rw [fb, fd, fr]; exact hfits)
    rw [fw, fb, fd, fr] at g5
    rw [fw] at g6
    refine ⟨s1, g1, ?_, ?_, ?_, ?_, g4, g5, g6⟩
    · intro a b hab
      rw [g2, upd_ctx_ne _ _ _ _ _ _ _ _ fun x => hab ⟨x.1, Or.inr x.2⟩,
        setPidx_ne _ _ _ _ _ _ fun x => hab ⟨x.1, Or.inl x.2⟩, hctx]
    · intro lo n hlo
      rw [g2]; exact fsw lo n hlo
    · unfold S.cidx at hci ⊢
      rw [g2]; exact hci
    · rw [g3]; exact hslot

/-! ### The property -/

/-- **Nothing posted.**  A doorbell that repeats the consumer index does nothing
but store the index: no memory access, no status, no interrupt. -/
theorem doorbell_nothing (v : Ver) (env : Env) (s s' : S) (q p : Nat) (h2c : Bool) (st : Status)
    (d : List Byte) (hq : q < 2) (hp : p < 65536) (he : s.cidx q h2c = p)
    (h : cfg v env (bell v q h2c p) s = .ok (s', st, d)) :
    st = .ok ∧ s'.host = s.host ∧ s'.card = s.card ∧ s'.log = s.log ∧ s'.cidx q h2c = p := by
  rw [cfg_bell _ _ _ _ _ _ (by omega)] at h
  generalize hs0 : s.setReg (pidxReg v h2c q) (wordOf (leEnc 4 p)) = s0 at h
  cases hrun : run v env q h2c s0 with
  | error e => rw [hrun] at h; cases h
  | ok s2 =>
    rw [hrun] at h
    injection h with h
    obtain ⟨e1, e2⟩ := Prod.mk.inj h
    obtain ⟨e2, -⟩ := Prod.mk.inj e2
    subst e1
    obtain ⟨_, p', hp', _, hA, _⟩ := run_inv v env q h2c s0 s2 hrun
    have hpp : p' = p := by
      rw [hp', ← hs0, setReg_same, wordOf_leEnc]; omega
    have := hA (by rw [hpp, ← he, ← hs0]; rfl)
    subst this
    subst hs0
    refine ⟨e2.symm, rfl, rfl, rfl, ?_⟩
    rw [setPidx_cidx]
    exact he

/-- **A polled queue.**  Without an armed interrupt: the posted descriptors, one
after the other in ring order, then the status descriptor if asked for, and
nothing else. -/
theorem doorbell_polled (v : Ver) (env : Env) (s s' : S) (q p : Nat) (h2c : Bool) (st : Status)
    (d : List Byte) (m : Mems) (hr : Ready s q h2c) (hp : p < s.ringSize q h2c)
    (hne : s.cidx q h2c ≠ p) (hirq : (s.irqArm q h2c && s.irqEn q h2c) = false)
    (hx : execAll h2c (s.base q h2c) (s.descSize q h2c)
      (ringWalk (s.ringSize q h2c) (s.cidx q h2c) p) ⟨s.host, s.card⟩ = some m)
    (h : cfg v env (bell v q h2c p) s = .ok (s', st, d)) :
    st = .ok ∧ s'.cidx q h2c = p ∧ s'.card = m.card ∧
    (s.wbEn q h2c = false → s'.host = m.host ∧
      s'.log = s.log ++ (ringWalk (s.ringSize q h2c) (s.cidx q h2c) p).map (.desc q h2c ·)) ∧
    (s.wbEn q h2c = true →
      StatusWritten (s.base q h2c + s.descSize q h2c * s.ringSize q h2c) p m.host s'.host ∧
      s'.log = s.log ++ (ringWalk (s.ringSize q h2c) (s.cidx q h2c) p).map (.desc q h2c ·) ++
        [.status q h2c]) := by
  obtain ⟨hst, s1, g1, g2, g3, g4, g5, g6, g7, g8⟩ := doorbell_core v env s s' q p h2c st d m hr hp hne hx h
  obtain ⟨fa, fe, _⟩ := sw_fields_of s s1 q h2c g3
  unfold signal at g1
  rw [fa, fe, if_pos (by revert hirq; cases s.irqArm q h2c <;> cases s.irqEn q h2c <;> decide)] at g1
  injection g1 with g1
  subst g1
  exact ⟨hst, g4, g6, g8, g7⟩

/-- **Direct interrupts.**  As for a polled queue, and then exactly one strobe of
the queue's vector, after data and status are in memory. -/
theorem doorbell_direct (v : Ver) (env : Env) (s s' : S) (q p : Nat) (h2c : Bool) (st : Status)
    (d : List Byte) (m : Mems) (hr : Ready s q h2c) (hp : p < s.ringSize q h2c)
    (hne : s.cidx q h2c ≠ p) (ha : s.irqArm q h2c = true) (he : s.irqEn q h2c = true)
    (hg : s.aggr v q h2c = false)
    (hx : execAll h2c (s.base q h2c) (s.descSize q h2c)
      (ringWalk (s.ringSize q h2c) (s.cidx q h2c) p) ⟨s.host, s.card⟩ = some m)
    (h : cfg v env (bell v q h2c p) s = .ok (s', st, d)) :
    st = .ok ∧ s'.cidx q h2c = p ∧ s'.card = m.card ∧
    (s.wbEn q h2c = false → s'.host = m.host ∧
      s'.log = s.log ++ (ringWalk (s.ringSize q h2c) (s.cidx q h2c) p).map (.desc q h2c ·) ++
        [.msix (s.vec v q h2c)]) ∧
    (s.wbEn q h2c = true →
      StatusWritten (s.base q h2c + s.descSize q h2c * s.ringSize q h2c) p m.host s'.host ∧
      s'.log = s.log ++ (ringWalk (s.ringSize q h2c) (s.cidx q h2c) p).map (.desc q h2c ·) ++
        [.status q h2c] ++ [.msix (s.vec v q h2c)]) := by
  obtain ⟨hst, s1, g1, g2, g3, g4, g5, g6, g7, g8⟩ := doorbell_core v env s s' q p h2c st d m hr hp hne hx h
  obtain ⟨fa, fe, _⟩ := sw_fields_of s s1 q h2c g3
  obtain ⟨fg, fv⟩ := vec_of v s s1 q h2c g3 (g2 _ _ fun x => by
    rcases x.2 with x | x
    · exact swSel_ne_vec _ x.symm
    · exact hwSel_ne_vec _ x.symm)
  unfold signal at g1
  rw [fa, fe, fg, fv, ha, he, hg] at g1
  simp only [Bool.not_true, Bool.or_self, Bool.false_eq_true, if_false] at g1
  unfold notify at g1
  split at g1
  · injection g1 with g1
    subst g1
    refine ⟨hst, g4, g6, ?_, ?_⟩
    · intro w
      exact ⟨(g8 w).1, by simp only [S.emit]; rw [(g8 w).2]⟩
    · intro w
      exact ⟨(g7 w).1, by simp only [S.emit]; rw [(g7 w).2]⟩
  · cases g1

theorem mkEntry_says (v : Ver) (junk : BitVec 64) (q : Nat) (h2c : Bool) (color cidx pidx : Nat)
    (hq : q < 2) (hc : color < 2) (hci : cidx < 65536) (hpi : pidx < 65536) :
    EntrySays (v == .cpm4) (mkEntry v junk q h2c color cidx pidx).toNat q h2c (color != 0) cidx pidx := by
  have hcol : (color != 0).toNat = color := by
    match color, hc with
    | 0, _ => rfl
    | 1, _ => rfl
  have m1 : q % 2 ^ 11 = q := Nat.mod_eq_of_lt (by omega)
  have m2 : q % 2 ^ 24 = q := Nat.mod_eq_of_lt (by omega)
  have m3 : cidx % 2 ^ 16 = cidx := Nat.mod_eq_of_lt hci
  have m4 : pidx % 2 ^ 16 = pidx := Nat.mod_eq_of_lt hpi
  have m5 : color % 2 ^ 1 = color := Nat.mod_eq_of_lt (by omega)
  have m6 : (if h2c then 0 else 1) % 2 ^ 1 = (!h2c).toNat := by cases h2c <;> rfl
  have m7 : 0 % 2 ^ 4 = 0 := rfl
  have m8 : 0 % 2 ^ 2 = 0 := rfl
  have g : ∀ lo n k, k = 2 ^ n → (mkEntry v junk q h2c color cidx pidx).toNat / 2 ^ lo % k =
      getF (mkEntry v junk q h2c color cidx pidx) lo n := by
    intro lo n k hk; rw [hk, getF_eq]
  have g0 := g 0 16 (2 ^ 16) rfl
  rw [Nat.pow_zero, Nat.div_one] at g0
  cases v with
  | cpm4 =>
    simp only [mkEntry] at g0 g
    refine ⟨?_, ?_, ?_, ?_, ?_, ?_, ?_, ?_⟩
    · simp only [mkEntry]
      rw [g0, getF_setF_same _ _ _ _ (by decide), m4]
    · simp only [mkEntry]
      rw [g 16 16 _ rfl, getF_setF_disj _ 0 _ _ _ _ (by decide) (by decide),
        getF_setF_same _ _ _ _ (by decide), m3]
    · simp only [mkEntry]
      rw [g 32 1 _ rfl, getF_setF_disj _ 0 _ _ _ _ (by decide) (by decide),
        getF_setF_disj _ 16 _ _ _ _ (by decide) (by decide),
        getF_setF_same _ _ _ _ (by decide), m5, hcol]
    · simp only [mkEntry]
      rw [g 63 1 _ rfl, getF_setF_disj _ 0 _ _ _ _ (by decide) (by decide),
        getF_setF_disj _ 16 _ _ _ _ (by decide) (by decide),
        getF_setF_disj _ 32 _ _ _ _ (by decide) (by decide),
        getF_setF_disj _ 33 _ _ _ _ (by decide) (by decide),
        getF_setF_disj _ 35 _ _ _ _ (by decide) (by decide),
        getF_setF_same _ _ _ _ (by decide), m5, hcol]
    · simp only [mkEntry]
      rw [g 33 2 _ rfl, getF_setF_disj _ 0 _ _ _ _ (by decide) (by decide),
        getF_setF_disj _ 16 _ _ _ _ (by decide) (by decide),
        getF_setF_disj _ 32 _ _ _ _ (by decide) (by decide),
        getF_setF_same _ _ _ _ (by decide)]
    · simp only [mkEntry]
      show _ % 16 = 0
      rw [g 35 4 _ rfl, getF_setF_disj _ 0 _ _ _ _ (by decide) (by decide),
        getF_setF_disj _ 16 _ _ _ _ (by decide) (by decide),
        getF_setF_disj _ 32 _ _ _ _ (by decide) (by decide),
        getF_setF_disj _ 33 _ _ _ _ (by decide) (by decide),
        getF_setF_same _ _ _ _ (by decide)]
    · simp only [mkEntry]
      show _ / 2 ^ 52 % 2 ^ 11 = q
      rw [g 52 11 _ rfl, getF_setF_disj _ 0 _ _ _ _ (by decide) (by decide),
        getF_setF_disj _ 16 _ _ _ _ (by decide) (by decide),
        getF_setF_disj _ 32 _ _ _ _ (by decide) (by decide),
        getF_setF_disj _ 33 _ _ _ _ (by decide) (by decide),
        getF_setF_disj _ 35 _ _ _ _ (by decide) (by decide),
        getF_setF_disj _ 63 _ _ _ _ (by decide) (by decide),
        getF_setF_disj _ 51 _ _ _ _ (by decide) (by decide),
        getF_setF_same _ _ _ _ (by decide), m1]
    · simp only [mkEntry]
      show _ / 2 ^ 51 % 2 = _
      rw [g 51 1 _ rfl, getF_setF_disj _ 0 _ _ _ _ (by decide) (by decide),
        getF_setF_disj _ 16 _ _ _ _ (by decide) (by decide),
        getF_setF_disj _ 32 _ _ _ _ (by decide) (by decide),
        getF_setF_disj _ 33 _ _ _ _ (by decide) (by decide),
        getF_setF_disj _ 35 _ _ _ _ (by decide) (by decide),
        getF_setF_disj _ 63 _ _ _ _ (by decide) (by decide),
        getF_setF_same _ _ _ _ (by decide), m6]
  | cpm5 =>
    simp only [mkEntry] at g0 g
    refine ⟨?_, ?_, ?_, ?_, ?_, ?_, ?_, ?_⟩
    · simp only [mkEntry]
      rw [g0, getF_setF_same _ _ _ _ (by decide), m4]
    · simp only [mkEntry]
      rw [g 16 16 _ rfl, getF_setF_disj _ 0 _ _ _ _ (by decide) (by decide),
        getF_setF_same _ _ _ _ (by decide), m3]
    · simp only [mkEntry]
      rw [g 32 1 _ rfl, getF_setF_disj _ 0 _ _ _ _ (by decide) (by decide),
        getF_setF_disj _ 16 _ _ _ _ (by decide) (by decide),
        getF_setF_same _ _ _ _ (by decide), m5, hcol]
    · simp only [mkEntry]
      rw [g 63 1 _ rfl, getF_setF_disj _ 0 _ _ _ _ (by decide) (by decide),
        getF_setF_disj _ 16 _ _ _ _ (by decide) (by decide),
        getF_setF_disj _ 32 _ _ _ _ (by decide) (by decide),
        getF_setF_disj _ 33 _ _ _ _ (by decide) (by decide),
        getF_setF_disj _ 35 _ _ _ _ (by decide) (by decide),
        getF_setF_same _ _ _ _ (by decide), m5, hcol]
    · simp only [mkEntry]
      rw [g 33 2 _ rfl, getF_setF_disj _ 0 _ _ _ _ (by decide) (by decide),
        getF_setF_disj _ 16 _ _ _ _ (by decide) (by decide),
        getF_setF_disj _ 32 _ _ _ _ (by decide) (by decide),
        getF_setF_same _ _ _ _ (by decide)]
    · simp only [mkEntry]
      show _ % 4 = 0
      rw [g 35 2 _ rfl, getF_setF_disj _ 0 _ _ _ _ (by decide) (by decide),
        getF_setF_disj _ 16 _ _ _ _ (by decide) (by decide),
        getF_setF_disj _ 32 _ _ _ _ (by decide) (by decide),
        getF_setF_disj _ 33 _ _ _ _ (by decide) (by decide),
        getF_setF_same _ _ _ _ (by decide)]
    · simp only [mkEntry]
      show _ / 2 ^ 39 % 2 ^ 24 = q
      rw [g 39 24 _ rfl, getF_setF_disj _ 0 _ _ _ _ (by decide) (by decide),
        getF_setF_disj _ 16 _ _ _ _ (by decide) (by decide),
        getF_setF_disj _ 32 _ _ _ _ (by decide) (by decide),
        getF_setF_disj _ 33 _ _ _ _ (by decide) (by decide),
        getF_setF_disj _ 35 _ _ _ _ (by decide) (by decide),
        getF_setF_disj _ 63 _ _ _ _ (by decide) (by decide),
        getF_setF_disj _ 38 _ _ _ _ (by decide) (by decide),
        getF_setF_same _ _ _ _ (by decide), m2]
    · simp only [mkEntry]
      show _ / 2 ^ 38 % 2 = _
      rw [g 38 1 _ rfl, getF_setF_disj _ 0 _ _ _ _ (by decide) (by decide),
        getF_setF_disj _ 16 _ _ _ _ (by decide) (by decide),
        getF_setF_disj _ 32 _ _ _ _ (by decide) (by decide),
        getF_setF_disj _ 33 _ _ _ _ (by decide) (by decide),
        getF_setF_disj _ 35 _ _ _ _ (by decide) (by decide),
        getF_setF_disj _ 63 _ _ _ _ (by decide) (by decide),
        getF_setF_same _ _ _ _ (by decide), m6]

theorem writeEntry_inv (v : Ver) (env : Env) (r : Nat) (e : BitVec 64) (s s' : S)
    (h : writeEntry v env r e s = .ok s') :
    s'.host = s.host.store (w64 (w64 (icBaddr v (s.ctx r intSel) * 4096) + 8 * s.slot r))
      (leEnc 8 e.toNat) ∧ s'.card = s.card ∧
    s'.log = s.log ++ [.entry r (w64 (w64 (icBaddr v (s.ctx r intSel) * 4096) + 8 * s.slot r)) e] ∧
    (∀ x, x ≠ r → s'.slot x = s.slot x) ∧ (∀ a b, ¬ (a = r ∧ b = intSel) → s'.ctx a b = s.ctx a b) ∧
    ((s.slot r + 1) * 8 = (1 + icPage v (s.ctx r intSel)) * 4096 → s'.slot r = 0 ∧
      s'.ctx r intSel = setF (s.ctx r intSel) (8 + icOff v) 1
        (if icColor v (s.ctx r intSel) != 0 then 0 else 1)) ∧
    ((s.slot r + 1) * 8 ≠ (1 + icPage v (s.ctx r intSel)) * 4096 → s'.slot r = s.slot r + 1 ∧
      s'.ctx r intSel = s.ctx r intSel) := by
  unfold writeEntry at h
  simp only at h
  generalize w64 (w64 (icBaddr v (s.ctx r intSel) * 4096) + 8 * s.slot r) = a at *
  split at h
  · split at h
    · next hl =>
      injection h with h
      rw [← h]
      refine ⟨rfl, rfl, rfl, ?_, ?_, ?_, fun x => absurd hl x⟩
      · intro x hx
        simp only [S.setCtx, if_neg hx]
      · intro a b hab
        exact setCtx_ne _ _ _ _ _ _ hab
      · intro _
        refine ⟨?_, setCtx_same _ _ _ _⟩
        simp only [S.setCtx, if_true]
    · next hl =>
      injection h with h
      rw [← h]
      refine ⟨rfl, rfl, rfl, ?_, fun _ _ _ => rfl, fun x => absurd x hl, ?_⟩
      · intro x hx
        simp only [if_neg hx]
      · intro _
        exact ⟨by simp only [if_true], rfl⟩
  · cases h

theorem icOff_le (v : Ver) : icOff v ≤ 6 := by cases v <;> decide

theorem ic_setPidx (v : Ver) (c : Ctx) (p : Nat) :
    icValid (setF c (64 + icOff v) 12 p) = icValid c ∧
    icVector v (setF c (64 + icOff v) 12 p) = icVector v c ∧
    icColor v (setF c (64 + icOff v) 12 p) = icColor v c ∧
    icBaddr v (setF c (64 + icOff v) 12 p) = icBaddr v c ∧
    icPage v (setF c (64 + icOff v) 12 p) = icPage v c ∧
    icPidx v (setF c (64 + icOff v) 12 p) = p % 4096 := by
  have h := icOff_le v
  unfold icValid icColor icBaddr icPage icPidx
  refine ⟨?_, ?_, ?_, ?_, ?_, ?_⟩
  · rw [getF_setF_disj _ _ _ _ _ _ (by omega) (by omega)]
  · cases v with
    | cpm4 => exact getF_setF_disj _ _ _ _ _ _ (by decide) (by decide)
    | cpm5 => exact getF_setF_disj _ _ _ _ _ _ (by decide) (by decide)
  · rw [getF_setF_disj _ _ _ _ _ _ (by omega) (by omega)]
  · rw [getF_setF_disj _ _ _ _ _ _ (by omega) (by omega)]
  · rw [getF_setF_disj _ _ _ _ _ _ (by omega) (by omega)]
  · rw [getF_setF_same _ _ _ _ (by omega)]

theorem ic_setColor (v : Ver) (c : Ctx) (x : Nat) (hx : x < 2) :
    icValid (setF c (8 + icOff v) 1 x) = icValid c ∧
    icVector v (setF c (8 + icOff v) 1 x) = icVector v c ∧
    icColor v (setF c (8 + icOff v) 1 x) = x ∧
    icBaddr v (setF c (8 + icOff v) 1 x) = icBaddr v c ∧
    icPage v (setF c (8 + icOff v) 1 x) = icPage v c := by
  have h := icOff_le v
  unfold icValid icColor icBaddr icPage
  refine ⟨?_, ?_, ?_, ?_, ?_⟩
  · rw [getF_setF_disj _ _ _ _ _ _ (by omega) (by omega)]
  · cases v with
    | cpm4 => exact getF_setF_disj _ _ _ _ _ _ (by decide) (by decide)
    | cpm5 => exact getF_setF_disj _ _ _ _ _ _ (by decide) (by decide)
  · rw [getF_setF_same _ _ _ _ (by omega)]; omega
  · rw [getF_setF_disj _ _ _ _ _ _ (by omega) (by omega)]
  · rw [getF_setF_disj _ _ _ _ _ _ (by omega) (by omega)]

/-- The steps of an aggregated interrupt. -/
theorem aggregate_inv (v : Ver) (env : Env) (q : Nat) (h2c : Bool) (p : Nat) (s s' : S)
    (h : aggregate v env q h2c p s = .ok s') :
    ∃ r s1 e, r = s.vec v q h2c ∧ r < 2 ∧ icValid (s.ctx r intSel) = true ∧
      e = mkEntry v env.junk q h2c (icColor v (s.ctx r intSel)) (s.cidx q h2c) (p % 4096) ∧
      writeEntry v env r e
        (s.setCtx r intSel (setF (s.ctx r intSel) (64 + icOff v) 12 p)) = .ok s1 ∧
      icVector v (s1.ctx r intSel) = icVector v (s.ctx r intSel) ∧
      notify (icVector v (s.ctx r intSel)) s1 = .ok s' := by
  unfold aggregate at h
  simp only at h
  by_cases hr : queueCount ≤ s.vec v q h2c
  · rw [if_pos hr] at h; cases h
  rw [if_neg hr] at h
  obtain ⟨i1, i2, i3, i4, i5, i6⟩ := ic_setPidx v (s.ctx (s.vec v q h2c) intSel) p
  rw [setCtx_same, i1] at h
  by_cases hv : icValid (s.ctx (s.vec v q h2c) intSel) = true
  · rw [hv] at h
    simp only [Bool.not_true, Bool.false_eq_true, if_false] at h
    obtain ⟨s1, h1, h2⟩ := bind_ok h
    rw [i3, i6] at h1
    have hci : (s.setCtx (s.vec v q h2c) intSel
        (setF (s.ctx (s.vec v q h2c) intSel) (64 + icOff v) 12 p)).cidx q h2c = s.cidx q h2c := by
      unfold S.cidx
      rw [setCtx_ne _ _ _ _ _ _ fun x => hwSel_ne_int _ x.2]
    rw [hci] at h1
    obtain ⟨_, _, _, _, _, w1, w2⟩ := writeEntry_inv _ _ _ _ _ _ h1
    rw [setCtx_same] at w1 w2
    have hvec : icVector v (s1.ctx (s.vec v q h2c) intSel) =
        icVector v (s.ctx (s.vec v q h2c) intSel) := by
      rw [i5] at w1 w2
      by_cases hl : ((s.setCtx (s.vec v q h2c) intSel
          (setF (s.ctx (s.vec v q h2c) intSel) (64 + icOff v) 12 p)).slot (s.vec v q h2c) + 1) * 8 =
          (1 + icPage v (s.ctx (s.vec v q h2c) intSel)) * 4096
      · rw [(w1 hl).2]
        obtain ⟨_, j, _⟩ := ic_setColor v (setF (s.ctx (s.vec v q h2c) intSel) (64 + icOff v) 12 p)
          (if icColor v (setF (s.ctx (s.vec v q h2c) intSel) (64 + icOff v) 12 p) != 0 then 0 else 1)
          (by split <;> decide)
        rw [j, i2]
      · rw [(w2 hl).2, i2]
    rw [hvec] at h2
    exact ⟨_, s1, _, rfl, by unfold queueCount at hr; omega, hv, rfl, h1, hvec, h2⟩
  · rw [Bool.not_eq_true] at hv
    rw [hv] at h
    simp only [Bool.not_false, if_true] at h
    cases h

/-- What an aggregated interrupt does for any producer index: the index in the entry
is the low 12 bits of it. -/
theorem doorbell_ring (v : Ver) (env : Env) (s s' : S) (q p : Nat) (h2c : Bool) (st : Status)
    (d : List Byte) (m : Mems) (hr : Ready s q h2c) (hp : p < s.ringSize q h2c)
    (hne : s.cidx q h2c ≠ p) (ha : s.irqArm q h2c = true) (he : s.irqEn q h2c = true)
    (hg : s.aggr v q h2c = true)
    (hx : execAll h2c (s.base q h2c) (s.descSize q h2c)
      (ringWalk (s.ringSize q h2c) (s.cidx q h2c) p) ⟨s.host, s.card⟩ = some m)
    (h : cfg v env (bell v q h2c p) s = .ok (s', st, d)) :
    ∃ (r : Nat) (e : BitVec 64) (a : Nat) (h1 : Mem),
      r = s.vec v q h2c ∧
      a = (icBaddr v (s.ctx r intSel) * 4096 + 8 * s.slot r) % 2 ^ 64 ∧
      EntrySays (v == .cpm4) e.toNat q h2c (icColor v (s.ctx r intSel) != 0) p (p % 4096) ∧
      st = .ok ∧ s'.cidx q h2c = p ∧ s'.card = m.card ∧ s'.host = h1.store a (leEnc 8 e.toNat) ∧
      (s.wbEn q h2c = false → h1 = m.host ∧
        s'.log = s.log ++ (ringWalk (s.ringSize q h2c) (s.cidx q h2c) p).map (.desc q h2c ·) ++
          [.entry r a e] ++ [.msix (icVector v (s.ctx r intSel))]) ∧
      (s.wbEn q h2c = true →
        StatusWritten (s.base q h2c + s.descSize q h2c * s.ringSize q h2c) p m.host h1 ∧
        s'.log = s.log ++ (ringWalk (s.ringSize q h2c) (s.cidx q h2c) p).map (.desc q h2c ·) ++
          [.status q h2c] ++ [.entry r a e] ++ [.msix (icVector v (s.ctx r intSel))]) := by
  obtain ⟨hst, s1, g1, g2, g3, g4, g5, g6, g7, g8⟩ := doorbell_core v env s s' q p h2c st d m hr hp hne hx h
  obtain ⟨fa, fe, _⟩ := sw_fields_of s s1 q h2c g3
  obtain ⟨fg, fv⟩ := vec_of v s s1 q h2c g3 (g2 _ _ fun x => by
    rcases x.2 with x | x
    · exact swSel_ne_vec _ x.symm
    · exact hwSel_ne_vec _ x.symm)
  unfold signal at g1
  rw [fa, fe, fg, ha, he, hg] at g1
  simp only [Bool.not_true, Bool.or_self, Bool.false_eq_true, if_false, if_true] at g1
  obtain ⟨r, s2, e, hre, hr2, hval, hee, hwr, hvec, hno⟩ := aggregate_inv v env q h2c p s1 s' g1
  rw [fv] at hre
  have hint : s1.ctx r intSel = s.ctx r intSel := g2 _ _ fun x => by
    rcases x.2 with x | x
    · exact swSel_ne_int _ x.symm
    · exact hwSel_ne_int _ x.symm
  rw [hint] at hee hval hwr hno
  have ht := writeEntry_tail _ _ _ _ _ _ hwr
  obtain ⟨w1, w2, w3, _⟩ := writeEntry_inv _ _ _ _ _ _ hwr
  obtain ⟨_, _, _, i4, _, _⟩ := ic_setPidx v (s.ctx r intSel) p
  rw [setCtx_same, i4] at w1 w3
  have ea : w64 (w64 (icBaddr v (s.ctx r intSel) * 4096) + 8 * (s1.setCtx r intSel
      (setF (s.ctx r intSel) (64 + icOff v) 12 p)).slot r) =
      (icBaddr v (s.ctx r intSel) * 4096 + 8 * s.slot r) % 2 ^ 64 := by
    unfold w64
    rw [Nat.mod_add_mod]
    show (_ + 8 * s1.slot r) % _ = _
    rw [g5]
  rw [ea] at w1 w3
  have ntl := notify_tail _ _ _ hno
  unfold notify at hno
  split at hno
  · injection hno with hno
    have hlog : s'.log = s2.log ++ [.msix (icVector v (s.ctx r intSel))] := by rw [← hno]; rfl
    have hhost : s'.host = s2.host := by rw [← hno]; rfl
    refine ⟨r, e, _, s1.host, hre, rfl, ?_, hst, ?_, ?_, ?_, ?_, ?_⟩
    · rw [hee, g4]
      exact mkEntry_says v env.junk q h2c _ p (p % 4096) hr.queue (getF_lt _ _ 1)
        (by have := ringSize_le s q h2c; omega) (by omega)
    · rw [ntl.cidx, ht.cidx]
      have := (Tail.setInt s1 r (setF (s.ctx r intSel) (64 + icOff v) 12 p)).cidx q h2c
      rw [this]; exact g4
    · rw [ntl.card, ht.card]; exact g6
    · rw [hhost, w1]; rfl
    · intro w
      refine ⟨(g8 w).1, ?_⟩
      rw [hlog, w3]
      show s1.log ++ _ ++ _ = _
      rw [(g8 w).2]
    · intro w
      refine ⟨(g7 w).1, ?_⟩
      rw [hlog, w3]
      show s1.log ++ _ ++ _ = _
      rw [(g7 w).2]
  · cases hno

/-- **Aggregated interrupts.**  As for a polled queue, then one entry in the next
slot of the queue's interrupt ring, carrying the ring's colour, the queue, the
direction and the indices, and then exactly one strobe of the ring's vector.
Partial: the producer index must be below 4096, since the code passes it through
a 12-bit field (`entry_pidx_truncated`). -/
theorem doorbell_ring_partial (v : Ver) (env : Env) (s s' : S) (q p : Nat) (h2c : Bool) (st : Status)
    (d : List Byte) (m : Mems) (hr : Ready s q h2c) (hp : p < s.ringSize q h2c) (hp12 : p < 4096)
    (hne : s.cidx q h2c ≠ p) (ha : s.irqArm q h2c = true) (he : s.irqEn q h2c = true)
    (hg : s.aggr v q h2c = true)
    (hx : execAll h2c (s.base q h2c) (s.descSize q h2c)
      (ringWalk (s.ringSize q h2c) (s.cidx q h2c) p) ⟨s.host, s.card⟩ = some m)
    (h : cfg v env (bell v q h2c p) s = .ok (s', st, d)) :
    ∃ (r : Nat) (e : BitVec 64) (a : Nat) (h1 : Mem),
      r = s.vec v q h2c ∧
      a = (icBaddr v (s.ctx r intSel) * 4096 + 8 * s.slot r) % 2 ^ 64 ∧
      EntrySays (v == .cpm4) e.toNat q h2c (icColor v (s.ctx r intSel) != 0) p p ∧
      st = .ok ∧ s'.cidx q h2c = p ∧ s'.card = m.card ∧ s'.host = h1.store a (leEnc 8 e.toNat) ∧
      (s.wbEn q h2c = false → h1 = m.host ∧
        s'.log = s.log ++ (ringWalk (s.ringSize q h2c) (s.cidx q h2c) p).map (.desc q h2c ·) ++
          [.entry r a e] ++ [.msix (icVector v (s.ctx r intSel))]) ∧
      (s.wbEn q h2c = true →
        StatusWritten (s.base q h2c + s.descSize q h2c * s.ringSize q h2c) p m.host h1 ∧
        s'.log = s.log ++ (ringWalk (s.ringSize q h2c) (s.cidx q h2c) p).map (.desc q h2c ·) ++
          [.status q h2c] ++ [.entry r a e] ++ [.msix (icVector v (s.ctx r intSel))]) := by
  have := doorbell_ring v env s s' q p h2c st d m hr hp hne ha he hg hx h
  rwa [Nat.mod_eq_of_lt hp12] at this

/-- **The index in the entry is wrong from 4096 on.**  For every ring bigger than
4096 descriptors and every producer index above that, the entry written names an
index the driver never posted. -/
theorem entry_pidx_truncated (v : Ver) (env : Env) (s s' : S) (q p : Nat) (h2c : Bool) (st : Status)
    (d : List Byte) (m : Mems) (hr : Ready s q h2c) (hp : p < s.ringSize q h2c) (hp12 : 4096 ≤ p)
    (hne : s.cidx q h2c ≠ p) (ha : s.irqArm q h2c = true) (he : s.irqEn q h2c = true)
    (hg : s.aggr v q h2c = true)
    (hx : execAll h2c (s.base q h2c) (s.descSize q h2c)
      (ringWalk (s.ringSize q h2c) (s.cidx q h2c) p) ⟨s.host, s.card⟩ = some m)
    (h : cfg v env (bell v q h2c p) s = .ok (s', st, d)) :
    ∃ e a, .entry (s.vec v q h2c) a e ∈ s'.log ∧ e.toNat % 2 ^ 16 = p % 4096 ∧ p % 4096 ≠ p := by
  obtain ⟨r, e, a, h1, k1, _, k3, _, _, _, _, k8, k9⟩ :=
    doorbell_ring v env s s' q p h2c st d m hr hp hne ha he hg hx h
  subst k1
  refine ⟨e, a, ?_, k3.isPidx, by omega⟩
  cases hw : s.wbEn q h2c with
  | true => rw [(k9 hw).2]; simp
  | false => rw [(k8 hw).2]; simp

/-! ### Progress -/

theorem writeStatus_ok (env : Env) (hh : ∀ c a n, env.hostOk c a n = true) (q : Nat) (h2c : Bool)
    (p : Nat) (s : S) : ∃ s', writeStatus env q h2c p s = .ok s' := by
  unfold writeStatus
  obtain ⟨d, hd⟩ := fetch_ok env hh s.host (s.descSize q h2c / 4)
    (s.descAddr q h2c (s.ringSize q h2c))
  rw [hd]
  simp only [hh, if_true]
  exact ⟨_, rfl⟩

theorem writeEntry_ok (v : Ver) (env : Env) (hh : ∀ c a n, env.hostOk c a n = true) (r : Nat)
    (e : BitVec 64) (s : S) : ∃ s', writeEntry v env r e s = .ok s' := by
  unfold writeEntry
  simp only [hh, if_true]
  split
  · exact ⟨_, rfl⟩
  · exact ⟨_, rfl⟩

/-- What the interrupt configuration must be for a completion to be signalled. -/
def IrqOk (v : Ver) (s : S) (q : Nat) (h2c : Bool) : Prop :=
  (s.irqArm q h2c && s.irqEn q h2c) = true →
    (s.aggr v q h2c = true → s.vec v q h2c < 2 ∧ icValid (s.ctx (s.vec v q h2c) intSel) = true ∧
      icVector v (s.ctx (s.vec v q h2c) intSel) < 8) ∧
    (s.aggr v q h2c = false → s.vec v q h2c < 8)

theorem signal_ok (v : Ver) (env : Env) (hh : ∀ c a n, env.hostOk c a n = true) (q : Nat) (h2c : Bool)
    (p : Nat) (s : S) (hi : IrqOk v s q h2c) : ∃ s', signal v env q h2c p s = .ok s' := by
  unfold signal
  by_cases c : (s.irqArm q h2c && s.irqEn q h2c) = true
  · obtain ⟨hA, hD⟩ := hi c
    rw [if_neg (by revert c; cases s.irqArm q h2c <;> cases s.irqEn q h2c <;> decide)]
    by_cases g : s.aggr v q h2c = true
    · rw [if_pos g]
      obtain ⟨a1, a2, a3⟩ := hA g
      unfold aggregate
      simp only
      rw [if_neg (by unfold queueCount; omega)]
      obtain ⟨i1, i2, i3, i4, i5, i6⟩ := ic_setPidx v (s.ctx (s.vec v q h2c) intSel) p
      rw [setCtx_same, i1, a2]
      simp only [Bool.not_true, Bool.false_eq_true, if_false]
      obtain ⟨s1, h1⟩ := writeEntry_ok v env hh (s.vec v q h2c)
        (mkEntry v env.junk q h2c (icColor v (setF (s.ctx (s.vec v q h2c) intSel) (64 + icOff v) 12 p))
          ((s.setCtx (s.vec v q h2c) intSel
            (setF (s.ctx (s.vec v q h2c) intSel) (64 + icOff v) 12 p)).cidx q h2c)
          (icPidx v (setF (s.ctx (s.vec v q h2c) intSel) (64 + icOff v) 12 p)))
        (s.setCtx (s.vec v q h2c) intSel (setF (s.ctx (s.vec v q h2c) intSel) (64 + icOff v) 12 p))
      rw [h1]
      show ∃ s', notify (icVector v (s1.ctx (s.vec v q h2c) intSel)) s1 = .ok s'
      have hvec : icVector v (s1.ctx (s.vec v q h2c) intSel) =
          icVector v (s.ctx (s.vec v q h2c) intSel) := by
        obtain ⟨_, _, _, _, _, w1, w2⟩ := writeEntry_inv _ _ _ _ _ _ h1
        rw [setCtx_same] at w1 w2
        rw [i5] at w1 w2
        by_cases hl : ((s.setCtx (s.vec v q h2c) intSel
            (setF (s.ctx (s.vec v q h2c) intSel) (64 + icOff v) 12 p)).slot (s.vec v q h2c) + 1) * 8 =
            (1 + icPage v (s.ctx (s.vec v q h2c) intSel)) * 4096
        · rw [(w1 hl).2]
          obtain ⟨_, j, _⟩ := ic_setColor v (setF (s.ctx (s.vec v q h2c) intSel) (64 + icOff v) 12 p)
            (if icColor v (setF (s.ctx (s.vec v q h2c) intSel) (64 + icOff v) 12 p) != 0 then 0 else 1)
            (by split <;> decide)
          rw [j, i2]
        · rw [(w2 hl).2, i2]
      rw [hvec]
      unfold notify nrIrq
      rw [if_pos a3]
      exact ⟨_, rfl⟩
    · rw [if_neg g]
      unfold notify nrIrq
      rw [if_pos (hD (by simpa using g))]
      exact ⟨_, rfl⟩
  · rw [if_pos (by revert c; cases s.irqArm q h2c <;> cases s.irqEn q h2c <;> decide)]
    exact ⟨_, rfl⟩

theorem irqOk_of (v : Ver) (s t : S) (q : Nat) (h2c : Bool)
    (h : ∀ lo n, 16 ≤ lo → getF (t.ctx q (swSel h2c)) lo n = getF (s.ctx q (swSel h2c)) lo n)
    (hv : t.ctx q vecSel = s.ctx q vecSel) (hint : ∀ r, t.ctx r intSel = s.ctx r intSel)
    (hi : IrqOk v s q h2c) : IrqOk v t q h2c := by
  obtain ⟨fa, fe, _⟩ := sw_fields_of s t q h2c h
  obtain ⟨fg, fv⟩ := vec_of v s t q h2c h hv
  unfold IrqOk at *
  rw [fa, fe, fg, fv, hint]
  exact hi

theorem finish_ok (v : Ver) (env : Env) (hh : ∀ c a n, env.hostOk c a n = true) (q : Nat) (h2c : Bool)
    (p : Nat) (s : S) (hi : IrqOk v s q h2c) : ∃ s', finish v env q h2c p s = .ok s' := by
  unfold finish
  split
  · obtain ⟨s1, h1⟩ := writeStatus_ok env hh q h2c p s
    rw [h1]
    have t := writeStatus_tail _ _ _ _ _ _ h1
    have hc : s1.ctx = s.ctx := by
      unfold writeStatus at h1
      split at h1
      · cases h1
      · split at h1
        · injection h1 with h1
          rw [← h1]
          exact (storeEmit _ _ _ _).1
        · cases h1
    apply signal_ok v env hh
    exact irqOk_of v s s1 q h2c (fun _ _ _ => by rw [hc]) (by rw [hc]) (fun _ => by rw [hc]) hi
  · exact signal_ok v env hh _ _ _ _ hi

/-- **A doorbell always comes back.**  When the buses accept every access and the
interrupt configuration is usable, a producer index inside the ring is accepted,
whatever the descriptors say. -/
theorem doorbell_succeeds (v : Ver) (env : Env) (s : S) (q p : Nat) (h2c : Bool)
    (hq : q < 2) (hp : p < s.ringSize q h2c) (hs : 32 ≤ s.descSize q h2c)
    (hh : ∀ c a n, env.hostOk c a n = true) (hc : ∀ c a n, env.cardOk c a n = true)
    (hi : IrqOk v s q h2c) :
    ∃ s', cfg v env (bell v q h2c p) s = .ok (s', .ok, leEnc 4 p) := by
  have hn := ringSize_le s q h2c
  rw [cfg_bell _ _ _ _ _ _ (by omega)]
  generalize hs0 : s.setReg (pidxReg v h2c q) (wordOf (leEnc 4 p)) = s0
  have hctx : s0.ctx = s.ctx := by rw [← hs0]; rfl
  have hreg : (s0.regs (pidxReg v h2c q)).toNat % 65536 = p := by
    rw [← hs0, setReg_same, wordOf_leEnc]; omega
  have r0 : s0.ringSize q h2c = s.ringSize q h2c := by unfold S.ringSize S.ringCode; rw [hctx]
  have d0 : s0.descSize q h2c = s.descSize q h2c := by unfold S.descSize S.descCode; rw [hctx]
  obtain ⟨s', h'⟩ := run_ok v env q h2c s0 p hq hreg.symm (by rw [r0]; exact hp) hh hc
    (by rw [d0]; omega) (by
      intro m l
      apply finish_ok v env hh
      apply irqOk_of v s _ q h2c _ _ _ hi
      · intro lo n hlo
        rw [upd_sw, setPidx_sw _ _ _ _ _ _ hlo, hctx]
      · rw [upd_ctx_ne _ _ _ _ _ _ _ _ fun x => hwSel_ne_vec _ x.2.symm,
          setPidx_ne _ _ _ _ _ _ fun x => swSel_ne_vec _ x.2.symm, hctx]
      · intro r
        rw [upd_ctx_ne _ _ _ _ _ _ _ _ fun x => hwSel_ne_int _ x.2.symm,
          setPidx_ne _ _ _ _ _ _ fun x => swSel_ne_int _ x.2.symm, hctx])
  rw [h']
  exact ⟨s', rfl⟩

/-- **It never runs on.**  Whatever the indices and contexts hold, a doorbell that
returns has brought the consumer index to the posted producer index, which lies
inside the ring. -/
theorem doorbell_meets (v : Ver) (env : Env) (s s' : S) (q x : Nat) (h2c : Bool) (st : Status)
    (d : List Byte) (hq : q < 2) (h : cfg v env (bell v q h2c x) s = .ok (s', st, d)) :
    s'.cidx q h2c = x % 65536 ∧ s'.pidx q h2c = x % 65536 ∧ x % 65536 < s.ringSize q h2c := by
  rw [cfg_bell _ _ _ _ _ _ (by omega)] at h
  generalize hs0 : s.setReg (pidxReg v h2c q) (wordOf (leEnc 4 x)) = s0 at h
  have hreg : (s0.regs (pidxReg v h2c q)).toNat % 65536 = x % 65536 := by
    rw [← hs0, setReg_same, wordOf_leEnc]; omega
  have r0 : s0.ringSize q h2c = s.ringSize q h2c := by rw [← hs0]; rfl
  cases hrun : run v env q h2c s0 with
  | error e => rw [hrun] at h; cases h
  | ok s2 =>
    rw [hrun] at h
    injection h with h
    obtain ⟨e1, _⟩ := Prod.mk.inj h
    subst e1
    obtain ⟨_, _, _, _, k1, k2, _⟩ := run_frame v env q h2c s0 s2 hrun
    obtain ⟨_, p', hp', hpn, _⟩ := run_inv v env q h2c s0 s2 hrun
    rw [hreg] at k1 k2 hp'
    rw [hp', r0] at hpn
    exact ⟨k1, k2, hpn⟩

end Verif.Qdma
