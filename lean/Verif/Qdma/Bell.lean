import Verif.Qdma.Run

/-! Helper lemmas: a doorbell write as a whole. -/

namespace Verif.Qdma

def S.setPidx (s : S) (q : Nat) (h2c : Bool) (p : Nat) : S :=
  s.setCtx q (swSel h2c) (setF (s.ctx q (swSel h2c)) 0 16 p)

theorem setPidx_sw (s : S) (q : Nat) (h2c : Bool) (p lo n : Nat) (h : 16 ≤ lo) :
    getF ((s.setPidx q h2c p).ctx q (swSel h2c)) lo n = getF (s.ctx q (swSel h2c)) lo n := by
  unfold S.setPidx
  rw [setCtx_same]
  exact getF_setF_disj _ _ _ _ _ _ (by decide) (Or.inr h)

theorem setPidx_ne (s : S) (q : Nat) (h2c : Bool) (p a b : Nat) (h : ¬ (a = q ∧ b = swSel h2c)) :
    (s.setPidx q h2c p).ctx a b = s.ctx a b := setCtx_ne _ _ _ _ _ _ h

theorem setPidx_pidx (s : S) (q : Nat) (h2c : Bool) (p : Nat) (hp : p < 65536) :
    (s.setPidx q h2c p).pidx q h2c = p := by
  unfold S.pidx S.setPidx
  rw [setCtx_same, getF_setF_same _ _ _ _ (by decide)]
  exact Nat.mod_eq_of_lt hp

theorem setPidx_ringSize (s : S) (q : Nat) (h2c : Bool) (p : Nat) :
    (s.setPidx q h2c p).ringSize q h2c = s.ringSize q h2c := by
  unfold S.ringSize S.ringCode
  rw [setPidx_sw _ _ _ _ _ _ (by decide)]

theorem setPidx_descSize (s : S) (q : Nat) (h2c : Bool) (p : Nat) :
    (s.setPidx q h2c p).descSize q h2c = s.descSize q h2c := by
  unfold S.descSize S.descCode
  rw [setPidx_sw _ _ _ _ _ _ (by decide)]

theorem setPidx_base (s : S) (q : Nat) (h2c : Bool) (p : Nat) :
    (s.setPidx q h2c p).base q h2c = s.base q h2c := by
  unfold S.base
  rw [setPidx_sw _ _ _ _ _ _ (by decide), setPidx_sw _ _ _ _ _ _ (by decide)]

theorem setPidx_cidx (s : S) (q : Nat) (h2c : Bool) (p : Nat) (a : Nat) (h : Bool) :
    (s.setPidx q h2c p).cidx a h = s.cidx a h := by
  unfold S.cidx
  rw [setPidx_ne _ _ _ _ _ _ fun x => swSel_ne _ _ x.2.symm]

theorem ringSize_le (s : S) (q : Nat) (h2c : Bool) : s.ringSize q h2c ≤ 16384 := by
  have : s.ringCode q h2c < 16 := getF_lt _ _ _
  unfold S.ringSize
  have key : ∀ k : Fin 16, ringSizes.getD k.val 0 ≤ 16384 := by decide
  exact key ⟨_, this⟩

theorem loop_meet (v : Ver) (env : Env) (q : Nat) (h2c : Bool) (p f : Nat) (s : S)
    (h : s.pidx q h2c = s.cidx q h2c) : loop v env q h2c p f s = .ok s := by
  cases f with
  | zero => rfl
  | succ f => simp only [loop]; rw [if_pos h]

theorem run_inv (v : Ver) (env : Env) (q : Nat) (h2c : Bool) (s s' : S)
    (h : run v env q h2c s = .ok s') :
    q < 2 ∧ ∃ p, p = (s.regs (pidxReg v h2c q)).toNat % 65536 ∧ p < s.ringSize q h2c ∧
      (s.cidx q h2c = p → s' = s.setPidx q h2c p) ∧
      (s.cidx q h2c ≠ p → ∃ (is : List Nat) (m : Mems),
        finish v env q h2c p
          ((s.setPidx q h2c p).upd q h2c p m (s.log ++ is.map (.desc q h2c ·))) = .ok s' ∧
        (s.cidx q h2c < s.ringSize q h2c → is = ringWalk (s.ringSize q h2c) (s.cidx q h2c) p) ∧
        (s.cidx q h2c < s.ringSize q h2c → 24 ≤ s.descSize q h2c →
          s.base q h2c + s.descSize q h2c * s.ringSize q h2c ≤ 2 ^ 64 →
          ∀ m', execAll h2c (s.base q h2c) (s.descSize q h2c) is ⟨s.host, s.card⟩ = some m' →
            m = m')) := by
  unfold run at h
  by_cases h1 : q > queueCount
  · rw [if_pos h1] at h; cases h
  rw [if_neg h1] at h
  by_cases h2 : queueCount ≤ q
  · rw [if_pos h2] at h; cases h
  rw [if_neg h2] at h
  simp only at h
  generalize hpe : (s.regs (pidxReg v h2c q)).toNat % 65536 = p at h
  have hp16 : p < 65536 := by rw [← hpe]; exact Nat.mod_lt _ (by decide)
  refine ⟨by unfold queueCount at h2; omega, p, rfl, ?_⟩
  have hset : s.setCtx q (swSel h2c) (setF (s.ctx q (swSel h2c)) 0 16 p) = s.setPidx q h2c p := rfl
  rw [hset, setPidx_ringSize, setPidx_pidx _ _ _ _ hp16] at h
  by_cases h3 : s.ringSize q h2c ≤ p
  · rw [if_pos h3] at h; cases h
  rw [if_neg h3] at h
  have hp : p < s.ringSize q h2c := by omega
  have hn := ringSize_le s q h2c
  have hci : s.cidx q h2c < 65536 := getF_lt _ 0 16
  refine ⟨hp, ?_, ?_⟩
  · intro e
    rw [loop_meet _ _ _ _ _ _ _ (by rw [setPidx_pidx _ _ _ _ hp16, setPidx_cidx, e])] at h
    injection h with h
    exact h.symm
  · intro e
    obtain ⟨is, m, k1, k2, k3⟩ := loop_inv v env q h2c p (s.ringSize q h2c) hp (by omega) 65536
      (s.setPidx q h2c p) s' (setPidx_ringSize _ _ _ _) (setPidx_pidx _ _ _ _ hp16)
      (by rw [setPidx_cidx]; exact e)
      (by
        rw [setPidx_cidx]
        have := stepsLeft_lt (s.ringSize q h2c) (s.cidx q h2c) p hci hp (by omega)
        omega) h
    rw [setPidx_cidx] at k2 k3
    rw [setPidx_descSize, setPidx_base] at k3
    exact ⟨is, m, k1, k2, k3⟩

theorem run_ok (v : Ver) (env : Env) (q : Nat) (h2c : Bool) (s : S) (p : Nat) (hq : q < 2)
    (hp : p = (s.regs (pidxReg v h2c q)).toNat % 65536) (hpn : p < s.ringSize q h2c)
    (hh : ∀ c a n, env.hostOk c a n = true) (hc : ∀ c a n, env.cardOk c a n = true)
    (h24 : 24 ≤ s.descSize q h2c)
    (hfin : ∀ m l, ∃ s', finish v env q h2c p ((s.setPidx q h2c p).upd q h2c p m l) = .ok s') :
    ∃ s', run v env q h2c s = .ok s' := by
  unfold run
  rw [if_neg (by unfold queueCount; omega), if_neg (by unfold queueCount; omega)]
  simp only
  rw [← hp]
  have hp16 : p < 65536 := by rw [hp]; exact Nat.mod_lt _ (by decide)
  have hset : s.setCtx q (swSel h2c) (setF (s.ctx q (swSel h2c)) 0 16 p) = s.setPidx q h2c p := rfl
  rw [hset, setPidx_ringSize, setPidx_pidx _ _ _ _ hp16, if_neg (by omega)]
  have hn := ringSize_le s q h2c
  have hci : s.cidx q h2c < 65536 := getF_lt _ 0 16
  by_cases e : s.cidx q h2c = p
  · rw [loop_meet _ _ _ _ _ _ _ (by rw [setPidx_pidx _ _ _ _ hp16, setPidx_cidx, e])]
    exact ⟨_, rfl⟩
  · apply loop_ok v env q h2c p (s.ringSize q h2c) hpn (by omega) hh hc 65536
      (s.setPidx q h2c p) (setPidx_ringSize _ _ _ _) (setPidx_pidx _ _ _ _ hp16)
      (by rw [setPidx_cidx]; exact e) (by rw [setPidx_descSize]; exact h24)
      (by
        rw [setPidx_cidx]
        have := stepsLeft_lt (s.ringSize q h2c) (s.cidx q h2c) p hci hpn (by omega)
        omega) hfin

/-- What a run does to contexts and log, whatever the buses answer. -/
theorem run_frame (v : Ver) (env : Env) (q : Nat) (h2c : Bool) (s s' : S)
    (h : run v env q h2c s = .ok s') :
    s'.regs = s.regs ∧ s'.axi = s.axi ∧
    (∀ a b, b ≠ intSel → ¬ (a = q ∧ (b = swSel h2c ∨ b = hwSel h2c)) → s'.ctx a b = s.ctx a b) ∧
    (∀ lo n, 16 ≤ lo → getF (s'.ctx q (swSel h2c)) lo n = getF (s.ctx q (swSel h2c)) lo n) ∧
    s'.cidx q h2c = (s.regs (pidxReg v h2c q)).toNat % 65536 ∧
    s'.pidx q h2c = (s.regs (pidxReg v h2c q)).toNat % 65536 ∧
    (∃ (is : List Nat) (t : List Ev), s'.log = s.log ++ is.map (.desc q h2c ·) ++ t ∧
      (∀ e ∈ t, e.notDesc = true) ∧
      (s.cidx q h2c < s.ringSize q h2c → is = ringWalk (s.ringSize q h2c) (s.cidx q h2c)
        ((s.regs (pidxReg v h2c q)).toNat % 65536))) := by
  obtain ⟨hq, p, hpe, hpn, hA, hB⟩ := run_inv v env q h2c s s' h
  rw [← hpe]
  have hp16 : p < 65536 := by rw [hpe]; exact Nat.mod_lt _ (by decide)
  by_cases e : s.cidx q h2c = p
  · have hs := hA e
    subst hs
    refine ⟨rfl, rfl, ?_, ?_, ?_, setPidx_pidx _ _ _ _ hp16, [], [], ?_, ?_, ?_⟩
    · intro a b hb hn
      exact setPidx_ne _ _ _ _ _ _ fun x => hn ⟨x.1, Or.inl x.2⟩
    · intro lo n hlo; exact setPidx_sw _ _ _ _ _ _ hlo
    · rw [setPidx_cidx, e]
    · simp [S.setPidx, S.setCtx]
    · intro x hx; cases hx
    · intro hc
      rw [e, ringWalk_self _ _ hpn]
  · obtain ⟨is, m, k1, k2, _⟩ := hB e
    have t := finish_tail _ _ _ _ _ _ _ k1
    obtain ⟨tl, ht, hn⟩ := t.log
    refine ⟨t.regs, t.axi, ?_, ?_, ?_, ?_, is, tl, ht, hn, k2⟩
    · intro a b hb hn
      rw [t.ctx a b hb, upd_ctx_ne _ _ _ _ _ _ _ _ fun x => hn ⟨x.1, Or.inr x.2⟩]
      exact setPidx_ne _ _ _ _ _ _ fun x => hn ⟨x.1, Or.inl x.2⟩
    · intro lo n hlo
      rw [t.sw, upd_sw]
      exact setPidx_sw _ _ _ _ _ _ hlo
    · rw [t.cidx, upd_cidx, Nat.mod_eq_of_lt hp16]
    · unfold S.pidx
      rw [t.sw, upd_sw]
      exact setPidx_pidx _ _ _ _ hp16

/-! ### The register write -/

/-- The four-byte write a driver posts descriptors with. -/
def bell (v : Ver) (q : Nat) (h2c : Bool) (x : Nat) : Gp :=
  ⟨.write, dmap v + 0x10 * q + (if h2c then 4 else 8), leEnc 4 x, [], 4⟩

theorem wordOf_leEnc (x : Nat) : (wordOf (leEnc 4 x)).toNat = x % 2 ^ 32 := by
  unfold wordOf
  rw [leDec_leEnc, BitVec.toNat_ofNat]
  exact Nat.mod_mod_of_dvd _ (by decide)

theorem bell_refused (v : Ver) (q : Nat) (h2c : Bool) (x : Nat) : refused (bell v q h2c x) = false := by
  simp [refused, bell, Gp.len]

theorem cfgWrite_bell (v : Ver) (env : Env) (q : Nat) (h2c : Bool) (x : BitVec 32) (s : S) (hq : q ≤ 2) :
    cfgWrite v env (dmap v + 0x10 * q + (if h2c then 4 else 8)) x s =
      run v env q h2c (s.setReg (pidxReg v h2c q) x) := by
  have hd : dmap v % 16 = 0 := by cases v <;> rfl
  unfold cfgWrite pidxReg queueCount
  cases h2c with
  | true =>
    simp only [if_true]
    rw [if_pos (by omega), if_pos (by omega)]
    rw [show (dmap v + 16 * q + 4 - dmap v) / 16 = q by omega,
      show dmap v + 16 * q + 4 = dmap v + 4 + 16 * q by omega]
  | false =>
    simp only [Bool.false_eq_true, if_false]
    rw [if_pos (by omega), if_neg (by omega), if_pos (by omega)]
    rw [show (dmap v + 16 * q + 8 - dmap v) / 16 = q by omega,
      show dmap v + 16 * q + 8 = dmap v + 8 + 16 * q by omega]

theorem cfg_bell (v : Ver) (env : Env) (q : Nat) (h2c : Bool) (x : Nat) (s : S) (hq : q ≤ 2) :
    cfg v env (bell v q h2c x) s =
      match run v env q h2c (s.setReg (pidxReg v h2c q) (wordOf (leEnc 4 x))) with
      | .ok s => .ok (s, .ok, leEnc 4 x)
      | .error e => .error e := by
  unfold cfg
  rw [bell_refused]
  simp only [Bool.false_eq_true, if_false, bell]
  rw [cfgWrite_bell v env q h2c _ s hq]
  cases run v env q h2c (s.setReg (pidxReg v h2c q) (wordOf (leEnc 4 x))) <;> rfl

theorem setReg_same (s : S) (w : Nat) (x : BitVec 32) : (s.setReg w x).regs w = x := by
  simp [S.setReg]

/-! ### The status descriptor -/

theorem putStatus_eq (d : List Byte) (c p : Nat) : putStatus d c p =
    (d.getD 0 0 &&& 0xFC#8) :: d.getD 1 0 :: BitVec.ofNat 8 c :: BitVec.ofNat 8 (c / 256) ::
      BitVec.ofNat 8 p :: BitVec.ofNat 8 (p / 256) :: d.drop 6 := by
  simp [putStatus, leEnc]

theorem range_getD (m : Mem) (a n k : Nat) (h : k < n) : (m.range a n).getD k 0 = m (a + k) := by
  simp [Mem.range, h]

theorem store_status (m : Mem) (st n p : Nat) (h : 6 ≤ n) :
    StatusWritten st p m (m.store st (putStatus (m.range st n) p p)) := by
  intro a
  have hl : (putStatus (m.range st n) p p).length = n := by
    rw [putStatus_eq]; simp; omega
  unfold Mem.store
  rw [hl]
  by_cases hin : st ≤ a ∧ a < st + n
  · rw [if_pos hin, putStatus_eq, range_getD _ _ _ _ (by omega), range_getD _ _ _ _ (by omega)]
    obtain ⟨k, rfl⟩ : ∃ k, a = st + k := ⟨a - st, by omega⟩
    rw [show st + k - st = k by omega]
    match k with
    | 0 => simp
    | 1 => simp
    | 2 => simp
    | 3 => simp
    | 4 => simp
    | 5 => simp
    | k + 6 =>
      rw [if_neg (by omega), if_neg (by omega), if_neg (by omega), range_drop _ _ _ _ h]
      simp only [List.getD_cons_succ]
      have := range_getD m (st + 6) (n - 6) k (by omega)
      rw [show st + (k + 6) = st + 6 + k by omega]
      exact this
  · rw [if_neg hin, if_neg (by omega), if_neg (by omega), if_neg (by omega)]

end Verif.Qdma
