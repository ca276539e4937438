import Verif.Tlp.Props

/-! # C48: configuration accesses through the PCIe bridge -/

namespace Verif.Tlp
open Verif Spec

/-- The third word of a configuration request. -/
def confWord (a : Nat) : Nat :=
  a / 2 ^ 20 % 2 ^ 8 * 2 ^ 24 + (a / 2 ^ 15 % 2 ^ 5 * 2 ^ 19 + (a / 2 ^ 12 % 2 ^ 3 * 2 ^ 16 + (a / 2 ^ 8 % 2 ^ 4 * 2 ^ 8 +
    a / 2 ^ 2 % 2 ^ 6 * 2 ^ 2)))

theorem setF_getF (a k w j : Nat) : setF (getF a k w) j w = some (getF a k w <<< j) := by
  unfold setF
  rw [if_pos]
  rw [getF_eq]
  exact Nat.mod_lt _ (Nat.two_pow_pos w)

theorem confWord_or (a : Nat) :
    (getF a 20 8 <<< 24 ||| getF a 15 5 <<< 19 ||| getF a 12 3 <<< 16 ||| getF a 8 4 <<< 8 ||| getF a 2 6 <<< 2) =
      confWord a := by
  have h1 : a / 2 ^ 2 % 2 ^ 6 < 2 ^ 6 := Nat.mod_lt _ (by decide)
  have h2 : a / 2 ^ 8 % 2 ^ 4 < 2 ^ 4 := Nat.mod_lt _ (by decide)
  have h3 : a / 2 ^ 12 % 2 ^ 3 < 2 ^ 3 := Nat.mod_lt _ (by decide)
  have h4 : a / 2 ^ 15 % 2 ^ 5 < 2 ^ 5 := Nat.mod_lt _ (by decide)
  simp only [getF_eq]
  unfold confWord
  generalize a / 2 ^ 2 % 2 ^ 6 = x1 at *
  generalize a / 2 ^ 8 % 2 ^ 4 = x2 at *
  generalize a / 2 ^ 12 % 2 ^ 3 = x3 at *
  generalize a / 2 ^ 15 % 2 ^ 5 = x4 at *
  rw [Nat.or_assoc, Nat.or_assoc, Nat.or_assoc, Nat.shiftLeft_eq x1 2, or_add x2 8 _ (by omega),
    or_add x3 16 _ (by omega), or_add x4 19 _ (by omega), or_add _ 24 _ (by omega)]

theorem conf_eq (r : Req) (f : Nat) (hm : r.master < 65536) (ht : r.tag < 256)
    (hf : f = beBits r.gp.be (fun i => r.gp.addr % 4 + i) (List.range (min r.gp.len 4))) (hf16 : f < 16) :
    conf r = (if r.gp.cmd == .write then (confData (r.gp.addr % 4) 0 (r.gp.data.take (min r.gp.len 4))).map
        fun v => [2 * 2 ^ 29 + 4 * 2 ^ 24 + 1, r.master * 2 ^ 16 + r.tag * 2 ^ 8 + f, confWord (r.gp.addr % 2 ^ 32), v]
      else some [4 * 2 ^ 24 + 1, r.master * 2 ^ 16 + r.tag * 2 ^ 8 + f, confWord (r.gp.addr % 2 ^ 32)]) := by
  have e3 : getF (r.gp.addr % 2 ^ 32) 0 2 = r.gp.addr % 4 := by rw [getF_eq]; omega
  have e0 : hdr0 (if r.gp.cmd == .write then 2 else 0) 4 1 =
      some ((if r.gp.cmd == .write then 2 else 0) * 2 ^ 29 + 4 * 2 ^ 24 + 1) :=
    hdr0_eq _ _ _ (by split <;> omega) (by omega) (by omega)
  have e1 : hdr1 r.master r.tag 0 f = some (r.master * 2 ^ 16 + r.tag * 2 ^ 8 + f) := by
    rw [hdr1_eq _ _ _ _ hm ht (by omega) hf16]; simp
  unfold conf
  simp only [e3, ← hf, e0, e1, setF_getF, Option.bind_eq_bind, Option.bind_some, confWord_or]
  cases r.gp.cmd <;> simp [Option.map_eq_bind, Function.comp_def]

theorem conf_be_lt (be : List Bool) (s n : Nat) (h : s + n ≤ 4) :
    beBits be (fun i => s + i) (List.range n) < 16 :=
  beBits_lt _ _ _ 4 fun i hi => by have := List.mem_range.mp hi; omega

theorem conf_be_bit (be : List Bool) (s n j : Nat) :
    (beBits be (fun i => s + i) (List.range n)).testBit j = true ↔ s ≤ j ∧ j < s + n ∧ beEnabled be (j - s) = true := by
  unfold beBits
  rw [beBits_testBit]
  simp only [Nat.zero_testBit, Bool.false_or, List.any_eq_true, List.mem_range, Bool.and_eq_true, decide_eq_true_eq]
  constructor
  · rintro ⟨i, h1, h2, h3⟩
    have : j - s = i := by omega
    rw [this]
    exact ⟨by omega, by omega, h2⟩
  · rintro ⟨h1, h2, h3⟩
    exact ⟨j - s, by omega, h3, by omega⟩

/-- Byte `j` of the word that holds `d` from offset `s` on. -/
def lifted (s : Nat) (d : List Byte) (j : Nat) : Byte := if s ≤ j then d.getD (j - s) 0 else 0

theorem confData_eq (s : Nat) (d : List Byte) (h : s + d.length ≤ 4) :
    confData s 0 d = some (word (lifted s d 0) (lifted s d 1) (lifted s d 2) (lifted s d 3)) := by
  match s, d, h with
  | 0, [], _ => rfl
  | 1, [], _ => rfl
  | 2, [], _ => rfl
  | 3, [], _ => rfl
  | 4, [], _ => rfl
  | 0, [a], _ => simp [confData, lifted, word]
  | 0, [a, b], _ => simp [confData, lifted, word]
  | 0, [a, b, c], _ => simp [confData, lifted, word, Nat.or_assoc]
  | 0, [a, b, c, d], _ => simp [confData, lifted, word, Nat.or_assoc]
  | 1, [a], _ => simp [confData, lifted, word]
  | 1, [a, b], _ => simp [confData, lifted, word]
  | 1, [a, b, c], _ => simp [confData, lifted, word, Nat.or_assoc]
  | 2, [a], _ => simp [confData, lifted, word]
  | 2, [a, b], _ => simp [confData, lifted, word]
  | 3, [a], _ => simp [confData, lifted, word]
  | s + 5, d, h => omega
  | s + 4, a :: d, h => simp only [List.length_cons] at h; omega
  | s + 3, a :: b :: d, h => simp only [List.length_cons] at h; omega
  | s + 2, a :: b :: c :: d, h => simp only [List.length_cons] at h; omega
  | s + 1, a :: b :: c :: e :: d, h => simp only [List.length_cons] at h; omega
  | s, a :: b :: c :: e :: f :: d, h => simp only [List.length_cons] at h; omega

/-- The address in a configuration request. -/
theorem cfgAddress_pkt (h0 h1 a : Nat) (t : List Byte) :
    cfgAddress (pkt h0 h1 (confWord a) t) = a % 2 ^ 28 / 4 * 4 := by
  have fields : a % 2 ^ 28 / 4 * 4 = a / 2 ^ 20 % 2 ^ 8 * 2 ^ 20 + a / 2 ^ 15 % 2 ^ 5 * 2 ^ 15 + a / 2 ^ 12 % 2 ^ 3 * 2 ^ 12 +
      a / 2 ^ 8 % 2 ^ 4 * 2 ^ 8 + a / 2 ^ 2 % 2 ^ 6 * 4 := by omega
  rw [fields]
  clear fields
  unfold cfgAddress confWord
  rw [at_8, at_9, at_10, at_11]
  have h1 : a / 2 ^ 2 % 2 ^ 6 < 2 ^ 6 := Nat.mod_lt _ (by decide)
  have h2 : a / 2 ^ 8 % 2 ^ 4 < 2 ^ 4 := Nat.mod_lt _ (by decide)
  have h3 : a / 2 ^ 12 % 2 ^ 3 < 2 ^ 3 := Nat.mod_lt _ (by decide)
  have h4 : a / 2 ^ 15 % 2 ^ 5 < 2 ^ 5 := Nat.mod_lt _ (by decide)
  have h5 : a / 2 ^ 20 % 2 ^ 8 < 2 ^ 8 := Nat.mod_lt _ (by decide)
  generalize a / 2 ^ 2 % 2 ^ 6 = x1 at *
  generalize a / 2 ^ 8 % 2 ^ 4 = x2 at *
  generalize a / 2 ^ 12 % 2 ^ 3 = x3 at *
  generalize a / 2 ^ 15 % 2 ^ 5 = x4 at *
  generalize a / 2 ^ 20 % 2 ^ 8 = x5 at *
  have b1 : (x5 * 2 ^ 24 + (x4 * 2 ^ 19 + (x3 * 2 ^ 16 + (x2 * 2 ^ 8 + x1 * 2 ^ 2)))) / 16777216 % 256 = x5 := by omega
  have b2 : (x5 * 2 ^ 24 + (x4 * 2 ^ 19 + (x3 * 2 ^ 16 + (x2 * 2 ^ 8 + x1 * 2 ^ 2)))) / 65536 % 256 = x4 * 8 + x3 := by omega
  have b3 : (x5 * 2 ^ 24 + (x4 * 2 ^ 19 + (x3 * 2 ^ 16 + (x2 * 2 ^ 8 + x1 * 2 ^ 2)))) / 256 % 256 = x2 := by omega
  have b4 : (x5 * 2 ^ 24 + (x4 * 2 ^ 19 + (x3 * 2 ^ 16 + (x2 * 2 ^ 8 + x1 * 2 ^ 2)))) % 256 = x1 * 4 := by omega
  rw [b1, b2, b3, b4]
  omega

theorem wire_conf (h0 h1 h2 : Nat) (ws : List Nat) : wire (h0 :: h1 :: h2 :: ws) = pkt h0 h1 h2 (wire ws) := by
  simp [wire, pkt]

/-- **A configuration write becomes one configuration write request with the same effect**: for every
access within a word of the 256 MB configuration space, with any byte enables.  Missing for the full
property: accesses that cross a word (`conf_crossing_asserts`) or are longer (`long_conf_truncated`). -/
theorem conf_write_exact_partial (r : Req) (m : Mem) (hw : r.gp.cmd = .write) (ha : r.gp.addr < 2 ^ 28)
    (h4 : r.gp.addr % 4 + r.gp.len ≤ 4) (hsw : r.gp.len ≤ r.gp.sw) (hm : r.master < 65536) (ht : r.tag < 256) :
    ∃ ws, conf r = some ws ∧ IsCfgWrite (wire ws) ∧ cfgAddress (wire ws) = r.gp.addr / 4 * 4 ∧
      requester (wire ws) = r.master ∧ tag (wire ws) = r.tag ∧ tagHigh (wire ws) = 0 ∧
      effect (wire ws) (cfgAddress (wire ws)) m = (r.gp.run m).1 := by
  obtain ⟨⟨cmd, addr, data, be, sw⟩, master, tg⟩ := r
  simp only [Gp.len] at *
  subst hw
  have hmin : min data.length 4 = data.length := by omega
  have hf16 := conf_be_lt be (addr % 4) data.length h4
  have hc := conf_eq ⟨⟨.write, addr, data, be, sw⟩, master, tg⟩ _ hm ht rfl (by simp only [Gp.len]; rw [hmin]; exact hf16)
  simp only [Gp.len, hmin, List.take_length] at hc
  rw [confData_eq _ _ h4] at hc
  simp only [beq_self_eq_true, if_true, Option.map_some] at hc
  have hbit := conf_be_bit be (addr % 4) data.length
  generalize beBits be (fun i => addr % 4 + i) (List.range data.length) = f at *
  refine ⟨_, hc, ?_⟩
  rw [wire_conf]
  have hpay : wire [word (lifted (addr % 4) data 0) (lifted (addr % 4) data 1) (lifted (addr % 4) data 2) (lifted (addr % 4) data 3)] =
      [lifted (addr % 4) data 0, lifted (addr % 4) data 1, lifted (addr % 4) data 2, lifted (addr % 4) data 3] := by
    rw [wire_cons, beEnc_word]; rfl
  rw [hpay]
  generalize hP : pkt (2 * 2 ^ 29 + 4 * 2 ^ 24 + 1) (master * 2 ^ 16 + tg * 2 ^ 8 + f) (confWord (addr % 2 ^ 32))
    [lifted (addr % 4) data 0, lifted (addr % 4) data 1, lifted (addr % 4) data 2, lifted (addr % 4) data 3] = P
  have k1 : fmt P = 2 := by rw [← hP, fmt_pkt]
  have k2 : typ P = 4 := by rw [← hP, typ_pkt]
  have k3 : len P = 1 := by rw [← hP, len_pkt]; rfl
  have kp : payload P = [lifted (addr % 4) data 0, lifted (addr % 4) data 1, lifted (addr % 4) data 2, lifted (addr % 4) data 3] := by
    unfold payload
    have : wide P = false := by unfold wide; rw [k1]; rfl
    rw [this]
    simp only [Bool.false_eq_true, if_false]
    rw [← hP, drop_pkt]
  have ka : cfgAddress P = addr / 4 * 4 := by rw [← hP, cfgAddress_pkt]; omega
  have kf : firstBE P = f := by rw [← hP, firstBE_pkt]; omega
  refine ⟨⟨k2, k1, k3, by rw [kp]; rfl⟩, ka, ?_, ?_, ?_, ?_⟩
  · rw [← hP, requester_pkt]; omega
  · rw [← hP, tag_pkt]; omega
  · rw [← hP, tagHigh_pkt]
  · funext x
    show _ = writeFrom m addr sw be 0 data x
    rw [writeFrom_at m addr sw be data 0 (by omega)]
    unfold effect
    rw [k3, kp, ka]
    have hcond : (addr / 4 * 4 ≤ x ∧ x < addr / 4 * 4 + 4 * 1 ∧ lane P (x - addr / 4 * 4) = true) ↔
        (addr + 0 ≤ x ∧ x < addr + 0 + data.length ∧ beEnabled be (x - addr) = true) := by
      constructor
      · rintro ⟨q1, q2, q3⟩
        unfold lane at q3
        rw [if_pos (by omega), kf, hbit] at q3
        obtain ⟨q3, q4, q5⟩ := q3
        have hx : (x - addr / 4 * 4) % 4 - addr % 4 = x - addr := by omega
        rw [hx] at q5
        exact ⟨by omega, by omega, q5⟩
      · rintro ⟨q1, q2, q3⟩
        refine ⟨by omega, by omega, ?_⟩
        unfold lane
        rw [if_pos (by omega), kf, hbit]
        have hx : (x - addr / 4 * 4) % 4 - addr % 4 = x - addr := by omega
        rw [hx]
        exact ⟨by omega, by omega, q3⟩
    by_cases cc : addr + 0 ≤ x ∧ x < addr + 0 + data.length ∧ beEnabled be (x - addr) = true
    · rw [if_pos (hcond.mpr cc), if_pos cc]
      have hl : ∀ j, j < 4 → [lifted (addr % 4) data 0, lifted (addr % 4) data 1, lifted (addr % 4) data 2,
          lifted (addr % 4) data 3].getD j 0 = lifted (addr % 4) data j := by
        intro j hj
        match j, hj with
        | 0, _ => rfl
        | 1, _ => rfl
        | 2, _ => rfl
        | 3, _ => rfl
      rw [hl _ (by omega)]
      unfold lifted
      rw [if_pos (by omega)]
      congr 1
      omega
    · rw [if_neg (fun h => cc (hcond.mp h)), if_neg cc]

/-- **A configuration read returns the addressed bytes**: one configuration read request for the word
with exactly the bytes of the access enabled, and whatever completion with that word the other side
sends ends the access with OK and the bytes.  Same proviso as `mem_read_exact_partial`. -/
theorem conf_read_exact_partial (r : Req) (m : Mem) (hr : r.gp.cmd = .read) (ha : r.gp.addr < 2 ^ 28)
    (hbe : r.gp.be = []) (h0 : 0 < r.gp.len) (h4 : r.gp.addr % 4 + r.gp.len ≤ 4) (hsw : r.gp.len ≤ r.gp.sw)
    (hm : r.master < 65536) (ht : r.tag < 256) :
    ∃ ws, conf r = some ws ∧ IsCfgRead (wire ws) ∧ cfgAddress (wire ws) = r.gp.addr / 4 * 4 ∧
      requester (wire ws) = r.master ∧ tag (wire ws) = r.tag ∧ tagHigh (wire ws) = 0 ∧
      (∀ i, i < 4 → (lane (wire ws) i = true ↔ r.gp.addr % 4 ≤ i ∧ i < r.gp.addr % 4 + r.gp.len)) ∧
      ∀ c, AnswersData (wire ws) c (m.range (cfgAddress (wire ws)) (4 * len (wire ws))) →
        ∃ cs, rxCpl c = some cs ∧ cplTx cs = reqTx ws ∧ complete r ws cs = some (.ok, (r.gp.run m).2) := by
  have hmin : min r.gp.len 4 = r.gp.len := by omega
  have hf16 := conf_be_lt r.gp.be (r.gp.addr % 4) r.gp.len h4
  have hc := conf_eq r _ hm ht rfl (by rw [hmin]; exact hf16)
  rw [hmin] at hc
  have hcmd : (r.gp.cmd == Cmd.write) = false := by rw [hr]; rfl
  rw [hcmd] at hc
  simp only [Bool.false_eq_true, if_false] at hc
  have hbit := conf_be_bit r.gp.be (r.gp.addr % 4) r.gp.len
  generalize beBits r.gp.be (fun i => r.gp.addr % 4 + i) (List.range r.gp.len) = f at *
  refine ⟨_, hc, ?_⟩
  rw [wire_conf]
  generalize hP : pkt (4 * 2 ^ 24 + 1) (r.master * 2 ^ 16 + r.tag * 2 ^ 8 + f) (confWord (r.gp.addr % 2 ^ 32)) (wire []) = P
  have k1 : fmt P = 0 := by rw [← hP, fmt_pkt]
  have k2 : typ P = 4 := by rw [← hP, typ_pkt]
  have k3 : len P = 1 := by rw [← hP, len_pkt]; rfl
  have kp : payload P = [] := by
    unfold payload
    have : wide P = false := by unfold wide; rw [k1]; rfl
    rw [this]
    simp only [Bool.false_eq_true, if_false]
    rw [← hP, drop_pkt]; rfl
  have ka : cfgAddress P = r.gp.addr / 4 * 4 := by rw [← hP, cfgAddress_pkt]; omega
  have kf : firstBE P = f := by rw [← hP, firstBE_pkt]; omega
  have kr : requester P = r.master := by rw [← hP, requester_pkt]; omega
  have kt : tag P = r.tag := by rw [← hP, tag_pkt]; omega
  have kh : tagHigh P = 0 := by rw [← hP, tagHigh_pkt]
  refine ⟨⟨k2, k1, k3, kp⟩, ka, kr, kt, kh, ?_, ?_⟩
  · intro i hi
    unfold lane
    rw [if_pos (by omega), kf, hbit, show i % 4 = i by omega, hbe]
    simp [beEnabled]
  · intro c hans
    have hd : dwLen r.gp = 1 := by
      unfold dwLen
      split <;> omega
    obtain ⟨cs, k0, z1, z2, d0, d1, d2, d3, c5, hcs, hk, hty, hfm, htx, hpay⟩ := one_word P c (m.range (cfgAddress P) (4 * len P)) hans k3
    refine ⟨cs, c5, ?_, ?_⟩
    · rw [htx, kr, kt, kh, tx_eq _ _ _ ⟨by decide, by decide⟩]
      omega
    · unfold complete
      have x1 : expectsData [4 * 2 ^ 24 + 1, r.master * 2 ^ 16 + r.tag * 2 ^ 8 + f, confWord (r.gp.addr % 2 ^ 32)] = true := by
        unfold expectsData
        simp only [List.getD_cons_zero]
        decide
      have x2 : isCplD cs = true := by
        rw [hcs]
        unfold isCplD
        simp only [List.getD_cons_zero]
        rw [hfm]; rfl
      rw [x1, x2]
      simp only [Bool.and_self, if_true]
      rw [hcs, copy_one r.gp k0 z1 z2 d0 d1 d2 d3 hd hfm hk]
      rw [k3, ka] at hpay
      rw [shifted_bytes _ _ _ _ _ _ h4, ← hpay, range_drop_take _ _ _ _ h4]
      have ea : r.gp.addr / 4 * 4 + r.gp.addr % 4 = r.gp.addr := by omega
      rw [ea, run_read_range r m hr hbe hsw]
      rfl

end Verif.Tlp
