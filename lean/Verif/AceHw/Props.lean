import Verif.AceHw.Lemmas

/-! # C65: data, strobes and attributes through the ACE hardware bridges -/

namespace Verif.AceHw
open Verif Verif.Axi
open Verif.HwMaster (write32 read32 axsizeOf)
open Verif.HwSlave (writes applyWrites)

/-! ## Attributes -/

theorem genF1 (s : Nat) (v : BitVec 8) (i : Nat) : (genF s 0x1 v).getLsbD i =
    (decide (i < 32) && decide (s ≤ i) && decide (i - s < 1) && v.getLsbD (i - s)) := getLsbD_genF s 1 v i
theorem genF3 (s : Nat) (v : BitVec 8) (i : Nat) : (genF s 0x3 v).getLsbD i =
    (decide (i < 32) && decide (s ≤ i) && decide (i - s < 2) && v.getLsbD (i - s)) := getLsbD_genF s 2 v i
theorem genF7 (s : Nat) (v : BitVec 8) (i : Nat) : (genF s 0x7 v).getLsbD i =
    (decide (i < 32) && decide (s ≤ i) && decide (i - s < 3) && v.getLsbD (i - s)) := getLsbD_genF s 3 v i
theorem genFF (s : Nat) (v : BitVec 8) (i : Nat) : (genF s 0xF v).getLsbD i =
    (decide (i < 32) && decide (s ≤ i) && decide (i - s < 4) && v.getLsbD (i - s)) := getLsbD_genF s 4 v i

theorem attr_bits (bm k : Nat) (hbm : bm = 2 ^ k - 1) (hk : k ≤ 2) (a : Attr) (h : a.Ok) (hb : a.burst.toNat < 2 ^ k) :
    getAttr bm (genAttr bm a) = a := by
  have key : ∀ (shift w : Nat) (v : BitVec 8), v.toNat < 2 ^ w → w ≤ 8 →
      (∀ i, i < w → (genAttr bm a).getLsbD (shift + i) = v.getLsbD i) → getF shift (2 ^ w - 1) (genAttr bm a) = v := by
    intro shift w v hv hw hbit
    apply BitVec.eq_of_getLsbD_eq
    intro i hi
    rw [getLsbD_getF _ _ _ _ hi]
    by_cases hiw : i < w
    · rw [decide_eq_true hiw, Bool.true_and, hbit i hiw]
    · rw [decide_eq_false hiw, Bool.false_and, high_bits v w hv i (by omega)]
  have bits : ∀ i, (genAttr bm a).getLsbD i =
      ((decide (i < 32) && decide (0 ≤ i) && decide (i - 0 < k) && a.burst.getLsbD (i - 0)) ||
       (decide (i < 32) && decide (2 ≤ i) && decide (i - 2 < 1) && a.lock.getLsbD (i - 2)) ||
       (decide (i < 32) && decide (4 ≤ i) && decide (i - 4 < 4) && a.cache.getLsbD (i - 4)) ||
       (decide (i < 32) && decide (8 ≤ i) && decide (i - 8 < 3) && a.prot.getLsbD (i - 8)) ||
       (decide (i < 32) && decide (11 ≤ i) && decide (i - 11 < 4) && a.qos.getLsbD (i - 11)) ||
       (decide (i < 32) && decide (15 ≤ i) && decide (i - 15 < 4) && a.region.getLsbD (i - 15)) ||
       (decide (i < 32) && decide (20 ≤ i) && decide (i - 20 < 2) && a.bar.getLsbD (i - 20)) ||
       (decide (i < 32) && decide (22 ≤ i) && decide (i - 22 < 2) && a.domain.getLsbD (i - 22)) ||
       (decide (i < 32) && decide (24 ≤ i) && decide (i - 24 < 4) && a.snoop.getLsbD (i - 24))) := by
    intro i
    unfold genAttr
    rw [hbm]
    simp only [BitVec.getLsbD_or, getLsbD_genF, genF1, genF3, genF7, genFF]
  unfold getAttr
  have c1 : getF 0 bm (genAttr bm a) = a.burst := by
    conv => lhs; arg 2; rw [hbm]
    refine key 0 k _ hb (by omega) ?_
    intro i hi
    rw [bits]
    have : i < 2 := by omega
    simp [hi, show i < 32 by omega, show ¬ 2 ≤ i by omega, show ¬ 4 ≤ i by omega, show ¬ 8 ≤ i by omega, show ¬ 11 ≤ i by omega,
      show ¬ 15 ≤ i by omega, show ¬ 20 ≤ i by omega, show ¬ 22 ≤ i by omega, show ¬ 24 ≤ i by omega]
  have c2 : getF 2 0x1 (genAttr bm a) = a.lock := by
    refine key 2 1 _ h.lock (by omega) ?_
    intro i hi
    rw [bits]
    have : i = 0 := by omega
    subst this
    simp [show ¬ (2 < k) by omega]
  have c3 : getF 4 0xF (genAttr bm a) = a.cache := by
    refine key 4 4 _ h.cache (by omega) ?_
    intro i hi
    rw [bits]
    simp [hi, show ¬ (4 + i < k) by omega, show 4 + i < 32 by omega, show ¬ (4 + i - 2 < 1) by omega, show ¬ (8 ≤ 4 + i) by omega,
      show ¬ (11 ≤ 4 + i) by omega, show ¬ (15 ≤ 4 + i) by omega, show ¬ (20 ≤ 4 + i) by omega, show ¬ (22 ≤ 4 + i) by omega,
      show ¬ (24 ≤ 4 + i) by omega]
  have c4 : getF 8 0x7 (genAttr bm a) = a.prot := by
    refine key 8 3 _ h.prot (by omega) ?_
    intro i hi
    rw [bits]
    simp [hi, show ¬ (8 + i < k) by omega, show 8 + i < 32 by omega, show ¬ (8 + i - 2 < 1) by omega, show ¬ (8 + i - 4 < 4) by omega,
      show ¬ (11 ≤ 8 + i) by omega, show ¬ (15 ≤ 8 + i) by omega, show ¬ (20 ≤ 8 + i) by omega, show ¬ (22 ≤ 8 + i) by omega,
      show ¬ (24 ≤ 8 + i) by omega]
  have c5 : getF 11 0xF (genAttr bm a) = a.qos := by
    refine key 11 4 _ h.qos (by omega) ?_
    intro i hi
    rw [bits]
    simp [hi, show ¬ (11 + i < k) by omega, show 11 + i < 32 by omega, show ¬ (11 + i - 2 < 1) by omega, show ¬ (11 + i - 4 < 4) by omega,
      show ¬ (11 + i - 8 < 3) by omega, show ¬ (15 ≤ 11 + i) by omega, show ¬ (20 ≤ 11 + i) by omega, show ¬ (22 ≤ 11 + i) by omega,
      show ¬ (24 ≤ 11 + i) by omega]
  have c6 : getF 15 0xF (genAttr bm a) = a.region := by
    refine key 15 4 _ h.region (by omega) ?_
    intro i hi
    rw [bits]
    simp [hi, show ¬ (15 + i < k) by omega, show 15 + i < 32 by omega, show ¬ (15 + i - 2 < 1) by omega, show ¬ (15 + i - 4 < 4) by omega,
      show ¬ (15 + i - 8 < 3) by omega, show ¬ (15 + i - 11 < 4) by omega, show ¬ (20 ≤ 15 + i) by omega, show ¬ (22 ≤ 15 + i) by omega,
      show ¬ (24 ≤ 15 + i) by omega]
  have c7 : getF 20 0x3 (genAttr bm a) = a.bar := by
    refine key 20 2 _ h.bar (by omega) ?_
    intro i hi
    rw [bits]
    simp [hi, show ¬ (20 + i < k) by omega, show 20 + i < 32 by omega, show ¬ (20 + i - 2 < 1) by omega, show ¬ (20 + i - 4 < 4) by omega,
      show ¬ (20 + i - 8 < 3) by omega, show ¬ (20 + i - 11 < 4) by omega, show ¬ (20 + i - 15 < 4) by omega, show ¬ (22 ≤ 20 + i) by omega,
      show ¬ (24 ≤ 20 + i) by omega]
  have c8 : getF 22 0x3 (genAttr bm a) = a.domain := by
    refine key 22 2 _ h.domain (by omega) ?_
    intro i hi
    rw [bits]
    simp [hi, show ¬ (22 + i < k) by omega, show 22 + i < 32 by omega, show ¬ (22 + i - 2 < 1) by omega, show ¬ (22 + i - 4 < 4) by omega,
      show ¬ (22 + i - 8 < 3) by omega, show ¬ (22 + i - 11 < 4) by omega, show ¬ (22 + i - 15 < 4) by omega, show ¬ (22 + i - 20 < 2) by omega,
      show ¬ (24 ≤ 22 + i) by omega]
  have c9 : getF 24 0xF (genAttr bm a) = a.snoop := by
    refine key 24 4 _ h.snoop (by omega) ?_
    intro i hi
    rw [bits]
    simp [hi, show ¬ (24 + i < k) by omega, show 24 + i < 32 by omega, show ¬ (24 + i - 2 < 1) by omega, show ¬ (24 + i - 4 < 4) by omega,
      show ¬ (24 + i - 8 < 3) by omega, show ¬ (24 + i - 11 < 4) by omega, show ¬ (24 + i - 15 < 4) by omega, show ¬ (24 + i - 20 < 2) by omega,
      show ¬ (24 + i - 22 < 2) by omega]
  rw [c1, c2, c3, c4, c5, c6, c7, c8, c9]

/-- **C65, attributes of reads.** Everything the attribute register carries of a read
is what was put in. -/
theorem read_attributes (a : Attr) (h : a.Ok) : getAttr arBurstMask (genAttr arBurstMask a) = a :=
  attr_bits 0x3 2 rfl (by decide) a h (by have := h.burst; omega)

/-- **C65, attributes of writes**, except for wrapping bursts. -/
theorem write_attributes_partial (a : Attr) (h : a.Ok) (hb : a.burst ≠ 2) :
    getAttr awBurstMask (genAttr awBurstMask a) = a := by
  refine attr_bits 0x1 1 rfl (by decide) a h ?_
  have := h.burst
  have h2 : a.burst.toNat ≠ 2 := fun e => hb (BitVec.eq_of_toNat_eq e)
  omega

example : (⟨1, 1, 0xF, 2, 3, 7, 1, 2, 0xB⟩ : Attr).Ok ∧ (⟨1, 1, 0xF, 2, 3, 7, 1, 2, 0xB⟩ : Attr).burst ≠ 2 ∧
    genAttr awBurstMask ⟨1, 1, 0xF, 2, 3, 7, 1, 2, 0xB⟩ = 0xB939AF5 := by
  refine ⟨⟨?_, ?_, ?_, ?_, ?_, ?_, ?_, ?_, ?_⟩, ?_, ?_⟩ <;> decide

/-- The field that sets a wrapping write apart is not in the mask: on its way out the
hardware is told `FIXED`, and on its way in the burst is taken for `FIXED`. -/
theorem wrap_write_fixed : (∀ a : Attr, a.Ok → a.burst = 2 → burstOf (genAttr awBurstMask a) = .fixed) ∧
    (∀ r : BitVec 32, burstOf r = .wrap → r.extractLsb' 0 2 = 2 → (getAttr awBurstMask r).burst = 0) := by
  constructor
  · intro a h hb
    unfold burstOf
    rw [if_pos]
    apply BitVec.eq_of_getLsbD_eq
    intro i hi
    rw [BitVec.getLsbD_extractLsb', Nat.zero_add]
    unfold genAttr awBurstMask
    simp only [BitVec.getLsbD_or, genF1, genF3, genF7, genFF]
    have : i = 0 ∨ i = 1 := by omega
    rcases this with rfl | rfl <;> simp [hb]
  · intro r _ h
    have h0 : r.getLsbD 0 = false := by
      have := congrArg (fun v => BitVec.getLsbD v 0) h
      simpa using this
    apply BitVec.eq_of_getLsbD_eq
    intro i hi
    have e : (getAttr awBurstMask r).burst = getF 0 (2 ^ 1 - 1) r := rfl
    rw [e, getLsbD_getF _ _ _ _ hi]
    by_cases h1 : i < 1
    · have : i = 0 := by omega
      subst this
      show (true && r.getLsbD 0) = false
      rw [h0]; rfl
    · simp [h1]

/-- **C65, addresses.** -/
theorem address_round_trip (a : BitVec 64) : addrJoin (addrHi a) (addrLo a) = a := by
  apply BitVec.eq_of_getLsbD_eq
  intro i hi
  have hones : ∀ j, (0xFFFFFFFF : BitVec 64).getLsbD j = decide (j < 32) := by
    intro j
    rw [show (0xFFFFFFFF : BitVec 64) = BitVec.ofNat 64 (2 ^ 32 - 1) by decide, BitVec.getLsbD_ofNat, Nat.testBit_two_pow_sub_one]
    by_cases h : j < 32 <;> simp [h]
    omega
  unfold addrJoin addrHi addrLo
  simp only [BitVec.getLsbD_or, BitVec.getLsbD_shiftLeft, BitVec.getLsbD_setWidth, BitVec.getLsbD_and, BitVec.getLsbD_ushiftRight, hones]
  by_cases h : i < 32
  · simp [h, hi]
  · simp [h, hi, show i - 32 < 32 by omega, show i - 32 < 64 by omega, show 32 + (i - 32) = i by omega]

end Verif.AceHw
