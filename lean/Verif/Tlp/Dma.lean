import Verif.Tlp.Conf

/-! # C48: memory accesses of the device (DMA) -/

namespace Verif.Tlp
open Verif Spec

theorem wide_iff (l : List Byte) (h : fmt l < 4) : wide l = true ↔ fmt l = 1 ∨ fmt l = 3 := by
  unfold wide
  rw [beq_iff_eq]; omega

theorem withData_iff (l : List Byte) : withData l = true ↔ fmt l = 2 ∨ fmt l = 3 := by
  unfold withData
  rw [beq_iff_eq]; omega

/-- What the bridge gets out of a memory request. -/
theorem rxMem_eq (l : List Byte) (hf : fmt l < 4) (h12 : 12 ≤ l.length) (h16 : wide l = true → 16 ≤ l.length)
    (hp : withData l = true → 4 * len l ≤ (payload l).length) :
    rxMem l = some ⟨!withData l, address l, len l, requester l, tag l,
      if withData l then some ((payload l).take (4 * len l)) else none⟩ := by
  obtain ⟨a0, a1, a2, a3, b0, b1, b2, b3, c0, c1, c2, c3, t, e1, e2⟩ := eq_pkt l h12
  have hfm : getF (word a0 a1 a2 a3) 29 3 = fmt l := by rw [e2, fmt_pkt, getF_eq]
  have hln : (if getF (word a0 a1 a2 a3) 0 10 = 0 then 1024 else getF (word a0 a1 a2 a3) 0 10) = len l := by
    rw [e2, len_pkt, getF_eq]
    have : word a0 a1 a2 a3 / 2 ^ 0 % 2 ^ 10 = word a0 a1 a2 a3 % 1024 := by omega
    rw [this]
  have hrq : getF (word b0 b1 b2 b3) 16 16 = requester l := by rw [e2, requester_pkt, getF_eq]
  have htg : getF (word b0 b1 b2 b3) 8 8 = tag l := by rw [e2, tag_pkt, getF_eq]
  have hdr : l.drop 12 = t := by rw [e1]; rfl
  have hlen : l.length = 12 + t.length := by rw [e1]; simp only [List.length_cons]; omega
  have hwi := wide_iff l hf
  have hdi := withData_iff l
  have hbe : be32 l 8 = word c0 c1 c2 c3 := by
    rw [e2, be32_pkt]; exact Nat.mod_eq_of_lt (word_lt _ _ _ _)
  rw [show rxMem l = rxMem (a0 :: a1 :: a2 :: a3 :: b0 :: b1 :: b2 :: b3 :: c0 :: c1 :: c2 :: c3 :: t) by rw [← e1]]
  unfold rxMem
  simp only [hfm, hln, hrq, htg]
  cases hw : wide l with
  | true =>
    have h16' := h16 hw
    have : 4 ≤ t.length := by omega
    rw [if_pos (hwi.mp hw)]
    match t, this with
    | d0 :: d1 :: d2 :: d3 :: u, _ =>
      simp only [Option.bind_some]
      have hpay : payload l = u := by
        unfold payload
        rw [hw, if_pos rfl, e1]; rfl
      have hbe2 : be32 l 12 = word d0 d1 d2 d3 := by
        have : l = pkt (word a0 a1 a2 a3) (word b0 b1 b2 b3) (word c0 c1 c2 c3) (beEnc 4 (word d0 d1 d2 d3) ++ u) := by
          rw [beEnc_word]; exact e2
        rw [this, be32_12]; exact Nat.mod_eq_of_lt (word_lt _ _ _ _)
      have had : (word c0 c1 c2 c3 <<< 32 ||| getF (word d0 d1 d2 d3) 2 30 <<< 2) = address l := by
        unfold address
        rw [hw, if_pos rfl, hbe, hbe2]
        have := word_lt d0 d1 d2 d3
        rw [getF_eq, Nat.shiftLeft_eq (word d0 d1 d2 d3 / 2 ^ 2 % 2 ^ 30), or_add _ 32 _ (by omega)]
        omega
      rw [had, ← hpay]
      cases hd : withData l with
      | true =>
        rw [if_pos (hdi.mp hd), if_pos (by have := hp hd; omega)]
        simp [Nat.mul_comm]
      | false =>
        have hn : ¬ (fmt l = 2 ∨ fmt l = 3) := fun h => by rw [hdi.mpr h] at hd; exact absurd hd (by decide)
        rw [if_neg hn]
        have : fmt l = 0 ∨ fmt l = 1 := by omega
        rcases this with h | h <;> simp [h]
  | false =>
    have hn : ¬ (fmt l = 1 ∨ fmt l = 3) := fun h => by rw [hwi.mpr h] at hw; exact absurd hw (by decide)
    rw [if_neg hn]
    simp only [Option.bind_some]
    have hpay : payload l = t := by
      unfold payload
      rw [hw]
      simp only [Bool.false_eq_true, if_false]
      exact hdr
    have had : getF (word c0 c1 c2 c3) 2 30 <<< 2 = address l := by
      unfold address
      rw [hw]
      simp only [Bool.false_eq_true, if_false]
      rw [hbe]
      have := word_lt c0 c1 c2 c3
      rw [getF_eq, Nat.shiftLeft_eq]
      omega
    rw [had, ← hpay]
    cases hd : withData l with
    | true =>
      rw [if_pos (hdi.mp hd), if_pos (by have := hp hd; omega)]
      simp [Nat.mul_comm]
    | false =>
      have hn : ¬ (fmt l = 2 ∨ fmt l = 3) := fun h => by rw [hdi.mpr h] at hd; exact absurd hd (by decide)
      rw [if_neg hn]
      have : fmt l = 0 ∨ fmt l = 1 := by omega
      rcases this with h | h <;> simp [h]

theorem len_bounds (l : List Byte) : 1 ≤ len l ∧ len l ≤ 1024 := by
  unfold len
  have h1 : at_ l 3 < 256 := (l.getD 3 0).isLt
  have h2 : at_ l 2 % 4 < 4 := Nat.mod_lt _ (by decide)
  split <;> omega

/-- **A memory write of the device has its effect on memory**, for every such packet with all byte
enables.  Missing for the full property: byte enables (`dma_write_ignores_enables`). -/
theorem dma_write_exact_partial (m : Mem) (l : List Byte) (h : IsMemWrite l)
    (hbe : ∀ i, i < 4 * len l → lane l i = true) :
    ∃ t, rxMem l = some t ∧ dma m t = some (effect l (address l) m, none) := by
  obtain ⟨h1, h2, h3, h4⟩ := h
  have hb := len_bounds l
  have h16 : (if wide l then 16 else 12) + 4 * len l = l.length := by
    unfold payload at h4
    rw [List.length_drop] at h4
    omega
  have h12 : 12 ≤ l.length := by split at h16 <;> omega
  refine ⟨_, rxMem_eq l h3 h12 (fun hw => by rw [if_pos hw] at h16; omega) (fun _ => by omega), ?_⟩
  unfold dma
  rw [h2]
  simp only [Bool.not_true, Bool.false_eq_true, if_false, if_true, Option.map_some]
  rw [List.take_of_length_le (by omega)]
  congr 2
  funext x
  show writeFrom m (address l) (len l * 4) [] 0 (payload l) x = _
  rw [writeFrom_at m _ _ [] (payload l) 0 (by omega)]
  unfold effect
  have hc : (address l + 0 ≤ x ∧ x < address l + 0 + (payload l).length ∧ beEnabled [] (x - address l) = true) ↔
      (address l ≤ x ∧ x < address l + 4 * len l ∧ lane l (x - address l) = true) := by
    rw [h4, Nat.add_zero]
    constructor
    · rintro ⟨q1, q2, _⟩; exact ⟨q1, q2, hbe _ (by omega)⟩
    · rintro ⟨q1, q2, _⟩; exact ⟨q1, q2, by simp [beEnabled]⟩
  by_cases c : address l ≤ x ∧ x < address l + 4 * len l ∧ lane l (x - address l) = true
  · rw [if_pos c, if_pos (hc.mpr c)]; rfl
  · rw [if_neg c, if_neg (fun q => c (hc.mp q))]

/-- The completion the bridge builds for `n` words of memory. -/
theorem cpl_eq (rq tg : Nat) (d : List Byte) (n : Nat) (hn : 1 ≤ n ∧ n ≤ 1024) (hd : d.length = 4 * n) (hr : rq < 65536)
    (ht : tg < 256) :
    ∃ ws, cpl rq tg d = some ws ∧ wire ws = pkt (2 * 2 ^ 29 + 10 * 2 ^ 24 + n % 1024) (4 * n % 4096) (rq * 2 ^ 16 + tg * 2 ^ 8) d := by
  have e0 : hdr0 2 10 (if n = 1024 then 0 else n) = some (2 * 2 ^ 29 + 10 * 2 ^ 24 + n % 1024) := by
    rw [hdr0_eq _ _ _ (by omega) (by omega) (by split <;> omega)]
    congr 2
    split <;> omega
  have e1 : setF (if d.length = 4096 then 0 else d.length) 0 12 = some (4 * n % 4096) := by
    unfold setF
    rw [hd, if_pos (by split <;> omega), Nat.shiftLeft_zero]
    congr 1
    split <;> omega
  have e2 : d.length / 4 + (if d.length % 4 ≠ 0 then 1 else 0) = n := by
    rw [hd, if_neg (by omega)]; omega
  have e3 : setF rq 16 16 = some (rq * 2 ^ 16) := by unfold setF; rw [if_pos (by omega), Nat.shiftLeft_eq]
  have e4 : setF tg 8 8 = some (tg * 2 ^ 8) := by unfold setF; rw [if_pos (by omega), Nat.shiftLeft_eq]
  have e5 : (rq * 2 ^ 16 ||| tg * 2 ^ 8) = rq * 2 ^ 16 + tg * 2 ^ 8 := by
    have := or_add rq 16 (tg * 2 ^ 8) (by omega)
    rwa [Nat.shiftLeft_eq] at this
  refine ⟨[2 * 2 ^ 29 + 10 * 2 ^ 24 + n % 1024, 4 * n % 4096, rq * 2 ^ 16 + tg * 2 ^ 8] ++ padQuads d, ?_, ?_⟩
  · unfold cpl
    simp only [e2, e0, e1, e3, e4, e5, Option.bind_eq_bind, Option.bind_some]
  · rw [wire_append, wire_padQuads d (by omega)]
    simp [wire, pkt]

theorem requester_lt (l : List Byte) : requester l < 65536 := by
  unfold requester
  have h1 : at_ l 4 < 256 := (l.getD 4 0).isLt
  have h2 : at_ l 5 < 256 := (l.getD 5 0).isLt
  omega

theorem tag_lt (l : List Byte) : tag l < 256 := (l.getD 6 0).isLt

/-- **A memory read of the device is answered with the contents of memory**: for every such packet with
an 8-bit tag, one completion for that requester and tag, successful, with all the words read and the
right byte count.  Missing for the full property: longer tags (`long_tag_lost`) and the lower address
(`lower_address_zero`). -/
theorem dma_read_exact_partial (m : Mem) (l : List Byte) (h : IsMemRead l) (h12 : 12 ≤ l.length)
    (h16 : wide l = true → 16 ≤ l.length) (ht : tagHigh l = 0) :
    ∃ t c, rxMem l = some t ∧ dma m t = some (m, some c) ∧
      AnswersData l c (m.range (address l) (4 * len l)) ∧ byteCount c = 4 * len l := by
  obtain ⟨h1, h2, h3, h4⟩ := h
  have hb := len_bounds l
  obtain ⟨ws, w1, w2⟩ := cpl_eq (requester l) (tag l) (m.range (address l) (4 * len l)) (len l) hb (by simp)
    (requester_lt l) (tag_lt l)
  refine ⟨_, wire ws, rxMem_eq l h3 h12 h16 (fun hd => by rw [h2] at hd; exact absurd hd (by decide)), ?_, ?_⟩
  · unfold dma
    rw [h2]
    simp only [Bool.not_false, if_true]
    rw [Nat.mul_comm, w1]; rfl
  · rw [w2]
    have hr := requester_lt l
    have htl := tag_lt l
    generalize hP : pkt (2 * 2 ^ 29 + 10 * 2 ^ 24 + len l % 1024) (4 * len l % 4096) (requester l * 2 ^ 16 + tag l * 2 ^ 8)
      (m.range (address l) (4 * len l)) = P
    have kf : fmt P = 2 := by rw [← hP, fmt_pkt]; omega
    have kw : wide P = false := by unfold wide; rw [kf]; rfl
    refine ⟨⟨⟨?_, ?_, ?_, ?_, ?_⟩, kf, ?_, by simp, ?_, ?_⟩, ?_⟩
    · rw [← hP]; simp [pkt]; omega
    · rw [← hP, typ_pkt]; omega
    · rw [← hP, cplRequester_pkt]; omega
    · rw [← hP, cplTag_pkt]; omega
    · rw [ht, ← hP, tagHigh_pkt]; omega
    · rw [← hP, cplStatus_pkt]; omega
    · rw [← hP, len_pkt]
      have : (2 * 2 ^ 29 + 10 * 2 ^ 24 + len l % 1024) % 1024 = len l % 1024 := by omega
      rw [this]
      split <;> omega
    · unfold payload
      rw [kw]
      simp only [Bool.false_eq_true, if_false]
      rw [← hP, drop_pkt]
    · rw [← hP, byteCount_pkt]
      split <;> omega

end Verif.Tlp
