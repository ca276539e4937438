import Verif.Tlp.Lemmas

/-! # C48: accesses through the PCIe bridge -/

namespace Verif.Tlp
open Verif Spec

/-! ## Memory requests -/

/-- The words of a memory request whose fields fit. -/
theorem mem_eq (r : Req) (f l : Nat) (hn : 1 ≤ dwLen r.gp ∧ dwLen r.gp ≤ 1024)
    (hm : r.master < 65536) (ht : r.tag < 256)
    (hf : f = if r.gp.be = [] then 15 else beBits r.gp.be (fun i => i) (List.range 4))
    (hl : l = if 1 < dwLen r.gp then (if r.gp.be = [] then 15 else
      beBits r.gp.be (fun i => i) (List.range' ((dwLen r.gp - 1) * 4) 4)) else 0)
    (hl16 : l < 16) :
    let h0 := ((if r.gp.cmd == .write then 2 else 0) + (if r.gp.addr / 2 ^ 32 ≠ 0 then 1 else 0)) * 2 ^ 29 +
      dwLen r.gp % 1024
    let h1 := r.master * 2 ^ 16 + r.tag * 2 ^ 8 + l * 16 + f
    let a := r.gp.addr % 2 ^ 32 / 4 * 4
    mem r = (if r.gp.cmd == .write then (memData r.gp.data).map
        ([h0, h1] ++ (if r.gp.addr / 2 ^ 32 ≠ 0 then [r.gp.addr / 2 ^ 32] else []) ++ [a] ++ ·)
      else some ([h0, h1] ++ (if r.gp.addr / 2 ^ 32 ≠ 0 then [r.gp.addr / 2 ^ 32] else []) ++ [a])) := by
  intro h0 h1 a
  have hf16 : f < 16 := by
    rw [hf]
    split
    · omega
    · exact beBits_lt _ _ _ 4 (fun i hi => List.mem_range.mp hi)
  have e0 : hdr0 ((if r.gp.cmd == .write then 2 else 0) + (if r.gp.addr >>> 32 ≠ 0 then 1 else 0)) 0
      (if dwLen r.gp = 1024 then 0 else dwLen r.gp) = some h0 := by
    rw [hdr0_eq _ _ _ (by split <;> split <;> omega) (by omega) (by split <;> omega)]
    have : (if dwLen r.gp = 1024 then 0 else dwLen r.gp) = dwLen r.gp % 1024 := by split <;> omega
    rw [this, Nat.shiftRight_eq_div_pow]
    simp only [h0, Nat.zero_mul, Nat.add_zero]
  have e1 : hdr1 r.master r.tag (if 1 < dwLen r.gp then (if r.gp.be = [] then 15 else
      beBits r.gp.be (fun i => i) (List.range' ((dwLen r.gp - 1) * 4) 4)) else 0)
      (if 1 ≤ dwLen r.gp then (if r.gp.be = [] then 15 else beBits r.gp.be (fun i => i) (List.range 4)) else 0) =
      some h1 := by
    rw [if_pos hn.1, ← hf, ← hl]
    exact hdr1_eq _ _ _ _ hm ht hl16 hf16
  have e2 : setF (getF (r.gp.addr % 2 ^ 32) 2 30) 2 30 = some a := by
    unfold setF
    rw [getF_eq, if_pos (by omega), Nat.shiftLeft_eq]
    congr 1
    simp only [a]
    omega
  unfold mem
  simp only [e0, e1, e2, Option.bind_eq_bind, Option.bind_some]
  rw [Nat.shiftRight_eq_div_pow]

/-- The packet of a memory request. -/
theorem wire_mem (h0 h1 hi a : Nat) (w : Bool) (ws : List Nat) :
    wire ([h0, h1] ++ (if w then [hi] else []) ++ [a] ++ ws) =
      if w then pkt h0 h1 hi (beEnc 4 a ++ wire ws) else pkt h0 h1 a (wire ws) := by
  cases w <;> simp [wire, pkt]

theorem memData_quads (d : List Byte) (h : d.length % 4 = 0) : memData d = quads d := by
  unfold memData
  split
  · simp at h
  · simp at h
  · simp at h
  · rfl

/-- **A memory write becomes one memory write request with the same effect**: for every word-aligned
address, every length up to 4096 that is a multiple of 4 without byte enables, and every single word
with any byte enables, the packet is a well-formed request with the requester's identifiers, and what it
writes at the addressed location is what the TLM write does.  Missing for the full property: other
lengths, alignments and byte enables (`short_write_clobbers`, `long_write_overreads`,
`enabled_write_asserts`). -/
theorem mem_write_exact_partial (r : Req) (m : Mem) (hw : r.gp.cmd = .write) (ha : r.gp.addr < 2 ^ 64)
    (hal : r.gp.addr % 4 = 0) (h4 : r.gp.len % 4 = 0) (h0 : 0 < r.gp.len) (hmax : r.gp.len ≤ 4096)
    (hbe : r.gp.be = [] ∨ r.gp.len = 4) (hsw : r.gp.len ≤ r.gp.sw) (hm : r.master < 65536) (ht : r.tag < 256) :
    ∃ ws, mem r = some ws ∧ IsMemWrite (wire ws) ∧ address (wire ws) = r.gp.addr ∧ len (wire ws) * 4 = r.gp.len ∧
      requester (wire ws) = r.master ∧ tag (wire ws) = r.tag ∧ tagHigh (wire ws) = 0 ∧
      effect (wire ws) (address (wire ws)) m = (r.gp.run m).1 := by
  obtain ⟨⟨cmd, addr, data, be, sw⟩, master, tg⟩ := r
  simp only [Gp.len] at *
  subst hw
  have hd : dwLen ⟨.write, addr, data, be, sw⟩ = data.length / 4 := by simp [dwLen, Gp.len, h4]
  have hbe1 : be = [] ∨ data.length / 4 = 1 := hbe.imp id (by omega)
  have hme := mem_eq ⟨⟨.write, addr, data, be, sw⟩, master, tg⟩ _ (if 1 < data.length / 4 then 15 else 0)
    (by rw [hd]; omega) hm ht rfl (by
      dsimp only
      rw [hd]
      rcases hbe1 with h | h
      · rw [if_pos h]
      · rw [h]; rfl) (by split <;> omega)
  dsimp only at hme
  rw [hd] at hme
  simp only [beq_self_eq_true, if_true] at hme
  obtain ⟨ws, hws⟩ := Option.isSome_iff_exists.mp (quads_some data h4)
  have hwire := wire_quads data ws hws
  rw [memData_quads data h4, hws] at hme
  generalize hf : (if be = [] then 15 else beBits be (fun i => i) (List.range 4)) = f at hme
  have hf16 : f < 16 := by
    rw [← hf]
    split
    · omega
    · exact beBits_lt _ _ _ 4 (fun i hi => List.mem_range.mp hi)
  refine ⟨_, hme, ?_⟩
  have hwm := wire_mem ((2 + (if addr / 2 ^ 32 ≠ 0 then 1 else 0)) * 2 ^ 29 + data.length / 4 % 1024)
    (master * 2 ^ 16 + tg * 2 ^ 8 + (if 1 < data.length / 4 then 15 else 0) * 16 + f) (addr / 2 ^ 32)
    (addr % 2 ^ 32 / 4 * 4) (decide (addr / 2 ^ 32 ≠ 0)) ws
  simp only [decide_eq_true_eq] at hwm
  rw [hwm, hwire]
  -- the same facts for both header sizes
  have key : ∀ (l : List Byte) (w : Nat), fmt l = 2 + w → w < 2 → typ l = 0 →
      len l = data.length / 4 → requester l = master → tag l = tg → tagHigh l = 0 →
      lastBE l = (if 1 < data.length / 4 then 15 else 0) → firstBE l = f → address l = addr → payload l = data →
      IsMemWrite l ∧ address l = addr ∧ len l * 4 = data.length ∧ requester l = master ∧ tag l = tg ∧ tagHigh l = 0 ∧
        effect l (address l) m = (Gp.run ⟨.write, addr, data, be, sw⟩ m).1 := by
    intro l w k1 kw k2 k3 k4 k5 k6 k7 k8 k9 k10
    refine ⟨⟨k2, ?_, by omega, by rw [k10, k3]; omega⟩, k9, by rw [k3]; omega, k4, k5, k6, ?_⟩
    · unfold withData; rw [k1]; have : (2 + w) / 2 = 1 := by omega
      simp [this]
    · funext x
      rw [k9]
      show _ = writeFrom m addr sw be 0 data x
      rw [writeFrom_at m addr sw be data 0 (by omega)]
      unfold effect
      rw [k3, k10]
      have hx : data.getD (x - addr) 0 = data.getD (x - addr - 0) 0 := by rw [Nat.sub_zero]
      rw [← hx]
      have hc : (addr ≤ x ∧ x < addr + 4 * (data.length / 4) ∧ lane l (x - addr) = true) ↔
          (addr + 0 ≤ x ∧ x < addr + 0 + data.length ∧ beEnabled be (x - addr) = true) := by
        rw [Nat.add_zero, show 4 * (data.length / 4) = data.length by omega]
        apply and_congr_right; intro q1
        apply and_congr_right; intro q2
        have hi : (x - addr) / 4 < data.length / 4 := by omega
        generalize x - addr = i at hi
        unfold lane
        rw [k3, k7, k8]
        by_cases c0 : i / 4 = 0
        · rw [if_pos c0, ← hf]
          by_cases cb : be = []
          · subst cb
            have h15 : ∀ j, j < 4 → (15 : Nat).testBit j = true := by decide
            rw [if_pos rfl, h15 (i % 4) (by omega)]
            simp [beEnabled]
          · rw [if_neg cb]
            unfold beBits
            rw [beBits_testBit]
            have hi4 : i < 4 := by omega
            have : i % 4 = i := Nat.mod_eq_of_lt hi4
            rw [this]
            simp only [Nat.zero_testBit, Bool.false_or, List.any_eq_true, List.mem_range, Bool.and_eq_true,
              decide_eq_true_eq]
            constructor
            · rintro ⟨j, _, h1, rfl⟩; exact h1
            · intro h1; exact ⟨i, hi4, h1, rfl⟩
        · rw [if_neg c0]
          have hgt : 1 < data.length / 4 := by omega
          have hb : be = [] := by rcases hbe1 with h | h; exact h; omega
          subst hb
          rw [if_pos hgt]
          have h15 : ∀ j, j < 4 → (15 : Nat).testBit j = true := by decide
          rw [h15 (i % 4) (by omega)]
          have : beEnabled [] i = true := by simp [beEnabled]
          rw [this]
          split <;> simp
      by_cases c : addr ≤ x ∧ x < addr + 4 * (data.length / 4) ∧ lane l (x - addr) = true
      · rw [if_pos c, if_pos (hc.mp c)]
      · rw [if_neg c, if_neg (mt hc.mpr c)]
  have hlen : (if data.length / 4 % 1024 = 0 then 1024 else data.length / 4 % 1024) = data.length / 4 := by
    split <;> omega
  have hL : (if 1 < data.length / 4 then 15 else 0) < 16 := by split <;> omega
  generalize (if 1 < data.length / 4 then 15 else 0) = L at hL key ⊢
  by_cases cw : addr / 2 ^ 32 ≠ 0
  · rw [if_pos cw, if_pos cw]
    have hwd : wide (pkt ((2 + 1) * 2 ^ 29 + data.length / 4 % 1024) (master * 2 ^ 16 + tg * 2 ^ 8 + L * 16 + f)
        (addr / 2 ^ 32) (beEnc 4 (addr % 2 ^ 32 / 4 * 4) ++ data)) = true := by
      unfold wide; rw [fmt_pkt]; have : ((2 + 1) * 2 ^ 29 + data.length / 4 % 1024) / 2 ^ 29 % 8 = 3 := by omega
      rw [this]; rfl
    refine key _ 1 ?_ (by omega) ?_ ?_ ?_ ?_ ?_ ?_ ?_ ?_ ?_
    · rw [fmt_pkt]; omega
    · rw [typ_pkt]; omega
    · rw [len_pkt]
      have : ((2 + 1) * 2 ^ 29 + data.length / 4 % 1024) % 1024 = data.length / 4 % 1024 := by omega
      rw [this, hlen]
    · rw [requester_pkt]; omega
    · rw [tag_pkt]; omega
    · rw [tagHigh_pkt]; omega
    · rw [lastBE_pkt]; omega
    · rw [firstBE_pkt]; omega
    · unfold address
      rw [hwd, if_pos rfl, be32_pkt, be32_12]; omega
    · unfold payload
      rw [hwd, if_pos rfl, drop16_pkt]
  · rw [if_neg cw, if_neg cw]
    have hwd : wide (pkt ((2 + 0) * 2 ^ 29 + data.length / 4 % 1024) (master * 2 ^ 16 + tg * 2 ^ 8 + L * 16 + f)
        (addr % 2 ^ 32 / 4 * 4) data) = false := by
      unfold wide; rw [fmt_pkt]; have : ((2 + 0) * 2 ^ 29 + data.length / 4 % 1024) / 2 ^ 29 % 8 = 2 := by omega
      rw [this]; rfl
    refine key _ 0 ?_ (by omega) ?_ ?_ ?_ ?_ ?_ ?_ ?_ ?_ ?_
    · rw [fmt_pkt]; omega
    · rw [typ_pkt]; omega
    · rw [len_pkt]
      have : ((2 + 0) * 2 ^ 29 + data.length / 4 % 1024) % 1024 = data.length / 4 % 1024 := by omega
      rw [this, hlen]
    · rw [requester_pkt]; omega
    · rw [tag_pkt]; omega
    · rw [tagHigh_pkt]; omega
    · rw [lastBE_pkt]; omega
    · rw [firstBE_pkt]; omega
    · unfold address
      rw [hwd]
      simp only [Bool.false_eq_true, if_false]
      rw [be32_pkt]; omega
    · unfold payload
      rw [hwd]
      simp only [Bool.false_eq_true, if_false]
      rw [drop_pkt]

/-- The words of a memory read of one word. -/
theorem mem_read_eq (r : Req) (hr : r.gp.cmd = .read) (hbe : r.gp.be = [])
    (hn : 1 ≤ dwLen r.gp ∧ dwLen r.gp ≤ 1024) (hm : r.master < 65536) (ht : r.tag < 256) :
    ∃ h0 h1 ws, mem r = some (h0 :: h1 :: ws) ∧ h1 = r.master * 2 ^ 16 + r.tag * 2 ^ 8 + (if 1 < dwLen r.gp then 15 else 0) * 16 + 15 ∧
      h0 % 2 ^ 29 = dwLen r.gp % 1024 ∧ h0 / 2 ^ 29 < 2 ∧
      (wire (h0 :: h1 :: ws) = if r.gp.addr / 2 ^ 32 ≠ 0
        then pkt (1 * 2 ^ 29 + dwLen r.gp % 1024) h1 (r.gp.addr / 2 ^ 32) (beEnc 4 (r.gp.addr % 2 ^ 32 / 4 * 4))
        else pkt (dwLen r.gp % 1024) h1 (r.gp.addr % 2 ^ 32 / 4 * 4) []) := by
  have hme := mem_eq r 15 (if 1 < dwLen r.gp then 15 else 0) hn hm ht (by rw [if_pos hbe])
    (by rw [if_pos hbe]) (by split <;> omega)
  dsimp only at hme
  have hc : (r.gp.cmd == Cmd.write) = false := by rw [hr]; rfl
  rw [hc] at hme
  simp only [Bool.false_eq_true, if_false] at hme
  refine ⟨_, _, _, hme, rfl, ?_, ?_, ?_⟩
  · split <;> omega
  · split <;> omega
  · by_cases cw : r.gp.addr / 2 ^ 32 ≠ 0
    · simp [cw, wire, pkt]
    · simp [cw, wire, pkt]

/-- **A memory read becomes one memory read request** from the word that holds the first byte on, with
the requester's identifiers, for every address and every length up to 4096 without byte enables.  The
number of words does not count the offset in the first one, see `unaligned_read_short`. -/
theorem mem_read_request (r : Req) (hr : r.gp.cmd = .read) (ha : r.gp.addr < 2 ^ 64) (hbe : r.gp.be = [])
    (h0 : 0 < r.gp.len) (hmax : r.gp.len ≤ 4096) (hm : r.master < 65536) (ht : r.tag < 256) :
    ∃ ws, mem r = some ws ∧ IsMemRead (wire ws) ∧ address (wire ws) = r.gp.addr / 4 * 4 ∧
      len (wire ws) = (r.gp.len + 3) / 4 ∧ requester (wire ws) = r.master ∧ tag (wire ws) = r.tag ∧
      tagHigh (wire ws) = 0 ∧ ∀ i, i < 4 * len (wire ws) → lane (wire ws) i = true := by
  have hd : dwLen r.gp = (r.gp.len + 3) / 4 := by
    unfold dwLen
    split <;> omega
  obtain ⟨g0, g1, ws, e, e1, e2, e3, e4⟩ := mem_read_eq r hr hbe (by omega) hm ht
  refine ⟨_, e, ?_⟩
  rw [e4]
  generalize hn : dwLen r.gp = n at *
  have hlen : (if n % 1024 = 0 then 1024 else n % 1024) = n := by split <;> omega
  have key : ∀ l : List Byte, fmt l < 2 → typ l = 0 → len l = n → requester l = r.master → tag l = r.tag →
      tagHigh l = 0 → lastBE l = (if 1 < n then 15 else 0) → firstBE l = 15 → address l = r.gp.addr / 4 * 4 →
      payload l = [] → IsMemRead l ∧ address l = r.gp.addr / 4 * 4 ∧ len l = (r.gp.len + 3) / 4 ∧
        requester l = r.master ∧ tag l = r.tag ∧ tagHigh l = 0 ∧ ∀ i, i < 4 * len l → lane l i = true := by
    intro l k1 k2 k3 k4 k5 k6 k7 k8 k9 k10
    refine ⟨⟨k2, ?_, by omega, k10⟩, k9, by rw [k3, hd], k4, k5, k6, ?_⟩
    · unfold withData
      have : fmt l / 2 = 0 := by omega
      rw [this]; rfl
    · intro i hi
      have h15 : ∀ j, j < 4 → (15 : Nat).testBit j = true := by decide
      unfold lane
      rw [k3, k7, k8, h15 (i % 4) (by omega)]
      by_cases c0 : i / 4 = 0
      · rw [if_pos c0]
      · rw [if_neg c0]
        by_cases c1 : i / 4 = n - 1
        · rw [if_pos c1, if_pos (by omega), h15 (i % 4) (by omega)]
        · rw [if_neg c1]
  have hL : (if 1 < n then 15 else 0) < 16 := by split <;> omega
  generalize (if 1 < n then 15 else 0) = L at hL key e1 ⊢
  subst e1
  by_cases cw : r.gp.addr / 2 ^ 32 ≠ 0
  · rw [if_pos cw]
    have hwd : wide (pkt (1 * 2 ^ 29 + n % 1024) (r.master * 2 ^ 16 + r.tag * 2 ^ 8 + L * 16 + 15) (r.gp.addr / 2 ^ 32)
        (beEnc 4 (r.gp.addr % 2 ^ 32 / 4 * 4))) = true := by
      unfold wide; rw [fmt_pkt]
      have : (1 * 2 ^ 29 + n % 1024) / 2 ^ 29 % 8 = 1 := by omega
      rw [this]; rfl
    refine key _ ?_ ?_ ?_ ?_ ?_ ?_ ?_ ?_ ?_ ?_
    · rw [fmt_pkt]; omega
    · rw [typ_pkt]; omega
    · rw [len_pkt]
      have : (1 * 2 ^ 29 + n % 1024) % 1024 = n % 1024 := by omega
      rw [this, hlen]
    · rw [requester_pkt]; omega
    · rw [tag_pkt]; omega
    · rw [tagHigh_pkt]; omega
    · rw [lastBE_pkt]; omega
    · rw [firstBE_pkt]; omega
    · unfold address
      rw [hwd, if_pos rfl, be32_pkt]
      have := be32_12 (1 * 2 ^ 29 + n % 1024) (r.master * 2 ^ 16 + r.tag * 2 ^ 8 + L * 16 + 15) (r.gp.addr / 2 ^ 32) []
        (r.gp.addr % 2 ^ 32 / 4 * 4)
      rw [List.append_nil] at this
      rw [this]; omega
    · unfold payload
      rw [hwd, if_pos rfl]
      have := drop16_pkt (1 * 2 ^ 29 + n % 1024) (r.master * 2 ^ 16 + r.tag * 2 ^ 8 + L * 16 + 15) (r.gp.addr / 2 ^ 32) []
        (r.gp.addr % 2 ^ 32 / 4 * 4)
      rw [List.append_nil] at this
      rw [this]
  · rw [if_neg cw]
    have hwd : wide (pkt (n % 1024) (r.master * 2 ^ 16 + r.tag * 2 ^ 8 + L * 16 + 15) (r.gp.addr % 2 ^ 32 / 4 * 4) []) =
        false := by
      unfold wide; rw [fmt_pkt]
      have : n % 1024 / 2 ^ 29 % 8 = 0 := by omega
      rw [this]; rfl
    refine key _ ?_ ?_ ?_ ?_ ?_ ?_ ?_ ?_ ?_ ?_
    · rw [fmt_pkt]; omega
    · rw [typ_pkt]; omega
    · rw [len_pkt]
      have : n % 1024 % 1024 = n % 1024 := by omega
      rw [this, hlen]
    · rw [requester_pkt]; omega
    · rw [tag_pkt]; omega
    · rw [tagHigh_pkt]; omega
    · rw [lastBE_pkt]; omega
    · rw [firstBE_pkt]; omega
    · unfold address
      rw [hwd]
      simp only [Bool.false_eq_true, if_false]
      rw [be32_pkt]; omega
    · unfold payload
      rw [hwd]
      simp only [Bool.false_eq_true, if_false]
      rw [drop_pkt]

/-! ## Completions -/

/-- Identifiers of a packet and of the header the bridge keeps agree. -/
theorem tx_eq (h0 h1 : Nat) (ws : List Nat) (hh : getF h0 23 1 = 0 ∧ getF h0 19 1 = 0) :
    reqTx (h0 :: h1 :: ws) = h1 / 2 ^ 16 % 2 ^ 16 * 2 ^ 16 + h1 / 2 ^ 8 % 2 ^ 8 := by
  unfold reqTx
  simp only [List.getD_cons_zero, List.getD_cons_succ]
  rw [hh.1, hh.2, getF_eq, getF_eq]
  simp only [Nat.zero_shiftLeft, Nat.or_zero]
  rw [or_add _ 16 _ (by omega)]

/-- What the bridge takes from a completion with data: the header and the first word. -/
theorem rxCpl_data (c : List Byte) (h : 16 ≤ c.length) (hf : fmt c = 2) :
    ∃ d0 d1 d2 d3 t h0 h1 h2, c = pkt h0 h1 h2 (d0 :: d1 :: d2 :: d3 :: t) ∧ h0 < 2 ^ 32 ∧ h1 < 2 ^ 32 ∧ h2 < 2 ^ 32 ∧
      rxCpl c = some [h0, h1, h2, word d0 d1 d2 d3] := by
  obtain ⟨a0, a1, a2, a3, b0, b1, b2, b3, c0, c1, c2, c3, t, e1, e2⟩ := eq_pkt c (by omega)
  have ht : 4 ≤ t.length := by rw [e1] at h; simp only [List.length_cons] at h; omega
  match t, ht with
  | d0 :: d1 :: d2 :: d3 :: t, _ =>
    refine ⟨d0, d1, d2, d3, t, _, _, _, e2, word_lt _ _ _ _, word_lt _ _ _ _, word_lt _ _ _ _, ?_⟩
    have hw : getF (word a0 a1 a2 a3) 29 3 = 2 := by
      rw [getF_eq]
      rw [e2, fmt_pkt] at hf
      exact hf
    rw [e1]
    simp [rxCpl, hw]

theorem cplTx_gen (h0 h1 h2 : Nat) (ws : List Nat) :
    cplTx (h0 :: h1 :: h2 :: ws) =
      h2 / 2 ^ 16 % 2 ^ 16 * 2 ^ 16 + (h0 / 2 ^ 23 % 2 * 2 + h0 / 2 ^ 19 % 2) * 2 ^ 8 + h2 / 2 ^ 8 % 2 ^ 8 := by
  unfold cplTx
  simp only [List.getD_cons_zero, List.getD_cons_succ]
  rw [getF_eq, getF_eq, getF_eq, getF_eq, Nat.or_assoc, Nat.or_assoc, or_add (h0 / 2 ^ 19 % 2 ^ 1) 8 _ (by omega),
    or_add (h0 / 2 ^ 23 % 2 ^ 1) 9 _ (by omega), or_add _ 16 _ (by omega)]
  omega

/-- Bytes `off, off+1, ...` of a word, from the shifted word. -/
theorem shifted_bytes (d0 d1 d2 d3 : Byte) (off n : Nat) (h : off + n ≤ 4) :
    (beEnc 4 ((word d0 d1 d2 d3 <<< (off * 8)) % 2 ^ 32)).take n = ([d0, d1, d2, d3].drop off).take n := by
  have ha := d0.isLt; have hb := d1.isLt; have hc := d2.isLt; have hd := d3.isLt
  rw [beEnc4, word_eq, Nat.shiftLeft_eq]
  have byte : ∀ (x : Nat) (b : Byte), x % 256 = b.toNat → BitVec.ofNat 8 x = b := by
    intro x b hx
    apply BitVec.eq_of_toNat_eq
    rw [BitVec.toNat_ofNat]
    exact hx
  match off, h with
  | 0, h =>
    rw [byte _ d0 (by omega), byte _ d1 (by omega), byte _ d2 (by omega), byte _ d3 (by omega)]
    rfl
  | 1, h =>
    rw [byte _ d1 (by omega), byte _ d2 (by omega), byte _ d3 (by omega)]
    match n, h with
    | 0, _ => rfl
    | 1, _ => rfl
    | 2, _ => rfl
    | 3, _ => rfl
    | _ + 4, h => omega
  | 2, h =>
    rw [byte _ d2 (by omega), byte _ d3 (by omega)]
    match n, h with
    | 0, _ => rfl
    | 1, _ => rfl
    | 2, _ => rfl
    | _ + 3, h => omega
  | 3, h =>
    rw [byte _ d3 (by omega)]
    match n, h with
    | 0, _ => rfl
    | 1, _ => rfl
    | _ + 2, h => omega
  | 4, h =>
    have : n = 0 := by omega
    subst this; rfl
  | _ + 5, h => omega

theorem range_drop_take (m : Mem) (a off n : Nat) (h : off + n ≤ 4) :
    ((m.range a 4).drop off).take n = m.range (a + off) n := by
  apply List.ext_getElem
  · simp; omega
  · intro i h1 h2
    simp [Mem.range, Nat.add_assoc]

/-- The request the bridge keeps, if the other side has put its bytes back in host order. -/
theorem copy_one (g : Gp) (h0 h1 h2 : Nat) (d0 d1 d2 d3 : Byte) (hn : dwLen g = 1)
    (hf : getF h0 29 3 = 2) (hl : getF h0 0 10 = 1) :
    copyData g [h0, h1, h2, word d0 d1 d2 d3] =
      some ((beEnc 4 ((word d0 d1 d2 d3 <<< (g.addr % 4 * 8)) % 2 ^ 32)).take g.len) := by
  have : copyWord (g.addr % 4) [h0, h1, h2, word d0 d1 d2 d3] 0 =
      some (beEnc 4 ((word d0 d1 d2 d3 <<< (g.addr % 4 * 8)) % 2 ^ 32)) := by
    unfold copyWord tlpData
    simp [hf, hl]
  unfold copyData
  rw [hn]
  simp [copyWords, this]

/-- What the bridge gets out of a completion with the one word asked for. -/
theorem one_word (l c d : List Byte) (h : AnswersData l c d) (hl : len l = 1) :
    ∃ cs k0 k1 k2 d0 d1 d2 d3, rxCpl c = some cs ∧ cs = [k0, k1, k2, word d0 d1 d2 d3] ∧ getF k0 0 10 = 1 ∧
      getF k0 24 5 = 10 ∧ getF k0 29 3 = 2 ∧
      cplTx cs = requester l * 2 ^ 16 + tagHigh l * 2 ^ 8 + tag l ∧ d = [d0, d1, d2, d3] := by
  obtain ⟨⟨q1, q2, q3, q4, q5⟩, q6, _, q8, q9, q10⟩ := h
  rw [hl] at q9 q8
  have hw : wide c = false := by unfold wide; rw [q6]; rfl
  have hcl : 16 ≤ c.length := by
    rw [← q10] at q8
    unfold payload at q8
    rw [hw] at q8
    simp only [Bool.false_eq_true, if_false, List.length_drop] at q8
    omega
  obtain ⟨d0, d1, d2, d3, t, k0, k1, k2, c1, c2, c3, c4, c5⟩ := rxCpl_data c hcl q6
  have hpay : d = [d0, d1, d2, d3] := by
    have : payload c = d0 :: d1 :: d2 :: d3 :: t := by
      unfold payload
      rw [hw]
      simp only [Bool.false_eq_true, if_false]
      rw [c1, drop_pkt]
    rw [this] at q10
    rw [← q10] at q8
    simp only [List.length_cons] at q8
    have : t = [] := List.eq_nil_of_length_eq_zero (by omega)
    rw [← q10, this]
  rw [c1, typ_pkt] at q2
  rw [c1, fmt_pkt] at q6
  rw [c1, len_pkt] at q9
  rw [c1, cplRequester_pkt] at q3
  rw [c1, cplTag_pkt] at q4
  rw [c1, tagHigh_pkt] at q5
  have hk : k0 % 1024 = 1 := by
    by_cases cz : k0 % 1024 = 0
    · rw [if_pos cz] at q9; omega
    · rw [if_neg cz] at q9; exact q9
  refine ⟨_, k0, k1, k2, d0, d1, d2, d3, c5, rfl, ?_, ?_, ?_, ?_, hpay⟩
  · rw [getF_eq]; omega
  · rw [getF_eq]; exact q2
  · rw [getF_eq]; exact q6
  · rw [cplTx_gen, ← q3, ← q4, ← q5]

theorem run_read_range (r : Req) (m : Mem) (hr : r.gp.cmd = .read) (hbe : r.gp.be = []) (hsw : r.gp.len ≤ r.gp.sw) :
    (r.gp.run m).2 = m.range r.gp.addr r.gp.len := by
  obtain ⟨⟨cmd, addr, data, be, sw⟩, master, tg⟩ := r
  simp only [Gp.len] at *
  subst hr hbe
  show readFrom m addr sw [] 0 data = _
  rw [readFrom_range m data addr sw 0 (by omega)]
  rfl

/-- **A memory read within one word returns the addressed bytes**: whatever completion with all the
requested data the other side sends, it is recognised as the completion of this request, and the access
ends with OK and the bytes of the memory.  Proviso: the other side has put the header back in host byte
order, see `unrestored_completion`.  Missing for the full property: more than one word
(`long_read_aborts`). -/
theorem mem_read_exact_partial (r : Req) (m : Mem) (hr : r.gp.cmd = .read) (ha : r.gp.addr < 2 ^ 64)
    (hbe : r.gp.be = []) (h0 : 0 < r.gp.len) (h4 : r.gp.addr % 4 + r.gp.len ≤ 4) (hsw : r.gp.len ≤ r.gp.sw)
    (hm : r.master < 65536) (ht : r.tag < 256) :
    ∃ ws, mem r = some ws ∧ ∀ c, AnswersData (wire ws) c (m.range (address (wire ws)) (4 * len (wire ws))) →
      ∃ cs, rxCpl c = some cs ∧ cplTx cs = reqTx ws ∧ complete r ws cs = some (.ok, (r.gp.run m).2) := by
  have hd : dwLen r.gp = 1 := by
    unfold dwLen
    split <;> omega
  obtain ⟨ws0, f1, _, f3, f4, f5, f6, f7, _⟩ := mem_read_request r hr ha hbe h0 (by omega) hm ht
  obtain ⟨g0, g1, ws, e, e1, e2, e3, _⟩ := mem_read_eq r hr hbe (by omega) hm ht
  have : ws0 = g0 :: g1 :: ws := by rw [f1] at e; exact Option.some.inj e
  subst this
  refine ⟨_, e, fun c hans => ?_⟩
  have hl1 : (r.gp.len + 3) / 4 = 1 := by omega
  rw [hl1] at f4
  obtain ⟨cs, k0, k1, k2, d0, d1, d2, d3, c5, hcs, hk, hty, hfm, htx, hpay⟩ := one_word _ c _ hans f4
  refine ⟨cs, c5, ?_, ?_⟩
  · rw [htx, f5, f6, f7, tx_eq g0 g1 ws ⟨by rw [getF_eq]; omega, by rw [getF_eq]; omega⟩, e1]
    have : (if 1 < dwLen r.gp then 15 else 0) < 16 := by split <;> omega
    generalize (if 1 < dwLen r.gp then 15 else 0) = L at *
    omega
  · unfold complete
    have x1 : expectsData (g0 :: g1 :: ws) = true := by
      unfold expectsData
      simp only [List.getD_cons_zero]
      rw [getF_eq, getF_eq]
      have a1 : g0 / 2 ^ 24 % 2 ^ 5 = 0 := by omega
      have a2 : g0 / 2 ^ 30 % 2 ^ 1 = 0 := by omega
      rw [a1, a2]; rfl
    have x2 : isCplD cs = true := by
      rw [hcs]
      unfold isCplD
      simp only [List.getD_cons_zero]
      rw [hfm]; rfl
    rw [x1, x2]
    simp only [Bool.and_self, if_true]
    rw [hcs, copy_one r.gp k0 k1 k2 d0 d1 d2 d3 hd hfm hk]
    rw [f4] at hpay
    rw [shifted_bytes _ _ _ _ _ _ h4, ← hpay, range_drop_take _ _ _ _ h4, f3]
    have ea : r.gp.addr / 4 * 4 + r.gp.addr % 4 = r.gp.addr := by omega
    rw [ea, run_read_range r m hr hbe hsw]
    rfl

/-- A completion with the data of more than one word makes the bridge abort: it keeps only the first
word of the data. -/
theorem long_read_aborts (r : Req) (ws : List Nat) (c d : List Byte) (hl : 4 < r.gp.len)
    (hx : expectsData ws = true) (h : AnswersData (wire ws) c d) (h2 : 2 ≤ len (wire ws)) :
    ∃ cs, rxCpl c = some cs ∧ complete r ws cs = none := by
  obtain ⟨⟨q1, q2, q3, q4, q5⟩, q6, _, q8, q9, q10⟩ := h
  have hw : wide c = false := by unfold wide; rw [q6]; rfl
  have hcl : 16 ≤ c.length := by
    rw [← q10] at q8
    unfold payload at q8
    rw [hw] at q8
    simp only [Bool.false_eq_true, if_false, List.length_drop] at q8
    omega
  obtain ⟨d0, d1, d2, d3, t, k0, k1, k2, c1, c2, c3, c4, c5⟩ := rxCpl_data c hcl q6
  refine ⟨_, c5, ?_⟩
  rw [c1, len_pkt] at q9
  rw [c1, fmt_pkt] at q6
  have hf : getF k0 29 3 = 2 := by rw [getF_eq]; exact q6
  have x2 : isCplD [k0, k1, k2, word d0 d1 d2 d3] = true := by
    unfold isCplD
    simp only [List.getD_cons_zero]
    rw [hf]; rfl
  unfold complete
  rw [hx, x2]
  simp only [Bool.and_self, if_true, Option.map_eq_none_iff]
  have hdw : ∃ n, dwLen r.gp = n + 2 := by
    unfold dwLen
    by_cases c : r.gp.len % 4 ≠ 0
    · rw [if_pos c]; exact ⟨r.gp.len / 4 + 1 - 2, by omega⟩
    · rw [if_neg c]; exact ⟨r.gp.len / 4 + 0 - 2, by omega⟩
  obtain ⟨n, hn⟩ := hdw
  have h1 : copyWord (r.gp.addr % 4) [k0, k1, k2, word d0 d1 d2 d3] 1 = none := by
    unfold copyWord tlpData
    simp only [List.getD_cons_zero]
    rw [if_pos hf, if_pos]
    · rfl
    · rw [getF_eq]
      have e0 : k0 / 2 ^ 0 % 2 ^ 10 = k0 % 1024 := by omega
      rw [e0, q9]; omega
  unfold copyData
  rw [hn]
  simp only [Option.map_eq_none_iff, copyWords, h1, Option.bind_eq_bind, Option.bind_none]
  cases copyWord (r.gp.addr % 4) [k0, k1, k2, word d0 d1 d2 d3] 0 <;> rfl

end Verif.Tlp
