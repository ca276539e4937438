import Verif.Tlp.Dma

/-! # C48: where the PCIe bridge loses accesses -/

namespace Verif.Tlp
open Verif Spec

/-! ## Requests the bridge cannot build -/

/-- A memory write of more than four bytes that is not a multiple of four reads past its buffer,
whatever the address, identifiers and byte enables. -/
theorem long_write_overreads (r : Req) (hw : r.gp.cmd = .write) (h4 : 4 < r.gp.len) (hm : r.gp.len % 4 ≠ 0) :
    mem r = none := by
  have : memData r.gp.data = none := by
    unfold Gp.len at *
    unfold memData
    split <;> first | (rename_i heq; rw [heq] at h4; simp at h4; done) | exact quads_none _ hm
  have hc : (r.gp.cmd == Cmd.write) = true := by rw [hw]; rfl
  unfold mem
  simp [this, hc]

theorem hdr1_none (m t l f : Nat) (h : 65536 ≤ m ∨ 256 ≤ t ∨ 16 ≤ l) : hdr1 m t l f = none := by
  unfold hdr1 setF
  by_cases c1 : m < 2 ^ 16
  · by_cases c2 : t < 2 ^ 8
    · have : ¬ l < 2 ^ 4 := by omega
      simp [c2, this]
    · simp [c2]
  · simp [c1]

theorem mem_none (r : Req) (h : ∀ f l, l = (if 1 < dwLen r.gp then
      (if r.gp.be = [] then 15 else beBits r.gp.be (fun i => i) (List.range' ((dwLen r.gp - 1) * 4) 4)) else 0) →
    hdr1 r.master r.tag l f = none) : mem r = none := by
  unfold mem
  simp only [h _ _ rfl, Option.bind_eq_bind, Option.bind_none, Option.bind_fun_none]

/-- A memory access of several words with byte enables fails an assertion as soon as a byte of the last
word is enabled. -/
theorem enabled_write_asserts (r : Req) (hb : r.gp.be ≠ []) (h4 : 4 < r.gp.len)
    (hi : ∃ i, (dwLen r.gp - 1) * 4 ≤ i ∧ i < dwLen r.gp * 4 ∧ beEnabled r.gp.be i = true) : mem r = none := by
  obtain ⟨i, h1, h2, h3⟩ := hi
  have hd : 2 ≤ dwLen r.gp := by unfold dwLen; split <;> omega
  apply mem_none
  rintro f l rfl
  apply hdr1_none
  right; right
  rw [if_pos (by omega), if_neg hb]
  have hbit : (beBits r.gp.be (fun i => i) (List.range' ((dwLen r.gp - 1) * 4) 4)).testBit i = true := by
    unfold beBits
    rw [beBits_testBit]
    simp only [Nat.zero_testBit, Bool.false_or, List.any_eq_true, Bool.and_eq_true, decide_eq_true_eq]
    exact ⟨i, by rw [List.mem_range'_1]; omega, h3, rfl⟩
  have := Nat.ge_two_pow_of_testBit hbit
  have h16 : 2 ^ 4 ≤ 2 ^ i := Nat.pow_le_pow_right (by decide) (by omega)
  omega

/-- Identifiers that do not fit the packet fail an assertion. -/
theorem wide_ids_assert (r : Req) (h : 65536 ≤ r.master ∨ 256 ≤ r.tag) : mem r = none := by
  apply mem_none
  intro f l _
  exact hdr1_none _ _ _ _ (h.imp id Or.inl)

/-- More than 4096 bytes fail an assertion. -/
theorem huge_asserts (r : Req) (h : 4096 < r.gp.len) : mem r = none := by
  have hd : 1025 ≤ dwLen r.gp := by unfold dwLen; split <;> omega
  have : ∀ f, hdr0 f 0 (if dwLen r.gp = 1024 then 0 else dwLen r.gp) = none := by
    intro f
    rw [if_neg (by omega)]
    unfold hdr0 setF
    have : ¬ dwLen r.gp < 2 ^ 10 := by omega
    simp [this]
  unfold mem
  simp only [this, Option.bind_eq_bind, Option.bind_none]

/-- A configuration access that crosses a word fails an assertion. -/
theorem conf_crossing_asserts (r : Req) (hbe : r.gp.be = []) (h : 4 < r.gp.addr % 4 + r.gp.len) (ho : r.gp.addr % 4 ≠ 0) :
    conf r = none := by
  have e3 : getF (r.gp.addr % 2 ^ 32) 0 2 = r.gp.addr % 4 := by rw [getF_eq]; omega
  have : hdr1 r.master r.tag 0 (beBits r.gp.be (fun i => r.gp.addr % 4 + i) (List.range (min r.gp.len 4))) = none := by
    have hbit : (beBits r.gp.be (fun i => r.gp.addr % 4 + i) (List.range (min r.gp.len 4))).testBit 4 = true := by
      rw [conf_be_bit]
      exact ⟨by omega, by omega, by rw [hbe]; simp [beEnabled]⟩
    have h16 := Nat.ge_two_pow_of_testBit hbit
    generalize beBits r.gp.be (fun i => r.gp.addr % 4 + i) (List.range (min r.gp.len 4)) = f at *
    unfold hdr1 setF
    have : ¬ f < 2 ^ 4 := by omega
    simp [this]
  unfold conf
  simp only [e3, this, Option.bind_eq_bind, Option.bind_none, Option.bind_fun_none]

/-! ## Requests that do something else -/

/-- A write of one byte without byte enables overwrites its whole word, and an unaligned one even puts
the byte in the wrong place: here 0xab for address 4097 arrives at 4096 and clears 4097 to 4099. -/
theorem short_write_clobbers :
    ∃ r : Req, ∃ ws, r.gp.cmd = .write ∧ r.gp.addr = 4097 ∧ r.gp.data = [0xab] ∧ mem r = some ws ∧
      IsMemWrite (wire ws) ∧ address (wire ws) = 4096 ∧
      (effect (wire ws) (address (wire ws)) (fun _ => 0x55)).range 4096 4 = [0xab, 0, 0, 0] ∧
      ((r.gp.run (fun _ => 0x55)).1).range 4096 4 = [0x55, 0xab, 0x55, 0x55] :=
  ⟨⟨{ cmd := .write, addr := 4097, data := [0xab], sw := 1 }, 0, 0⟩,
    [2 * 2 ^ 29 + 1, 15, 4096, 0xab000000], by decide +kernel, by decide +kernel, by decide +kernel, by decide +kernel,
    ⟨by decide +kernel, by decide +kernel, by decide +kernel, by decide +kernel⟩,
    by decide +kernel, by decide +kernel, by decide +kernel⟩

/-- A read of no bytes asks for 1024 words. -/
theorem empty_read_asks_4096 :
    ∃ ws, mem ⟨{ cmd := .read, addr := 4096, data := [], sw := 0 }, 0, 0⟩ = some ws ∧ IsMemRead (wire ws) ∧
      len (wire ws) = 1024 :=
  ⟨[0, 0, 4096], by decide +kernel, ⟨by decide +kernel, by decide +kernel, by decide +kernel, by decide +kernel⟩,
    by decide +kernel⟩

/-- A read of four bytes at an unaligned address asks for one word only, and the bytes of the next word
are reported as zero with OK. -/
theorem unaligned_read_short :
    ∃ r : Req, ∃ ws c cs, r.gp.cmd = .read ∧ r.gp.addr = 4097 ∧ r.gp.len = 4 ∧ mem r = some ws ∧
      AnswersData (wire ws) c (Mem.range (fun x => BitVec.ofNat 8 (x + 1)) 4096 4) ∧ rxCpl c = some cs ∧
      complete r ws cs = some (.ok, [2, 3, 4, 0]) ∧ (r.gp.run (fun x => BitVec.ofNat 8 (x + 1))).2 = [2, 3, 4, 5] :=
  ⟨⟨{ cmd := .read, addr := 4097, data := [0, 0, 0, 0], sw := 4 }, 0, 0⟩, [1, 15, 4096],
    [0x4a, 0, 0, 1, 0, 0, 0, 4, 0, 0, 0, 0, 1, 2, 3, 4], [0x4a000001, 4, 0, 0x01020304],
    by decide +kernel, by decide +kernel, by decide +kernel, by decide +kernel,
    ⟨⟨by decide +kernel, by decide +kernel, by decide +kernel, by decide +kernel, by decide +kernel⟩,
      by decide +kernel, by decide +kernel, by decide +kernel, by decide +kernel, by decide +kernel⟩,
    by decide +kernel, by decide +kernel, by decide +kernel⟩

/-- The other side may answer a read of several words with several completions.  The first one ends the
access with OK, and the bytes it does not bring are reported as zero. -/
theorem split_completion_zero_fills :
    ∃ r : Req, ∃ ws c cs, r.gp.cmd = .read ∧ r.gp.len = 8 ∧ mem r = some ws ∧ Answers (wire ws) c ∧ cplStatus c = 0 ∧
      byteCount c = 8 ∧ len c = 1 ∧ payload c = [1, 2, 3, 4] ∧ rxCpl c = some cs ∧ cplTx cs = reqTx ws ∧
      complete r ws cs = some (.ok, [1, 2, 3, 4, 0, 0, 0, 0]) :=
  ⟨⟨{ cmd := .read, addr := 4096, data := [9, 9, 9, 9, 9, 9, 9, 9], sw := 8 }, 0, 0⟩, [2, 255, 4096],
    [0x4a, 0, 0, 1, 0, 0, 0, 8, 0, 0, 0, 0, 1, 2, 3, 4], [0x4a000001, 8, 0, 0x01020304],
    by decide +kernel, by decide +kernel, by decide +kernel,
    ⟨by decide +kernel, by decide +kernel, by decide +kernel, by decide +kernel, by decide +kernel⟩,
    by decide +kernel, by decide +kernel, by decide +kernel, by decide +kernel, by decide +kernel, by decide +kernel,
    by decide +kernel⟩

/-- A configuration access of more than four bytes is cut to four. -/
theorem long_conf_truncated :
    ∃ r : Req, ∃ ws, r.gp.cmd = .write ∧ r.gp.len = 8 ∧ conf r = some ws ∧ IsCfgWrite (wire ws) ∧
      payload (wire ws) = [1, 2, 3, 4] :=
  ⟨⟨{ cmd := .write, addr := 4096, data := [1, 2, 3, 4, 5, 6, 7, 8], sw := 8 }, 0, 0⟩,
    [0x44000001, 15, 65536, 0x01020304], by decide +kernel, by decide +kernel, by decide +kernel,
    ⟨by decide +kernel, by decide +kernel, by decide +kernel, by decide +kernel⟩, by decide +kernel⟩

/-! ## Failed requests -/

/-- The three words of a completion without data. -/
theorem rxCpl_nodata (c : List Byte) (h : 12 ≤ c.length) (hf : fmt c = 0) :
    ∃ cs, rxCpl c = some cs ∧ isCplD cs = false := by
  obtain ⟨a0, a1, a2, a3, b0, b1, b2, b3, c0, c1, c2, c3, t, e1, e2⟩ := eq_pkt c h
  have hw : getF (word a0 a1 a2 a3) 29 3 = 0 := by
    rw [getF_eq]
    rw [e2, fmt_pkt] at hf
    exact hf
  refine ⟨[word a0 a1 a2 a3, word b0 b1 b2 b3, word c0 c1 c2 c3], ?_, ?_⟩
  · rw [e1]; simp [rxCpl, hw]
  · simp [isCplD, hw]

/-- **A read that the other side refuses ends with an error** and leaves the buffer alone. -/
theorem refused_read_reported (r : Req) (ws : List Nat) (c : List Byte) (hx : expectsData ws = true)
    (hc : Answers (wire ws) c) (hf : fmt c = 0) :
    ∃ cs, rxCpl c = some cs ∧ complete r ws cs = some (.generic, r.gp.data) := by
  obtain ⟨cs, e, h⟩ := rxCpl_nodata c hc.1 hf
  exact ⟨cs, e, by unfold complete; rw [hx, h]; rfl⟩

/-- Every read request expects data, no write request does. -/
theorem mem_expects (r : Req) (ws : List Nat) (h : mem r = some ws) : expectsData ws = !(r.gp.cmd == .write) := by
  have hd : dwLen r.gp ≤ 1024 := by
    by_cases c : 4096 < r.gp.len
    · rw [huge_asserts r c] at h; exact absurd h (by simp)
    · unfold dwLen; split <;> omega
  have e0 : hdr0 ((if r.gp.cmd == .write then 2 else 0) + (if r.gp.addr >>> 32 ≠ 0 then 1 else 0)) 0
      (if dwLen r.gp = 1024 then 0 else dwLen r.gp) =
      some (((if r.gp.cmd == .write then 2 else 0) + (if r.gp.addr >>> 32 ≠ 0 then 1 else 0)) * 2 ^ 29 + 0 * 2 ^ 24 +
        (if dwLen r.gp = 1024 then 0 else dwLen r.gp)) :=
    hdr0_eq _ _ _ (by split <;> split <;> omega) (by omega) (by split <;> omega)
  unfold mem at h
  simp only [e0, Option.bind_eq_bind, Option.bind_some] at h
  have hl : (if dwLen r.gp = 1024 then 0 else dwLen r.gp) < 1024 := by split <;> omega
  generalize (if dwLen r.gp = 1024 then 0 else dwLen r.gp) = L at *
  have hwd : (if r.gp.addr >>> 32 ≠ 0 then 1 else 0) < 2 := by split <;> omega
  simp only [Option.bind_eq_some_iff] at h
  obtain ⟨h1, _, a, _, h⟩ := h
  have key : ∀ W : Nat, W < 2 → ∀ rest, expectsData ((((if r.gp.cmd == .write then 2 else 0) + W) * 2 ^ 29 + 0 * 2 ^ 24 + L) :: rest) =
      (!(r.gp.cmd == .write)) := by
    intro W hW rest
    unfold expectsData
    simp only [List.getD_cons_zero]
    rw [getF_eq, getF_eq]
    cases (r.gp.cmd == Cmd.write) with
    | false =>
      have a1 : ((0 + W) * 2 ^ 29 + 0 * 2 ^ 24 + L) / 2 ^ 24 % 2 ^ 5 = 0 := by omega
      have a2 : ((0 + W) * 2 ^ 29 + 0 * 2 ^ 24 + L) / 2 ^ 30 % 2 ^ 1 = 0 := by omega
      simp only [Bool.false_eq_true, if_false]
      rw [a1, a2]; rfl
    | true =>
      have a2 : ((2 + W) * 2 ^ 29 + 0 * 2 ^ 24 + L) / 2 ^ 30 % 2 ^ 1 = 1 := by omega
      simp only [if_true]
      rw [a2]; simp
  by_cases c : (r.gp.cmd == Cmd.write) = true
  · rw [if_pos c, Option.map_eq_some_iff] at h
    obtain ⟨d, _, rfl⟩ := h
    exact key _ hwd _
  · rw [if_neg c] at h
    have := Option.some.inj h
    rw [← this]
    exact key _ hwd _

/-- A configuration write that the other side refuses, with whatever status, is reported as OK. -/
theorem refused_conf_write_ok (st : Nat) (hst : st < 8) :
    ∃ r : Req, ∃ ws c cs, r.gp.cmd = .write ∧ conf r = some ws ∧ Answers (wire ws) c ∧ fmt c = 0 ∧ cplStatus c = st ∧
      rxCpl c = some cs ∧ cplTx cs = reqTx ws ∧ complete r ws cs = some (.ok, r.gp.data) := by
  refine ⟨⟨{ cmd := .write, addr := 4096, data := [1, 2, 3, 4], sw := 4 }, 0, 0⟩, [0x44000001, 15, 65536, 0x01020304],
    [0x0a, 0, 0, 0, 0, 0, BitVec.ofNat 8 (st * 32), 4, 0, 0, 0, 0],
    [0x0a000000, word 0 0 (BitVec.ofNat 8 (st * 32)) 4, 0], rfl, by decide +kernel, ?_⟩
  have h : ∀ st, st < 8 → Answers (wire [0x44000001, 15, 65536, 0x01020304]) [0x0a, 0, 0, 0, 0, 0, BitVec.ofNat 8 (st * 32), 4, 0, 0, 0, 0] ∧
      fmt [0x0a, 0, 0, 0, 0, 0, BitVec.ofNat 8 (st * 32), 4, 0, 0, 0, 0] = 0 ∧
      cplStatus [0x0a, 0, 0, 0, 0, 0, BitVec.ofNat 8 (st * 32), 4, 0, 0, 0, 0] = st ∧
      rxCpl [0x0a, 0, 0, 0, 0, 0, BitVec.ofNat 8 (st * 32), 4, 0, 0, 0, 0] =
        some [0x0a000000, word 0 0 (BitVec.ofNat 8 (st * 32)) 4, 0] ∧
      cplTx [0x0a000000, word 0 0 (BitVec.ofNat 8 (st * 32)) 4, 0] = reqTx [0x44000001, 15, 65536, 0x01020304] ∧
      complete ⟨{ cmd := .write, addr := 4096, data := [1, 2, 3, 4], sw := 4 }, 0, 0⟩ [0x44000001, 15, 65536, 0x01020304]
        [0x0a000000, word 0 0 (BitVec.ofNat 8 (st * 32)) 4, 0] = some (.ok, [1, 2, 3, 4]) := by
    unfold Answers
    decide +kernel
  obtain ⟨a, b, c, d, e, f⟩ := h st hst
  exact ⟨a, b, c, d, e, f⟩

/-- A completion that says it has data but has none is read past its end. -/
theorem short_completion_overreads (c : List Byte) (h : 12 ≤ c.length ∧ c.length < 16) (hf : fmt c = 2) : rxCpl c = none := by
  obtain ⟨a0, a1, a2, a3, b0, b1, b2, b3, c0, c1, c2, c3, t, e1, e2⟩ := eq_pkt c h.1
  have hw : getF (word a0 a1 a2 a3) 29 3 = 2 := by
    rw [getF_eq]
    rw [e2, fmt_pkt] at hf
    exact hf
  have ht : t.length < 4 := by have := h.2; rw [e1] at this; simp only [List.length_cons] at this; omega
  rw [e1]
  unfold rxCpl
  simp only [hw, if_true]
  match t, ht with
  | [], _ => rfl
  | [_], _ => rfl
  | [_, _], _ => rfl
  | [_, _, _], _ => rfl

/-! ## The byte order of the header the bridge keeps -/

theorem swap_eq (w : Nat) : swap w = w % 256 * 2 ^ 24 + w / 256 % 256 * 2 ^ 16 + w / 65536 % 256 * 2 ^ 8 + w / 16777216 % 256 := by
  unfold swap
  rw [beEnc4]
  simp only [leDec, BitVec.toNat_ofNat]
  omega

theorem swapped_fields (t lo hi : Nat) (ht : t < 256) (hl : lo < 256) (hh : hi < 256) :
    (15 * 2 ^ 24 + t * 2 ^ 16 + lo * 2 ^ 8 + hi) / 2 ^ 16 % 2 ^ 16 = 15 * 256 + t ∧
      (15 * 2 ^ 24 + t * 2 ^ 16 + lo * 2 ^ 8 + hi) / 2 ^ 8 % 2 ^ 8 = lo := by omega

/-- `transmitTLP` reverses the bytes of the header in place.  Unless the other side puts them back, a
completion of the read is recognised only if the requester is made of the byte enables and the tag:
never, for instance, for requester 0. -/
theorem unrestored_completion (r : Req) (hr : r.gp.cmd = .read) (hbe : r.gp.be = []) (h0 : 0 < r.gp.len)
    (h4 : r.gp.addr % 4 + r.gp.len ≤ 4) (ha : r.gp.addr < 2 ^ 64) (hm : r.master < 65536) (ht : r.tag < 256) :
    ∃ ws, mem r = some ws ∧ ∀ c d, AnswersData (wire ws) c d →
      ∃ cs, rxCpl c = some cs ∧ (cplTx cs = reqTx (ws.map swap) ↔ r.master = 15 * 256 + r.tag) := by
  have hd : dwLen r.gp = 1 := by
    unfold dwLen
    split <;> omega
  obtain ⟨ws0, f1, _, _, f4, f5, f6, f7, _⟩ := mem_read_request r hr ha hbe h0 (by omega) hm ht
  obtain ⟨g0, g1, ws, e, e1, e2, e3, _⟩ := mem_read_eq r hr hbe (by omega) hm ht
  have : ws0 = g0 :: g1 :: ws := by rw [f1] at e; exact Option.some.inj e
  subst this
  refine ⟨_, e, fun c d hans => ?_⟩
  have hl1 : (r.gp.len + 3) / 4 = 1 := by omega
  rw [hl1] at f4
  obtain ⟨cs, k0, k1, k2, d0, d1, d2, d3, c5, hcs, hk, hty, hfm, htx, hpay⟩ := one_word _ c _ hans f4
  refine ⟨cs, c5, ?_⟩
  rw [htx, f5, f6, f7, List.map_cons, List.map_cons, tx_eq]
  · rw [hd] at e1
    simp only [Nat.lt_irrefl, if_false] at e1
    rw [swap_eq g1]
    have b1 : g1 % 256 = 15 := by omega
    have b2 : g1 / 256 % 256 = r.tag := by omega
    have b3 : g1 / 65536 % 256 = r.master % 256 := by omega
    have b4 : g1 / 16777216 % 256 = r.master / 256 := by omega
    rw [b1, b2, b3, b4]
    have s := swapped_fields r.tag (r.master % 256) (r.master / 256) ht (by omega) (by omega)
    rw [s.1, s.2]
    omega
  · have : g0 % 1024 = 1 := by omega
    rw [swap_eq g0, getF_eq, getF_eq]
    have b2 : g0 / 256 % 256 = 0 := by omega
    have b3 : g0 / 65536 % 256 = 0 := by omega
    rw [b2, b3]
    constructor <;> omega

/-! ## DMA -/

/-- A write packet of the device with only its second byte enabled overwrites the whole word. -/
theorem dma_write_ignores_enables :
    ∃ l : List Byte, ∃ t m', IsMemWrite l ∧ firstBE l = 2 ∧ rxMem l = some t ∧ dma (fun _ => 0x55) t = some m' ∧
      m'.1.range 4096 4 = [1, 2, 3, 4] ∧ (effect l (address l) (fun _ => 0x55)).range 4096 4 = [0x55, 2, 0x55, 0x55] :=
  ⟨[0x40, 0, 0, 1, 0, 0, 0, 2, 0, 0, 0x10, 0, 1, 2, 3, 4], ⟨false, 4096, 1, 0, 0, some [1, 2, 3, 4]⟩,
    ((({ cmd := .write, addr := 4096, data := [1, 2, 3, 4], sw := 4 } : Gp).run (fun _ => 0x55)).1, none),
    ⟨by decide +kernel, by decide +kernel, by decide +kernel, by decide +kernel⟩,
    by decide +kernel, by decide +kernel, by rfl, by decide +kernel, by decide +kernel⟩

/-- A read with a 10-bit tag is answered with the lower 8 bits only, so the device cannot match it. -/
theorem long_tag_lost (m : Mem) (l : List Byte) (h : IsMemRead l) (h12 : 12 ≤ l.length)
    (h16 : wide l = true → 16 ≤ l.length) (ht : tagHigh l ≠ 0) :
    ∃ t c, rxMem l = some t ∧ dma m t = some (m, some c) ∧ ¬ Answers l c := by
  obtain ⟨h1, h2, h3, h4⟩ := h
  have hb := len_bounds l
  obtain ⟨ws, w1, w2⟩ := cpl_eq (requester l) (tag l) (m.range (address l) (4 * len l)) (len l) hb (by simp)
    (requester_lt l) (tag_lt l)
  refine ⟨_, wire ws, rxMem_eq l h3 h12 h16 (fun hd => by rw [h2] at hd; exact absurd hd (by decide)), ?_, ?_⟩
  · unfold dma
    rw [h2]
    simp only [Bool.not_false, if_true]
    rw [Nat.mul_comm, w1]; rfl
  · rintro ⟨_, _, _, _, q⟩
    rw [w2, tagHigh_pkt] at q
    omega

/-- The lower address in the completion is 0 whatever the address. -/
theorem lower_address_zero (m : Mem) (l : List Byte) (h : IsMemRead l) (h12 : 12 ≤ l.length)
    (h16 : wide l = true → 16 ≤ l.length) :
    ∃ t c, rxMem l = some t ∧ dma m t = some (m, some c) ∧ lowerAddress c = 0 := by
  obtain ⟨h1, h2, h3, h4⟩ := h
  have hb := len_bounds l
  obtain ⟨ws, w1, w2⟩ := cpl_eq (requester l) (tag l) (m.range (address l) (4 * len l)) (len l) hb (by simp)
    (requester_lt l) (tag_lt l)
  refine ⟨_, wire ws, rxMem_eq l h3 h12 h16 (fun hd => by rw [h2] at hd; exact absurd hd (by decide)), ?_, ?_⟩
  · unfold dma
    rw [h2]
    simp only [Bool.not_false, if_true]
    rw [Nat.mul_comm, w1]; rfl
  · rw [w2, lowerAddress_pkt]
    omega

/-- A packet that starts with a prefix (format 4) and has type 0 is taken for a write without data, and
the memory behind the bridge gets a null pointer. -/
theorem prefix_null_write (m : Mem) :
    ∃ l : List Byte, ∃ t, fmt l = 4 ∧ typ l = 0 ∧ rxMem l = some t ∧ dma m t = none :=
  ⟨[0x80, 0, 0, 1, 0, 0, 0, 15, 0, 0, 0x10, 0], ⟨false, 4096, 1, 0, 0, none⟩, by decide +kernel, by decide +kernel,
    by decide +kernel, rfl⟩

end Verif.Tlp
