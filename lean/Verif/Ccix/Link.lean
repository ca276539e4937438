import Verif.Ccix.Props

/-! C61 over the wires: the message packed, sent and unpacked as in `Verif.Cxs`
(C32) in between. -/
namespace Verif.Ccix
open Spec
open Verif.Cxs (Msg Attr Hdr tlpBytes extract)

/-- What the packet format has room for: see C32 for what happens to the rest. -/
structure Fits (q : ChiReq) : Prop where
  ids : IdsOk q
  qos : q.qos.toNat < 16
  addr : ∀ i, (32 ≤ i ∧ i < 40) ∨ 52 ≤ i → q.addr.getLsbD i = false
  low : q.addr.toNat % 64 ≠ 0 → q.opcode = 0x04 ∨ q.opcode = 0x18 ∨ q.opcode = 0x1C ∨ q.opcode ∈ atomics

theorem id8 (a : BitVec 16) (h : a.toNat < 64) : (a.setWidth 8).toNat < 64 := by simp; omega

theorem txn16 (a : BitVec 8) : (a.setWidth 16).toNat < 4096 := by
  have := a.isLt
  rw [BitVec.toNat_setWidth]
  omega

/-- A message that travels arrives. -/
theorem arrives (k : Hdr) (m : Msg) (h : Cxs.ReqOk m) (hi : Cxs.IdsOk m.attr) :
    ∃ bytes r, tlpBytes k m = some bytes ∧ extract k bytes [] = some [r] ∧ Arrives m r := by
  obtain ⟨b, r, h1, h2, h3, h4, h5, -⟩ := Cxs.message_round_trip_partial k m (Or.inl h) hi
  exact ⟨b, r, h1, h2, h3.1 h.type, h4, h5⟩

theorem attrs_ids (q : ChiReq) (h : IdsOk q) (c : BitVec 8) (mt : Nat) : Cxs.IdsOk (reqAttrs q c mt) :=
  ⟨id8 _ h.tgtID, id8 _ h.srcID, by show (0 : BitVec 8).toNat < 64; decide⟩

/-- **C61.** A read or request without data, translated, packed, sent, unpacked and
translated back is the same request. -/
theorem request_over_link (k : Hdr) (q : ChiReq) (ho : q.opcode ∈ reads ∨ q.opcode ∈ dataless) (hm : MemOk q)
    (hf : Fits q) :
    ∃ m bytes r q', sendReq q = some m ∧ tlpBytes k m = some bytes ∧ extract k bytes [] = some [r] ∧
      receive r = some (q', none) ∧ SameReq q q' := by
  obtain ⟨m, h1, h2⟩ := request_crosses q ho hm hf.ids
  obtain ⟨c, hc, -⟩ := listed q.opcode ho
  obtain ⟨mt, hmt⟩ := memType_some q hm
  have hme : m = { attr := reqAttrs q c mt, write := false, addr := q.addr, data := [], be := [] } := by
    unfold sendReq at h1; simp only [hc, hmt] at h1; exact (Option.some.inj h1).symm
  have tab : ∀ op : BitVec 8, (toReqOp op).all (fun c => c != Cxs.opReqChain && !Cxs.hasByteEnables c &&
      (op != 0x04 || Cxs.extType1Allowed c)) = true := by decide +kernel
  have tt := opt_all (tab q.opcode) hc
  simp only [Bool.and_eq_true, bne_iff_ne, Bool.not_eq_true', Bool.or_eq_true] at tt
  have hok : Cxs.ReqOk m := by
    subst hme
    refine ⟨rfl, txn16 _, hf.qos, hf.addr, fun hl => ?_, tt.1.1, fun x => by simp at x, fun x => ?_, fun _ i hi => ?_⟩
    · have h3 : q.opcode = 0x04 := by
        rcases hf.low hl with h | h | h | h
        · exact h
        · rw [h] at ho; exact absurd ho (by decide)
        · rw [h] at ho; exact absurd ho (by decide)
        · exfalso
          have : ∀ op : BitVec 8, op ∈ atomics → ¬ (op ∈ reads ∨ op ∈ dataless) := by decide +kernel
          exact this _ h ho
      rcases tt.2 with h | h
      · exact absurd h3 (by simpa using h)
      · exact h
    · rw [show (reqAttrs q c mt).reqOp = c from rfl, tt.1.2] at x; cases x
    · simp at hi
  obtain ⟨b, r, a1, a2, a3⟩ := arrives k m hok (by rw [hme]; exact attrs_ids q hf.ids c mt)
  obtain ⟨q', r1, r2, -⟩ := h2 r a3
  exact ⟨m, b, r, q', h1, a1, a2, r1, r2⟩

/-- A request with wide address and identifiers that `Fits`. -/
example : ∃ q : ChiReq, q.opcode ∈ reads ∧ MemOk q ∧ Fits q ∧ q.cacheable = true := by
  have hf : Fits { opcode := 0x07, addr := 0x4000_0040, len := 64, tgtID := 3, srcID := 9, cacheable := true } := by
    refine ⟨⟨by decide, by decide⟩, by decide, fun i hi => ?_, fun h => absurd h (by decide)⟩
    by_cases h : i < 64
    · have : ∀ i : Fin 64, (32 ≤ i.val ∧ i.val < 40) ∨ 52 ≤ i.val → (0x4000_0040#64).getLsbD i.val = false := by decide
      exact this ⟨i, h⟩ hi
    · exact BitVec.getLsbD_of_ge _ _ (by omega)
  exact ⟨_, by decide, ⟨by decide, by decide, by decide⟩, hf, rfl⟩

theorem window_len (cmp : Bool) (mt a len : Nat) (h : ¬ mt < 3 ∨ a % len = 0) : (window cmp mt a len).2 = len := by
  unfold window
  by_cases hc : ¬ cmp = true ∧ mt < 3
  · have h0 : a % len = 0 := by
      rcases h with h | h
      · exact absurd hc.2 h
      · exact h
    have := Nat.div_add_mod a len
    simp only [if_pos hc]
    rw [Nat.mul_comm (a / len) len]
    omega
  · rw [if_neg hc]

/-- **C61.** A write of 16 or 32 bytes or an atomic of up to 32, translated, packed,
sent, unpacked and translated back is the same request with the same bytes, provided
its data message enables all the bytes the request is about. Missing: writes of at most
eight bytes, which the packet format corrupts (C32), and unaligned device writes. -/
theorem part_over_link_partial (k : Hdr) (q : ChiReq) (d : Dat)
    (ho : ((q.opcode = 0x18 ∨ q.opcode = 0x1C) ∧ (q.len = 16 ∨ q.len = 32)) ∨ (q.opcode ∈ atomics ∧ PartLen q.len))
    (ha : q.device = false ∨ q.addr.toNat % q.len = 0)
    (hm : MemOk q) (hf : Fits q) (hd : d.data.length = 64) (hr : d.resp = 0)
    (hon : ∀ i, i < 64 → on d i = about q i) :
    ∃ m bytes r q' d', sendData q d = some m ∧ tlpBytes k m = some bytes ∧ extract k bytes [] = some [r] ∧
      receive r = some (q', some d') ∧ SameReq q q' ∧ SameBytes d d' := by
  have hl : PartLen q.len := by
    rcases ho with ⟨-, h | h⟩ | ⟨-, h⟩
    · exact Or.inr (Or.inr (Or.inr (Or.inr (Or.inl h))))
    · exact Or.inr (Or.inr (Or.inr (Or.inr (Or.inr h))))
    · exact h
  have ho' : q.opcode ∈ plainWrites ∨ q.opcode ∈ atomics := by
    rcases ho with ⟨h | h, -⟩ | ⟨h, -⟩
    · exact Or.inl (by rw [h]; decide)
    · exact Or.inl (by rw [h]; decide)
    · exact Or.inr h
  obtain ⟨m, h1, h2⟩ := part_data_iff q d ho' hl hm hf.ids hd hr
  obtain ⟨c, hc, -⟩ := listedData q.opcode q.snoopMe ho'
  obtain ⟨mt, hmt⟩ := memType_some q hm
  have hml := memType_lt q mt hmt
  obtain ⟨b, p1, p2, p3, -⟩ := part_path (isCompare q.opcode) mt q.addr.toNat q.len d hd hl
  rw [window_len _ _ _ _ (by
    rcases ha with h | h
    · left; rw [memType_device q mt hmt, h]; decide
    · exact Or.inr h)] at p2
  have hme : m = { attr := reqAttrs q c mt, write := true, addr := q.addr, data := b, be := [] } := by
    unfold sendData at h1
    simp only [hmt, p1, hr, hc, Option.bind_eq_bind, Option.bind_some] at h1
    exact (Option.some.inj h1).symm
  have tab : ∀ op : BitVec 8, ∀ s : Bool, (dataOp op 0 s).all (fun c => (c != Cxs.opReqChain) &&
      (Cxs.isWriteOp c || Cxs.isAtomicOp c) &&
      (!(op == 0x18 || op == 0x1C) || Cxs.extType1Allowed c) &&
      (!decide (op ∈ atomics) || (Cxs.extType1Allowed c && !Cxs.hasByteEnables c))) = true := by decide +kernel
  have tt := opt_all (tab q.opcode q.snoopMe) hc
  simp only [Bool.and_eq_true, bne_iff_ne, Bool.or_eq_true, Bool.not_eq_true', decide_eq_false_iff_not,
    Bool.or_eq_false_iff, beq_eq_false_iff_ne] at tt
  obtain ⟨⟨⟨t1, t2⟩, t3⟩, t4⟩ := tt
  have hok : Cxs.ReqOk m := by
    subst hme
    refine ⟨rfl, txn16 _, hf.qos, hf.addr, fun _ => ?_, t1, fun _ => ⟨?_, ?_, by show b.length ≤ 64; omega, t2⟩, fun x => ?_,
      fun _ i hi => by show Cxs.Spec.enabled [] i = true; rfl⟩
    · show Cxs.extType1Allowed c = true
      rcases ho with ⟨h, -⟩ | ⟨h, -⟩
      · rcases t3 with ⟨h3, h4⟩ | h3
        · rcases h with h | h
          · exact absurd h h3
          · exact absurd h h4
        · exact h3
      · rcases t4 with h4 | h4
        · exact absurd h h4
        · exact h4.1
    · show b.length % 4 = 0
      rw [p2]
      rcases hl with e | e | e | e | e | e <;> simp [e]
    · show 0 < b.length
      rw [p2]
      rcases hl with e | e | e | e | e | e <;> simp [e]
    · have hx : Cxs.hasByteEnables c = true := x
      rcases ho with ⟨-, h⟩ | ⟨h, -⟩
      · have hb : b.length = q.len := by rw [p2]; rcases h with e | e <;> simp [e]
        refine ⟨rfl, ?_, by show b.length ≠ 8; omega⟩
        show Cxs.reqSize (reqAttrs q c mt) = some b.length
        rw [hb]
        have : ∀ mt : Fin 6, Cxs.reqSize { reqAttr := BitVec.ofNat 8 (4 * 16 + mt.val) } = some 16 ∧
          Cxs.reqSize { reqAttr := BitVec.ofNat 8 (5 * 16 + mt.val) } = some 32 := by decide +kernel
        have hh := this ⟨mt, hml⟩
        rcases h with e | e
        · have e2 : (reqAttrs q c mt).reqAttr = BitVec.ofNat 8 (4 * 16 + mt) := by
            show BitVec.ofNat 8 (sizeCode q.len * 16 + mt) = _; rw [e]; rfl
          rw [e, ← hh.1]; unfold Cxs.reqSize; rw [e2]
        · have e2 : (reqAttrs q c mt).reqAttr = BitVec.ofNat 8 (5 * 16 + mt) := by
            show BitVec.ofNat 8 (sizeCode q.len * 16 + mt) = _; rw [e]; rfl
          rw [e, ← hh.2]; unfold Cxs.reqSize; rw [e2]
      · rcases t4 with h4 | h4
        · exact absurd h h4
        · rw [h4.2] at hx; cases hx
  obtain ⟨by_, r, a1, a2, a3⟩ := arrives k m hok (by rw [hme]; exact attrs_ids q hf.ids c mt)
  obtain ⟨q', d', r1, r2, r3⟩ := h2 r a3
  exact ⟨m, by_, r, q', d', h1, a1, a2, r1, r2, r3.mpr hon⟩

/-- An atomic increment of four bytes meets the conditions. -/
example : ∃ (q : ChiReq) (d : Dat), q.opcode ∈ atomics ∧ PartLen q.len ∧ MemOk q ∧ Fits q ∧ d.data.length = 64 ∧
    d.resp = 0 ∧ (∀ i, i < 64 → on d i = about q i) ∧ about q 20 = true ∧ about q 24 = false := by
  have hf : Fits { opcode := 0x30, addr := 0x4000_0014, len := 4, tgtID := 3, srcID := 9 } := by
    refine ⟨⟨by decide, by decide⟩, by decide, fun i hi => ?_, fun _ => by decide +kernel⟩
    by_cases h : i < 64
    · have : ∀ i : Fin 64, (32 ≤ i.val ∧ i.val < 40) ∨ 52 ≤ i.val → (0x4000_0014#64).getLsbD i.val = false := by decide
      exact this ⟨i, h⟩ hi
    · exact BitVec.getLsbD_of_ge _ _ (by omega)
  refine ⟨{ opcode := 0x30, addr := 0x4000_0014, len := 4, tgtID := 3, srcID := 9 },
    { data := List.replicate 64 1, be := (List.range 64).map fun i => decide (20 ≤ i ∧ i < 24), opcode := 3, resp := 0 },
    by decide +kernel, by unfold PartLen; simp, ⟨by decide, by decide, by decide⟩, hf, List.length_replicate .., rfl, ?_,
    by decide +kernel, by decide +kernel⟩
  decide +kernel

/-- A message whose opcode takes no byte enables is packed the same without them. -/
theorem tlp_without_enables (k : Hdr) (m : Msg) (ht : m.attr.msgType = Cxs.tReq) (h : Cxs.hasByteEnables m.attr.reqOp = false) :
    tlpBytes k m = tlpBytes k { m with be := [] } := by
  unfold tlpBytes Cxs.tlpWords Cxs.encode
  rw [if_pos ht, if_pos ht]
  unfold Cxs.encodeReq Cxs.bodyWords
  simp only [h]
  rfl

/-- **C61.** A write of a whole line, translated, packed, sent, unpacked and translated
back is the same request with the same line. -/
theorem line_over_link (k : Hdr) (q : ChiReq) (d : Dat) (ho : fullLine q.opcode d.resp) (hl : q.len = 64)
    (hm : MemOk q) (hf : Fits q) (hal : q.addr.toNat % 64 = 0) (hd : d.data.length = 64)
    (hon : ∀ i, i < 64 → on d i = true) :
    ∃ m bytes r q' d', sendData q d = some m ∧ tlpBytes k m = some bytes ∧ extract k bytes [] = some [r] ∧
      receive r = some (q', some d') ∧ SameReq q q' ∧ SameBytes d d' ∧ d'.resp = d.resp := by
  obtain ⟨m, h1, h2⟩ := line_crosses q d ho hl hm hf.ids hd hon
  obtain ⟨c, hc, -, -, t3, t4, t5, t6, -⟩ := full_table q.opcode d.resp q.snoopMe ho
  obtain ⟨mt, hmt⟩ := memType_some q hm
  have hcp : ∀ cmp, copyData cmp mt q.addr.toNat q.len d = some (d.data, d.data.map fun b => decide (b = 0xFF)) := by
    intro cmp; unfold copyData; rw [hl, if_neg (by decide), if_pos rfl]
  have hme : m = Msg.mk (reqAttrs q c mt) true q.addr d.data (d.data.map fun b => decide (b = 0xFF)) := by
    unfold sendData at h1
    simp only [hmt, hcp, hc, Option.bind_eq_bind, Option.bind_some] at h1
    exact (Option.some.inj h1).symm
  have hok : Cxs.ReqOk { m with be := [] } := by
    subst hme
    refine ⟨rfl, txn16 _, hf.qos, hf.addr, fun x => absurd hal x, t6, fun _ => ⟨?_, ?_, ?_, Or.inl t5⟩, fun x => ?_,
      fun _ i hi => by show Cxs.Spec.enabled [] i = true; rfl⟩
    · show d.data.length % 4 = 0; rw [hd]
    · show 0 < d.data.length; omega
    · show d.data.length ≤ 64; omega
    · have hx : Cxs.hasByteEnables c = true := x
      rw [t4] at hx; cases hx
  obtain ⟨by_, r, a1, a2, a3⟩ := arrives k _ hok (by rw [hme]; exact attrs_ids q hf.ids c mt)
  obtain ⟨b1, b2⟩ := a3
  -- the receiver does not look at the enables of such a message
  obtain ⟨m', g1, g2⟩ := line_crosses q d ho hl hm hf.ids hd hon
  have hmm : m' = m := Option.some.inj (g1.symm.trans h1)
  subst hmm
  have hrec : receive r = receive { r with be := m'.be } := by
    have e3 : r.attr.reqOp = c := by rw [b1.op, hme]; rfl
    unfold receive
    simp only [e3, t3]
    rfl
  have hA : Arrives m' { r with be := m'.be } := by
    refine ⟨⟨b1.type, b1.txnID, b1.op, b1.attr, b1.nonSecure, b1.qos, b1.addr, ⟨b1.body.carries, b1.body.data, fun _ i _ => rfl⟩⟩, b2, ?_⟩
    assumption
  obtain ⟨q', d', r1, r2, r3, -, r4, -⟩ := h2 _ hA
  refine ⟨m', by_, r, q', d', h1, ?_, a2, by rw [hrec]; exact r1, r2, r3, r4⟩
  rw [tlp_without_enables k m' (by rw [hme]; rfl) (by rw [hme]; exact t4)]
  exact a1

end Verif.Ccix
