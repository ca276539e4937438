import Verif.Ccix.Lemmas
import Verif.Cxs.Props

/-! C61: requests and their data cross from chip to chip. -/
namespace Verif.Ccix
open Spec
open Verif.Cxs (Msg Attr Hdr tlpBytes extract)

/-- The message `m` arrives as `r`: as `Verif.Cxs` has it. -/
structure Arrives (m r : Msg) : Prop where
  same : Cxs.Spec.SameReq m r
  tgtID : r.attr.tgtID = m.attr.tgtID
  srcID : r.attr.srcID = m.attr.srcID

theorem listed : ∀ op : BitVec 8, (op ∈ reads ∨ op ∈ dataless) →
    ∃ c, toReqOp op = some c ∧ chiSnpAttr op = decide (op ≠ 0x04) ∧
      wantsAck op = decide (op ∈ reads ∧ op ≠ 0x04 ∨ op = 0x0B ∨ op = 0x0C) := by
  intro op h
  have key : ∀ op : BitVec 8, (op ∈ reads ∨ op ∈ dataless) →
      (toReqOp op).isSome = true ∧ chiSnpAttr op = decide (op ≠ 0x04) ∧
      wantsAck op = decide (op ∈ reads ∧ op ≠ 0x04 ∨ op = 0x0B ∨ op = 0x0C) := by decide +kernel
  obtain ⟨h1, h2⟩ := key op h
  obtain ⟨c, hc⟩ := Option.isSome_iff_exists.mp h1
  exact ⟨c, hc, h2⟩

theorem attr_mod (n mt : Nat) (h : n < 8) (hm : mt < 6) :
    (BitVec.ofNat 8 (n * 16 + mt)).toNat % 8 = mt ∧ (BitVec.ofNat 8 (n * 16 + mt)).toNat / 16 % 8 = n := by
  rw [BitVec.toNat_ofNat]; omega

theorem id_back (a : BitVec 16) (h : a.toNat < 64) : (a.setWidth 8).setWidth 16 = a := by
  apply BitVec.eq_of_toNat_eq; simp; omega

theorem txn_back (a : BitVec 8) : (a.setWidth 16).setWidth 8 = a := by
  apply BitVec.eq_of_toNat_eq; simp

theorem sizeCode_lt (len : Nat) : sizeCode len < 8 := by unfold sizeCode; grind

/-- **C61 (reads and requests without data).** The home chip sees the request the
other chip made, with the same opcode, address, identifiers, security, quality of
service and kind of memory; it is snooped for unless it is a `ReadNoSnp`, and
acknowledged if it is a coherent read or asks for a unique copy. -/
theorem request_crosses (q : ChiReq) (ho : q.opcode ∈ reads ∨ q.opcode ∈ dataless) (hm : MemOk q) (hi : IdsOk q) :
    ∃ m, sendReq q = some m ∧ ∀ r, Arrives m r → ∃ q', receive r = some (q', none) ∧ SameReq q q' ∧
      q'.snpAttr = decide (q.opcode ≠ 0x04) ∧
      q'.expCompAck = decide (q.opcode ∈ reads ∧ q.opcode ≠ 0x04 ∨ q.opcode = 0x0B ∨ q.opcode = 0x0C) ∧
      q'.snoopMe = false := by
  obtain ⟨c, hc, hs, ha⟩ := listed q.opcode ho
  obtain ⟨mt, hmt⟩ := memType_some q hm
  obtain ⟨b1, b2, b3, b4⟩ := reqOp_back hc
  obtain ⟨dv, ew, ca, al, od, k0, k1, k2, k3, k4⟩ := mem_back q hm mt hmt
  refine ⟨_, by unfold sendReq; simp only [hc, hmt]; rfl, ?_⟩
  rintro r ⟨⟨e1, e2, e3, e4, e5, e6, e7, e8⟩, e9, e10⟩
  simp only [reqAttrs] at e1 e2 e3 e4 e5 e6 e7 e9 e10
  have hw : r.write = false := e8.carries
  have hq : r.attr.reqAttr.toNat % 8 = mt := by
    rw [e4]; exact (attr_mod _ mt (sizeCode_lt _) (memType_lt q mt hmt)).1
  unfold receive
  simp only [e3, b1, hq, k0, Option.bind_eq_bind, Option.bind_some, hw, b2, b3, b4]
  refine ⟨_, rfl, ⟨rfl, e7, ?_, ?_, ?_, e5, e6, ⟨k1, k2, k3, fun h => (k4 h).1, fun h => (k4 h).2⟩⟩, ?_, ?_, rfl⟩
  · simp only [e9]; exact id_back _ hi.tgtID
  · simp only [e10]; exact id_back _ hi.srcID
  · simp only [e2]; exact txn_back _
  · exact hs
  · exact ha

/-- The requests of `request_crosses` include one for device memory. -/
example : ∃ q : ChiReq, (q.opcode ∈ reads ∨ q.opcode ∈ dataless) ∧ MemOk q ∧ IdsOk q ∧ q.device = true ∧ q.len = 4 :=
  ⟨{ opcode := 0x04, addr := 0x1234, len := 4, tgtID := 5, device := true, ewa := true, order := 2 },
    by decide, ⟨by decide, by decide, by decide⟩, ⟨by decide, by decide⟩, rfl, rfl⟩

/-! ### Data -/

/-- Lengths of parts of a line. -/
def PartLen (n : Nat) : Prop := n = 1 ∨ n = 2 ∨ n = 4 ∨ n = 8 ∨ n = 16 ∨ n = 32

theorem window_about (q : ChiReq) (mt : Nat) (hm : memType q = some mt) (hl : PartLen q.len) (i : Nat) (hi : i < 64) :
    decide ((window (isCompare q.opcode) mt q.addr.toNat q.len).1 ≤ i ∧
      i < (window (isCompare q.opcode) mt q.addr.toNat q.len).1 + (window (isCompare q.opcode) mt q.addr.toNat q.len).2) =
    about q i := by
  have hd := memType_device q mt hm
  unfold window about
  have hc : (¬ isCompare q.opcode = true ∧ mt < 3) ↔ (q.device = true ∧ q.opcode ≠ 0x39) := by
    unfold isCompare
    simp only [decide_eq_true_eq]
    rw [hd]; exact And.comm
  by_cases h : q.device = true ∧ q.opcode ≠ 0x39
  · simp only [if_pos h, if_pos (hc.mpr h)]
    apply decide_eq_decide.mpr
    rcases hl with e | e | e | e | e | e <;> rw [e] <;> omega
  · simp only [if_neg h, if_neg (fun x => h (hc.mp x))]
    apply decide_eq_decide.mpr
    rcases hl with e | e | e | e | e | e <;> rw [e] <;> omega

/-- The data path of a part of a line, there and back. -/
theorem part_path (cmp : Bool) (mt a len : Nat) (d : Dat) (hd : d.data.length = 64) (hl : PartLen len) :
    ∃ b, copyData cmp mt a len d = some (b, []) ∧
      b.length = (if (window cmp mt a len).2 < 8 then 8 else (window cmp mt a len).2) ∧ b.length < 64 ∧
      ∃ o, genData cmp mt a len (line b) = some (o, (List.range 64).map
          (fun i => decide ((window cmp mt a len).1 ≤ i ∧ i < (window cmp mt a len).1 + (window cmp mt a len).2)),
          (window cmp mt a len).2) ∧
        ∀ i, (window cmp mt a len).1 ≤ i → i < (window cmp mt a len).1 + (window cmp mt a len).2 →
          o.getD i 0 = d.data.getD i 0 := by
  obtain ⟨w0, w1, w2⟩ := window_ok cmp mt a len hl
  have hlt : len < 64 ∧ len ≠ 0 := by rcases hl with e | e | e | e | e | e <;> omega
  have hn64 : (window cmp mt a len).2 ≤ len := by
    unfold window; split <;> simp
  generalize hw : window cmp mt a len = w at w0 w1 w2 hn64
  obtain ⟨off, n⟩ := w
  simp only at w0 w1 w2 hn64 ⊢
  obtain ⟨wd, f1, f2, f3⟩ := fetch_some (src := d.data) (o := off) (n := n) (by omega)
  have hpl : ∃ o, place (List.replicate 64 0) off wd = some o := ⟨_, if_pos (by simp; omega)⟩
  obtain ⟨o, ho⟩ := hpl
  have hval : ∀ i, off ≤ i → i < off + n → o.getD i 0 = d.data.getD i 0 := by
    intro i h1 h2
    rw [place_getD ho i, if_pos ⟨h1, by omega⟩, f3 (i - off) (by omega)]
    congr 1; omega
  by_cases h8 : n < 8
  · have hsm := w2 h8
    have hp8 : ∃ b, place (List.replicate 8 0) (smallOff cmp a n) wd = some b := ⟨_, if_pos (by simp; omega)⟩
    obtain ⟨b, hb⟩ := hp8
    have hbl : b.length = 8 := by rw [length_place hb]; simp
    refine ⟨b, ?_, by rw [if_pos h8, hbl], by omega, o, ?_, hval⟩
    · unfold copyData
      rw [if_pos hlt.1, if_neg hlt.2, hw]
      simp only [f1, Option.bind_eq_bind, Option.bind_some, if_pos h8, if_neg (show ¬ n = 0 by omega), hb]
      rfl
    · unfold genData
      rw [hw]
      have hf := fetch_line (by omega) (fetch_place hb)
      rw [f2] at hf
      simp only [if_pos h8, if_neg (show ¬ n = 0 by omega), hf, Option.bind_eq_bind, Option.bind_some, ho]
      rfl
  · refine ⟨wd, ?_, by rw [if_neg h8, f2], by omega, o, ?_, hval⟩
    · unfold copyData
      rw [if_pos hlt.1, if_neg hlt.2, hw]
      simp only [f1, Option.bind_eq_bind, Option.bind_some, if_neg h8]
      rfl
    · unfold genData
      rw [hw]
      have hf : fetch (line wd) 0 n = some wd := by
        apply fetch_line (by omega)
        unfold fetch; rw [if_pos (by omega)]; simp [← f2]
      simp only [if_neg h8, hf, Option.bind_eq_bind, Option.bind_some, ho]
      rfl

theorem listedData : ∀ op : BitVec 8, ∀ s : Bool, (op ∈ plainWrites ∨ op ∈ atomics) →
    ∃ c, dataOp op 0 s = some c ∧
      toChi c = some op ∧ isCcixCompare c = isCompare op ∧ isCcixSnpMe c = (isAtomic op && s) ∧
      (isWrite op || isCcixAtomic c) = true ∧ toDatResp c = some 0 ∧ datOpcode op c = 3 ∧
      chiSnpAttr op = false := by
  intro op s h
  have key : ∀ op : BitVec 8, ∀ s : Bool, (op ∈ plainWrites ∨ op ∈ atomics) →
      (match dataOp op 0 s with
       | none => false
       | some c => toChi c == some op && isCcixCompare c == isCompare op && isCcixSnpMe c == (isAtomic op && s) &&
          (isWrite op || isCcixAtomic c) && toDatResp c == some 0 && datOpcode op c == 3 && !chiSnpAttr op) = true := by
    decide +kernel
  have := key op s h
  split at this
  · cases this
  · rename_i c hc
    simp only [Bool.and_eq_true, beq_iff_eq, Bool.not_eq_true'] at this
    exact ⟨c, hc, by grind⟩

/-- **C61 (parts of a line).** A write or atomic of up to 32 bytes arrives as the
same request, with all the bytes it is about enabled and with the values sent;
`d` is the data message of the requester. -/
theorem part_crosses (q : ChiReq) (d : Dat) (ho : q.opcode ∈ plainWrites ∨ q.opcode ∈ atomics) (hl : PartLen q.len)
    (hm : MemOk q) (hi : IdsOk q) (hd : d.data.length = 64) (hr : d.resp = 0) :
    ∃ m, sendData q d = some m ∧ ∀ r, Arrives m r → ∃ q' d', receive r = some (q', some d') ∧ SameReq q q' ∧
      (∀ i, i < 64 → on d' i = about q i ∧ (about q i = true → d'.data.getD i 0 = d.data.getD i 0)) ∧
      d'.opcode = 3 ∧ d'.resp = 0 ∧ q'.snoopMe = (isAtomic q.opcode && q.snoopMe) ∧
      q'.snpAttr = q'.snoopMe ∧ (q.device = false → q'.len = q.len) := by
  obtain ⟨c, hc, t1, t2, t3, t4, t5, t6, t7⟩ := listedData q.opcode q.snoopMe ho
  obtain ⟨mt, hmt⟩ := memType_some q hm
  have hml := memType_lt q mt hmt
  obtain ⟨dv, ew, ca, al, od, k0, k1, k2, k3, k4⟩ := mem_back q hm mt hmt
  obtain ⟨b, p1, p2, p3, o, p4, p5⟩ := part_path (isCompare q.opcode) mt q.addr.toNat q.len d hd hl
  refine ⟨_, by unfold sendData; simp only [hmt, p1, hr, hc, Option.bind_eq_bind, Option.bind_some]; rfl, ?_⟩
  rintro r ⟨⟨e1, e2, e3, e4, e5, e6, e7, e8⟩, e9, e10⟩
  simp only [reqAttrs] at e1 e2 e3 e4 e5 e6 e7 e9 e10
  have hw : r.write = true := e8.carries
  have hdat : r.data = b := e8.data rfl
  have hsz := size_back q.len (by rcases hl with e | e | e | e | e | e <;> simp [e])
  have hq := attr_mod (sizeCode q.len) mt (sizeCode_lt _) hml
  have hq1 : r.attr.reqAttr.toNat % 8 = mt := by rw [e4]; exact hq.1
  have hq2 : 2 ^ (r.attr.reqAttr.toNat / 16 % 8) = q.len := by rw [e4, hq.2]; exact hsz.1
  have hcond : isWrite q.opcode = true ∨ isCcixAtomic c = true := by simpa using t4
  unfold receive
  simp only [e3, t1, hq1, k0, Option.bind_eq_bind, Option.bind_some, hw, if_true, hdat, if_pos hcond, t5, if_pos p3,
    t2, e7, hq2, p4, t3, t6, t7]
  refine ⟨_, _, rfl, ⟨rfl, rfl, ?_, ?_, ?_, e5, e6, ⟨k1, k2, k3, fun h => (k4 h).1, fun h => (k4 h).2⟩⟩, ?_, rfl, rfl, rfl, ?_, ?_⟩
  · simp only [e9]; exact id_back _ hi.tgtID
  · simp only [e10]; exact id_back _ hi.srcID
  · simp only [e2]; exact txn_back _
  · intro i hi64
    have hab := window_about q mt hmt hl i hi64
    constructor
    · rw [← hab]
      simp [on, List.getD_eq_getElem?_getD, hi64]
    · intro h
      rw [← hab] at h
      simp only [decide_eq_true_eq] at h
      exact p5 i h.1 h.2
  · cases hx : (isAtomic q.opcode && q.snoopMe) <;> simp
  · intro h
    have : ¬ mt < 3 := by rw [memType_device q mt hmt, h]; decide
    simp [window, this]

/-- **C61.** The bytes of a part of a line arrive unharmed exactly if the data
message enables all the bytes the request is about. -/
theorem part_data_iff (q : ChiReq) (d : Dat) (ho : q.opcode ∈ plainWrites ∨ q.opcode ∈ atomics) (hl : PartLen q.len)
    (hm : MemOk q) (hi : IdsOk q) (hd : d.data.length = 64) (hr : d.resp = 0) :
    ∃ m, sendData q d = some m ∧ ∀ r, Arrives m r → ∃ q' d', receive r = some (q', some d') ∧ SameReq q q' ∧
      (SameBytes d d' ↔ ∀ i, i < 64 → on d i = about q i) := by
  obtain ⟨m, h1, h2⟩ := part_crosses q d ho hl hm hi hd hr
  refine ⟨m, h1, fun r hA => ?_⟩
  obtain ⟨q', d', r1, r2, r3, -⟩ := h2 r hA
  refine ⟨q', d', r1, r2, fun h i hi => ?_, fun h i hi => ?_⟩
  · rw [← (h i hi).1, (r3 i hi).1]
  · rw [h i hi]; exact r3 i hi

/-- **C61 (fault: sparse byte enables).** A byte that a partial write of less than a
line leaves out is overwritten at the home. -/
theorem sparse_enables_overwrite (q : ChiReq) (d : Dat) (ho : q.opcode ∈ plainWrites) (hl : PartLen q.len)
    (hm : MemOk q) (hi : IdsOk q) (hd : d.data.length = 64) (hr : d.resp = 0) (i : Nat) (hi64 : i < 64)
    (hab : about q i = true) (hoff : on d i = false) :
    ∃ m, sendData q d = some m ∧ ∀ r, Arrives m r → ∃ q' d', receive r = some (q', some d') ∧
      on d' i = true ∧ d'.data.getD i 0 = d.data.getD i 0 ∧ ¬ SameBytes d d' := by
  obtain ⟨m, h1, h2⟩ := part_crosses q d (Or.inl ho) hl hm hi hd hr
  refine ⟨m, h1, fun r hA => ?_⟩
  obtain ⟨q', d', r1, r2, r3, -⟩ := h2 r hA
  refine ⟨q', d', r1, by rw [(r3 i hi64).1, hab], (r3 i hi64).2 hab, fun h => ?_⟩
  have := (h i hi64).1
  rw [(r3 i hi64).1, hab, hoff] at this
  cases this

/-- A `WriteUniquePtl` of eight bytes that leaves out the third. -/
example : ∃ (q : ChiReq) (d : Dat), q.opcode ∈ plainWrites ∧ PartLen q.len ∧ MemOk q ∧ IdsOk q ∧ d.data.length = 64 ∧
    d.resp = 0 ∧ about q 10 = true ∧ on d 10 = false ∧ on d 11 = true :=
  ⟨{ opcode := 0x18, addr := 0x4000_0008, len := 8, tgtID := 3, srcID := 9 },
    { data := List.replicate 64 1, be := (List.range 64).map fun i => decide (8 ≤ i ∧ i < 16 ∧ i ≠ 10), opcode := 3, resp := 0 },
    by decide +kernel, by unfold PartLen; simp, ⟨by decide, by decide, by decide⟩, ⟨by decide, by decide⟩,
    List.length_replicate .., rfl, by decide +kernel, by decide +kernel, by decide +kernel⟩

/-- CHI writes of a whole line, with the response field of their data. -/
def fullLine (op resp : BitVec 8) : Prop :=
  ((op = 0x19 ∨ op = 0x1D) ∧ resp = 0) ∨ (op = 0x1B ∧ (resp = 6 ∨ resp = 7)) ∨ (op = 0x17 ∧ resp = 7) ∨
    (op = 0x15 ∧ resp = 2)

theorem full_table (op resp : BitVec 8) (s : Bool) (h : fullLine op resp) :
    ∃ c, dataOp op resp s = some c ∧ toChi c = some op ∧ isWrite op = true ∧ hasByteEnables c = false ∧
      Cxs.hasByteEnables c = false ∧ Cxs.isWriteOp c = true ∧ c ≠ Cxs.opReqChain ∧
      toDatResp c = some resp ∧ (datOpcode op c = if resp = 0 then 3 else 2) ∧ isCcixSnpMe c = false := by
  cases s <;> rcases h with ⟨rfl | rfl, rfl⟩ | ⟨rfl, rfl | rfl⟩ | ⟨rfl, rfl⟩ | ⟨rfl, rfl⟩ <;>
    exact ⟨_, rfl, by decide⟩

/-- **C61 (whole lines).** The write of a whole line arrives as the same request with
the same line, all of it enabled, and in the same state. -/
theorem line_crosses (q : ChiReq) (d : Dat) (ho : fullLine q.opcode d.resp) (hl : q.len = 64)
    (hm : MemOk q) (hi : IdsOk q) (hd : d.data.length = 64) (hon : ∀ i, i < 64 → on d i = true) :
    ∃ m, sendData q d = some m ∧ ∀ r, Arrives m r → ∃ q' d', receive r = some (q', some d') ∧ SameReq q q' ∧
      SameBytes d d' ∧ d'.data = d.data ∧ d'.resp = d.resp ∧ (d'.opcode = if d.resp = 0 then 3 else 2) ∧
      q'.len = 64 := by
  obtain ⟨c, hc, t1, t2, t3, -, -, -, t4, t5, t6⟩ := full_table q.opcode d.resp q.snoopMe ho
  obtain ⟨mt, hmt⟩ := memType_some q hm
  have hml := memType_lt q mt hmt
  obtain ⟨dv, ew, ca, al, od, k0, k1, k2, k3, k4⟩ := mem_back q hm mt hmt
  have hcp : ∀ cmp, copyData cmp mt q.addr.toNat q.len d = some (d.data, d.data.map fun b => decide (b = 0xFF)) := by
    intro cmp; unfold copyData; rw [hl, if_neg (by decide), if_pos rfl]
  refine ⟨_, by unfold sendData; simp only [hmt, hcp, hc, Option.bind_eq_bind, Option.bind_some]; rfl, ?_⟩
  rintro r ⟨⟨e1, e2, e3, e4, e5, e6, e7, e8⟩, e9, e10⟩
  simp only [reqAttrs] at e1 e2 e3 e4 e5 e6 e7 e9 e10
  have hw : r.write = true := e8.carries
  have hdat : r.data = d.data := e8.data rfl
  have hq1 : r.attr.reqAttr.toNat % 8 = mt := by
    rw [e4]; exact (attr_mod _ mt (sizeCode_lt _) hml).1
  unfold receive
  simp only [e3, t1, hq1, k0, Option.bind_eq_bind, Option.bind_some, hw, if_true, hdat, hd, if_pos (Or.inl t2), t4,
    if_neg (show ¬ (64 : Nat) < 64 by omega), t3]
  refine ⟨_, _, rfl, ⟨rfl, e7, ?_, ?_, ?_, e5, e6, ⟨k1, k2, k3, fun h => (k4 h).1, fun h => (k4 h).2⟩⟩, ?_, ?_, rfl, t5, rfl⟩
  · simp only [e9]; exact id_back _ hi.tgtID
  · simp only [e10]; exact id_back _ hi.srcID
  · simp only [e2]; exact txn_back _
  · intro i hi64
    refine ⟨?_, fun _ => ?_⟩
    · rw [hon i hi64]
      show (List.replicate 64 true).getD i false = true
      rw [List.getD_eq_getElem?_getD, List.getElem?_replicate, if_pos hi64]; rfl
    · rw [line_id hd]
  · exact line_id hd

/-- The write-back of a dirty line. -/
example : ∃ (q : ChiReq) (d : Dat), fullLine q.opcode d.resp ∧ q.len = 64 ∧ MemOk q ∧ IdsOk q ∧ d.data.length = 64 ∧
    (∀ i, i < 64 → on d i = true) ∧ d.resp = 6 :=
  ⟨{ opcode := 0x1B, addr := 0x4000_0040, len := 64, tgtID := 3, srcID := 9, cacheable := true, allocate := true },
    { data := List.replicate 64 1, be := List.replicate 64 true, opcode := 2, resp := 6 },
    Or.inr (Or.inl ⟨rfl, Or.inl rfl⟩), rfl, ⟨by decide, by decide, by decide⟩, ⟨by decide, by decide⟩,
    List.length_replicate .., by decide +kernel, rfl⟩

/-- **C61 (fault: byte enables of a partial line write).** For a partial write of a
whole line the byte enables sent are the data: byte `i` arrives enabled exactly if
its value is 255. -/
theorem partial_line_enables (q : ChiReq) (d : Dat) (ho : q.opcode ∈ partialWrites) (hl : q.len = 64)
    (hm : MemOk q) (hd : d.data.length = 64) (hr : d.resp = 0 ∨ d.resp = 6) :
    ∃ m, sendData q d = some m ∧ ∀ r, Arrives m r → r.be.length = 64 → ∃ q' d', receive r = some (q', some d') ∧
      ∀ i, i < 64 → on d' i = decide (d.data.getD i 0 = 0xFF) := by
  have tab : ∀ op ∈ partialWrites, ∀ s : Bool, ∀ resp : BitVec 8, (resp = 0 ∨ resp = 6) →
      ∃ c, dataOp op resp s = some c ∧ toChi c = some op ∧ isWrite op = true ∧ hasByteEnables c = true ∧
        ∃ x, toDatResp c = some x := by
    intro op ho s resp hr
    simp only [partialWrites, List.mem_cons, List.not_mem_nil, or_false] at ho
    cases s <;> rcases hr with rfl | rfl <;> rcases ho with rfl | rfl | rfl <;>
      exact ⟨_, rfl, rfl, rfl, rfl, _, rfl⟩
  obtain ⟨c, hc, t1, t2, t3, x, t4⟩ := tab q.opcode ho q.snoopMe d.resp hr
  obtain ⟨mt, hmt⟩ := memType_some q hm
  have hml := memType_lt q mt hmt
  obtain ⟨dv, ew, ca, al, od, k0, -⟩ := mem_back q hm mt hmt
  have hcp : ∀ cmp, copyData cmp mt q.addr.toNat q.len d = some (d.data, d.data.map fun b => decide (b = 0xFF)) := by
    intro cmp; unfold copyData; rw [hl, if_neg (by decide), if_pos rfl]
  refine ⟨_, by unfold sendData; simp only [hmt, hcp, hc, Option.bind_eq_bind, Option.bind_some]; rfl, ?_⟩
  rintro r ⟨⟨e1, e2, e3, e4, e5, e6, e7, e8⟩, e9, e10⟩ hbl
  simp only [reqAttrs] at e3 e4
  have hw : r.write = true := e8.carries
  have hdat : r.data = d.data := e8.data rfl
  have hen := e8.enables rfl
  simp only at hen
  have hq1 : r.attr.reqAttr.toNat % 8 = mt := by
    rw [e4]; exact (attr_mod _ mt (sizeCode_lt _) hml).1
  unfold receive
  simp only [e3, t1, hq1, k0, Option.bind_eq_bind, Option.bind_some, hw, if_true, hdat, hd, if_pos (Or.inl t2), t4,
    if_neg (show ¬ (64 : Nat) < 64 by omega), t3]
  refine ⟨_, _, rfl, fun i hi64 => ?_⟩
  have h1 := hen i (by omega)
  unfold Cxs.Spec.enabled at h1
  rw [if_neg (by intro x; rw [x] at hbl; cases hbl),
    if_neg (by intro x; rw [List.map_eq_nil_iff] at x; rw [x] at hd; cases hd)] at h1
  simp only [List.length_map, hbl, hd, Nat.mod_eq_of_lt hi64] at h1
  show (lineBe r.be).getD i false = _
  have h2 : (lineBe r.be) = r.be := by unfold lineBe; rw [← hbl, List.take_left]
  rw [h2, h1]
  have hi' : i < d.data.length := by omega
  simp [List.getD_eq_getElem?_getD, hi']

/-- **C61 (fault).** Such a write leaves out a byte it should write, or writes one it
should not, as soon as one enabled byte is not 255. -/
theorem partial_line_wrong (q : ChiReq) (d : Dat) (ho : q.opcode ∈ partialWrites) (hl : q.len = 64)
    (hm : MemOk q) (hd : d.data.length = 64) (hr : d.resp = 0 ∨ d.resp = 6) (i : Nat) (hi : i < 64)
    (hon : on d i = true) (hv : d.data.getD i 0 ≠ 0xFF) :
    ∃ m, sendData q d = some m ∧ ∀ r, Arrives m r → r.be.length = 64 → ∃ q' d', receive r = some (q', some d') ∧
      ¬ SameBytes d d' := by
  obtain ⟨m, h1, h2⟩ := partial_line_enables q d ho hl hm hd hr
  refine ⟨m, h1, fun r hA hb => ?_⟩
  obtain ⟨q', d', r1, r2⟩ := h2 r hA hb
  refine ⟨q', d', r1, fun h => ?_⟩
  have := (h i hi).1
  rw [r2 i hi, hon] at this
  exact hv (by simpa using this)

/-- A partial write of a line of ones. -/
example : ∃ (q : ChiReq) (d : Dat), q.opcode ∈ partialWrites ∧ q.len = 64 ∧ MemOk q ∧ d.data.length = 64 ∧ d.resp = 0 ∧
    on d 5 = true ∧ d.data.getD 5 0 ≠ 0xFF :=
  ⟨{ opcode := 0x18, addr := 0x4000_0040, len := 64, tgtID := 3, srcID := 9 },
    { data := List.replicate 64 1, be := List.replicate 64 true, opcode := 3, resp := 0 },
    by decide, rfl, ⟨by decide, by decide, by decide⟩, List.length_replicate .., rfl, by decide +kernel, by decide +kernel⟩

/-- **C61 (fault: length of reads).** Whatever the request's size, the home sees a
request for 64 bytes if the message carries no data. -/
theorem read_length_lost (r : Msg) (q' : ChiReq) (x : Option Dat) (hw : r.write = false)
    (h : receive r = some (q', x)) : q'.len = 64 := by
  unfold receive at h
  cases h1 : toChi r.attr.reqOp with
  | none => simp [h1] at h
  | some op =>
    cases h2 : chiMem (r.attr.reqAttr.toNat % 8) with
    | none => simp [h1, h2] at h
    | some mm =>
      simp only [h1, h2, Option.bind_eq_bind, Option.bind_some, hw] at h
      by_cases hc : isWrite op = true ∨ isCcixAtomic r.attr.reqOp = true
      · rw [if_pos hc] at h
        cases h3 : toDatResp r.attr.reqOp with
        | none => simp [h3] at h
        | some y =>
          simp only [h3, Option.bind_some] at h
          simp at h
          rw [← h.1]
      · rw [if_neg hc] at h
        simp at h
        rw [← h.1]

/-- **C61 (fault: `WriteCleanFull` of a line held unique).** The home is told the line
is held shared. -/
theorem clean_write_changes_state (q : ChiReq) (d : Dat) (ho : q.opcode = 0x17) (hr : d.resp = 6) :
    dataOp q.opcode d.resp q.snoopMe = dataOp q.opcode 7 q.snoopMe := by
  rw [ho, hr]; cases q.snoopMe <;> rfl

/-- **C61 (refused requests).** Exactly the stashing requests and those of other kinds
are refused. -/
theorem refused_iff : (∀ op : BitVec 8, (toReqOp op).isSome = true ↔ op ∈ reads ∨ op ∈ dataless) ∧
    (∀ op : BitVec 8, isRead op = true ↔ op ∈ reads) ∧
    (∀ op : BitVec 8, (isRead op || isDataLess op) = true → (toReqOp op = none ↔ op = 0x22 ∨ op = 0x23)) ∧
    (∀ op : BitVec 8, ∀ s : Bool, (isWrite op || isAtomic op) = true → (dataOp op 0 s = none ↔ op = 0x17 ∨ op = 0x1B ∨
      op = 0x20 ∨ op = 0x21)) := by
  decide +kernel

end Verif.Ccix
