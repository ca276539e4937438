import Verif.Cxs.Props

/-! C32: messages and uses for which the promise is broken, and concrete cases
that meet the hypotheses of `Props.lean`. -/
namespace Verif.Cxs
open Spec
open ChiLink (In)

/-- A 64-byte write. -/
private def write64 : Msg :=
  { attr := { msgType := tReq, txnID := 0x123, reqOp := 0x21, reqAttr := 0x60, tgtID := 5, srcID := 9, qos := 3 }
    write := true, addr := 0x4_0100_0000_1240#64, data := (List.range 64).map (BitVec.ofNat 8), be := [] }

/-- A read. -/
private def read64 : Msg :=
  { attr := { msgType := tReq, txnID := 7, reqOp := 0x01, reqAttr := 0x60, msgCredit := 11 }
    write := false, addr := 0x1240, data := [], be := [] }

/-- A 16-byte write with byte enables. -/
private def partial16 : Msg :=
  { attr := { msgType := tReq, txnID := 1, reqOp := 0x20, reqAttr := 0x40 }
    write := true, addr := 0x1250, data := (List.range 16).map (BitVec.ofNat 8), be := [true, false, false] }

/-- A response with data. -/
private def resp64 : Msg :=
  { attr := { msgType := tResp, txnID := 7, respOp := 1, respAttr := 2 }
    write := true, addr := 0, data := List.replicate 64 0xA5, be := [] }

private theorem low_ok (a : BitVec 64) (h : a &&& 0xFFF0_00FF_0000_0000#64 = 0) :
    ∀ i, (32 ≤ i ∧ i < 40) ∨ 52 ≤ i → a.getLsbD i = false := by
  intro i hi
  by_cases h64 : i < 64
  · have := congrArg (fun x => x.getLsbD i) h
    simp only [BitVec.getLsbD_and] at this
    have hm : (0xFFF0_00FF_0000_0000#64).getLsbD i = true := by
      have key : ∀ j : Fin 64, (32 ≤ j.val ∧ j.val < 40) ∨ 52 ≤ j.val → (0xFFF0_00FF_0000_0000#64).getLsbD j.val = true := by
        decide
      exact key ⟨i, h64⟩ hi
    rw [hm] at this
    simpa using this
  · exact BitVec.getLsbD_of_ge _ _ (by omega)

private theorem write64_ok : Sendable write64 :=
  ⟨Or.inl ⟨rfl, by decide, by decide, low_ok _ (by decide), by decide, by decide, by decide, by decide,
    fun _ i _ => rfl⟩, ⟨by decide, by decide, by decide⟩⟩

private theorem read64_ok : Sendable read64 :=
  ⟨Or.inl ⟨rfl, by decide, by decide, low_ok _ (by decide), by decide, by decide, by decide, by decide,
    fun _ i _ => rfl⟩, ⟨by decide, by decide, by decide⟩⟩

private theorem partial16_ok : Sendable partial16 :=
  ⟨Or.inl ⟨rfl, by decide, by decide, low_ok _ (by decide), by decide, by decide, by decide, by decide,
    fun h => absurd h (by decide)⟩, ⟨by decide, by decide, by decide⟩⟩

private theorem resp64_ok : Sendable resp64 :=
  ⟨Or.inr (Or.inl ⟨Or.inl rfl, by decide, by decide, by decide, by decide, by decide, fun _ i _ => rfl⟩),
    ⟨by decide, by decide, by decide⟩⟩

/-- `request_on_the_wire` applies to `write64`. -/
example : ReqOk write64 ∧ write64.addr.toNat % 64 = 0 :=
  ⟨⟨rfl, by decide, by decide, low_ok _ (by decide), by decide, by decide, by decide, by decide,
    fun _ i _ => rfl⟩, by decide⟩

/-- Default parameters: 256-bit flits, two packets per flit. -/
private def cfg256 : Cfg := ⟨8, 2⟩

private theorem cfg256_ok : CfgOk cfg256 := by
  constructor <;> decide

/-- 512-bit flits, four packets. -/
example : CfgOk ⟨16, 2⟩ := by constructor <;> decide

/-- Four messages, the link stopped and started while busy. -/
private def demo : List LinkOp :=
  let t : LinkOp := .tick ⟨false, true, false⟩
  let u : LinkOp := .tick ⟨true, false, false⟩
  [.submit write64, t, u, t, .submit read64, t, u, u, .setState false, t, .submit partial16, t, .deliver,
   .setState true, .submit resp64, u]

private theorem demo_legal : Legal demo := by
  intro o ho
  simp only [demo, List.mem_cons, List.not_mem_nil, or_false] at ho
  rcases ho with h | h | h | h | h | h | h | h | h | h | h | h | h | h | h | h <;> subst h <;>
    first
    | exact trivial
    | exact write64_ok
    | exact read64_ok
    | exact partial16_ok
    | exact resp64_ok

example : Legal demo ∧ wanted demo = true ∧ CfgOk cfg256 ∧ (sentMsgs demo).length = 4 :=
  ⟨demo_legal, rfl, cfg256_ok, rfl⟩

/-- In it the link is being deactivated with a packet half way. -/
example : ((Link.run cfg256 .comp (.init cfg256) demo).map fun l =>
    (l.state, l.asms.length, l.delivered.length + l.msgs.length)) = some (.deactivate, 1, 2) := by
  decide +kernel

/-- Two short packets in one flit and a third one over two flits. -/
example : let a : List Byte := [1, 2, 3, 4]
    let b : List Byte := List.replicate 20 7
    Stream cfg256 false [([.seg true true a, .gap (List.replicate 12 0), .seg true false (b.take 16)], 0x0#64 + 0b1011 + 0x10),
      ([.seg false true (b.drop 16), .gap (List.replicate 28 0)], 0x10)] := by
  intro a b
  refine .cons (.fresh (.whole rfl (by decide) (by decide) (.gap (by decide) (.begin (by decide) (by decide) (by decide))))) ?_ ?_
  · constructor
    · decide
    · decide
    · decide
    · decide
    · decide
    · decide
  · intro o ho
    have : (assemble o [.seg true true a, .gap (List.replicate 12 0), .seg true false (b.take 16)]).2.isSome = true := by
      cases o <;> rfl
    rw [this]
    refine .cons (.finish (by decide) (by decide) (.gap (by decide) .nil)) ?_ ?_
    · constructor
      · decide
      · decide
      · decide
      · decide
      · decide
      · decide
    · intro o' _; exact .nil

/-! ### Addresses -/

/-- A request to an address with one of the bits 32 to 39 or 52 to 63 set is
refused by an assertion, whatever the request: the extension with address bits
63 to 52 is asked for by the wrong bits, and its fields and those with the rest
of the address are given values not cut to their width. -/
theorem high_address_fails (m : Msg) (ht : m.attr.msgType = tReq) (i : Nat)
    (hi : (32 ≤ i ∧ i < 40) ∨ 52 ≤ i) (ha : m.addr.getLsbD i = true) : encode m = none := by
  have hs : encode m = encodeReq m := by simp [encode, ht]
  rw [hs]
  have h64 : i < 64 := by
    by_cases h : i < 64
    · exact h
    · rw [BitVec.getLsbD_of_ge _ _ (by omega)] at ha; simp at ha
  have hbit : (addrHi m.addr).getLsbD (i - 32) = true := by
    have : 32 + (i - 32) = i := by omega
    simp only [addrHi, BitVec.getLsbD_setWidth, BitVec.getLsbD_ushiftRight, this, ha, Bool.and_true, decide_eq_true_eq]
    omega
  generalize hv : addrHi m.addr = v at hbit
  -- a field takes only values without bits above its width
  have hfit : ∀ (f : Field), f.width ≤ i - 32 → f.width < 32 → f.set v = none := by
    intro f h1 h2
    unfold Field.set
    rw [if_neg]
    intro h0
    have := congrArg (fun x => x.getLsbD (i - 32)) h0
    simp only [BitVec.getLsbD_and, BitVec.getLsbD_not, hbit, Bool.true_and] at this
    have hm : f.mask.getLsbD (i - 32) = false := by
      unfold Field.mask
      rw [BitVec.getLsbD_ofNat, Nat.testBit_two_pow_sub_one]
      simp; omega
    have h32 : i - 32 < 32 := by omega
    rw [hm] at this
    simp only [h32, decide_true, Bool.not_false, Bool.and_self] at this
    have h00 : (0 : W).getLsbD (i - 32) = false := BitVec.getLsbD_zero
    rw [h00] at this
    exact absurd this (by decide)
  have hlate : reqAddrWords m = none → encodeReq m = none := by
    intro this
    unfold encodeReq
    rw [this]
    cases reqHead m with
    | none => rfl
    | some h =>
      cases ext0Words (ext1Required m.addr) m.addr with
      | none => rfl
      | some a => cases ext1Words m.attr.reqOp m.addr <;> rfl
  have hi : (32 ≤ i ∧ i < 38) ∨ (36 ≤ i ∧ i < 40) ∨ 52 ≤ i := by omega
  rcases hi with hi | hi | hi
  · apply hlate
    have : F.addr31.set ((m.addr >>> 6).setWidth 32) = none := by
      apply set_of_not
      intro hf
      have hb := fits_bit hf (i := i - 6) (by show 26 ≤ _; omega)
      have e1 : i - 6 < 32 := by omega
      have e2 : 6 + (i - 6) = i := by omega
      simp only [BitVec.getLsbD_setWidth, BitVec.getLsbD_ushiftRight, e2, ha, e1, decide_true, Bool.and_true] at hb
      exact absurd hb (by decide)
    unfold reqAddrWords
    rw [this]
    cases F.reqAttr.set (m.attr.reqAttr.setWidth 32) with
    | none => rfl
    | some a => cases F.addr51.set (addrHi m.addr) <;> rfl
  · have hreq : ext0Required m.addr = true := by
      unfold ext0Required
      rw [hv]
      have : F.addr59.get v ≠ 0 := by
        intro h0
        have := congrArg (fun x => x.getLsbD (i - 32)) h0
        have hm : F.addr59.mask.getLsbD (i - 32) = true := by
          unfold Field.mask
          rw [BitVec.getLsbD_ofNat, Nat.testBit_two_pow_sub_one]
          have e1 : i - 32 < 32 := by omega
          have e2 : i - 32 < F.addr59.width := by show i - 32 < 8; omega
          simp [e1, e2]
        have hsh : (v >>> F.addr59.shift) = v := by simp [F.addr59]
        simp only [Field.get, hsh, BitVec.getLsbD_and, hbit, hm] at this
        simp at this
      have t : (F.addr59.get v != 0) = true := bne_iff_ne.2 this
      rw [t, Bool.or_true]
    have : ext0Words (ext1Required m.addr) m.addr = none := by
      unfold ext0Words
      rw [if_pos hreq, hv, hfit F.addr63 (by show 4 ≤ _; omega) (by decide)]
      cases F.ext.set (boolW (ext1Required m.addr)) <;> cases F.extType.set 0 <;> rfl
    unfold encodeReq
    rw [this]
    cases reqHead m <;> rfl
  · have : reqAddrWords m = none := by
      unfold reqAddrWords
      rw [hv, hfit F.addr51 (by show 20 ≤ _; omega) (by decide)]
      cases F.reqAttr.set (m.attr.reqAttr.setWidth 32) <;> rfl
    exact hlate this

/-- What arrives of a message. -/
def received (k : Hdr) (m : Msg) : Option (List Msg) := (tlpBytes k m).bind (extract k · [])

/-! ### Data -/

/-- A partial write of eight bytes arrives with twelve: the byte enables are
taken as data. -/
theorem partial_write8_corrupted : ∃ m : Msg, m.data.length = 8 ∧
    (received .comp m).map (·.map (·.data.length)) = some [12] :=
  ⟨{ partial16 with attr := { partial16.attr with reqAttr := 0x30 }, data := List.replicate 8 1 }, rfl,
    by decide +kernel⟩

/-- Data whose length is not a multiple of four runs off the buffer. -/
theorem odd_length_fails (m : Msg) (h : m.data.length % 4 ≠ 0) (hw : m.write = true) : encodeRsp m = none := by
  have hp : ∀ l : List Byte, l.length % 4 ≠ 0 → placeData l = none := by
    intro l
    induction l using placeData.induct with
    | case1 => simp
    | case2 a b c d rest ih =>
      intro h
      simp only [List.length_cons] at h
      simp [placeData, ih (by omega)]
    | case3 l h1 h2 =>
      intro _
      unfold placeData
      split
      · exact absurd rfl h1
      · exact absurd rfl (h2 _ _ _ _ _)
      · rfl
  unfold encodeRsp bodyWords
  rw [if_pos hw, hp _ h]
  cases rspHead m <;> rfl

/-- More than 64 bytes of a request overrun the receiver's buffer. -/
theorem long_data_overruns : ∃ m : Msg, m.data.length = 68 ∧ (tlpBytes .comp m).isSome ∧ received .comp m = none :=
  ⟨{ write64 with data := List.replicate 68 0 }, rfl, by decide +kernel, by decide +kernel⟩

/-- In a response they are taken for byte enables and 60 bytes of data. -/
theorem long_response_misread : ∃ m : Msg, m.data.length = 68 ∧
    (received .comp m).map (·.map fun r => (r.data.length, r.be.length)) = some [(60, 64)] :=
  ⟨{ resp64 with data := List.replicate 68 0 }, rfl, by decide +kernel⟩

/-! ### Fields -/

/-- The snoop cast is lost. -/
theorem snoop_cast_lost : ∃ m : Msg, m.attr.snpCast = 2 ∧
    (received .opt m).map (·.map (·.attr.snpCast)) = some [0] :=
  ⟨{ attr := { msgType := tSnpReq, snpCast := 2, snpOp := 1 }, write := false, addr := 0x1000, data := [], be := [] },
    rfl, by decide +kernel⟩

/-- An odd credit on a credited miscellaneous message changes its opcode: the
two fields overlap. -/
theorem misc_credit_changes_op : ∃ m : Msg, m.attr.miscOp = 1 ∧ m.attr.miscCredit = 1 ∧
    (received .opt m).map (·.map (·.attr.miscOp)) = some [9] :=
  ⟨{ attr := { msgType := tMiscCredited, miscOp := 1, miscCredit := 1 }, write := false, addr := 0, data := [], be := [] },
    rfl, rfl, by decide +kernel⟩

/-- The size of the payload of such a message is not delivered. -/
theorem payload_size_lost : ∃ m : Msg, m.attr.payloadSz = 10 ∧
    (received .opt m).map (·.map (·.attr.payloadSz)) = some [0] :=
  ⟨{ attr := { msgType := tMiscCredited, miscOp := 1, payloadSz := 10 }, write := false, addr := 0, data := [], be := [] },
    rfl, by decide +kernel⟩

/-- A full payload of 32 bytes overruns the receiver's array. -/
theorem full_payload_overruns : ∃ m : Msg, m.attr.payloadSz = 32 ∧ (tlpBytes .opt m).isSome ∧ received .opt m = none :=
  ⟨{ attr := { msgType := tMiscCredited, miscOp := 1, payloadSz := 32 }, write := false, addr := 0, data := [], be := [] },
    rfl, by decide +kernel, by decide +kernel⟩

/-- `Poison1` of a received extension is `Poison0`. -/
theorem poison_duplicated (w : W) (m : Msg) (h : F.extType.get w = 6) :
    (extractExt w m).attr.poison1 = (extractExt w m).attr.poison0 := by
  have e : extractExt w m = { m with attr := { m.attr with
        respErr := (F.respErr.get w).setWidth 8
        poison0 := (F.poison0.get w).setWidth 8
        poison1 := (F.poison0.get w).setWidth 8 } } := by
    unfold extractExt
    rw [h]
    rfl
  rw [e]

/-! ### Received packets -/

/-- A received message of length 0 is parsed forever. -/
theorem zero_length_message_loops (tgt src c : BitVec 8) (msgs : List Msg) :
    extractMsgs tgt src c [F.msgType.put 0xB] 0 msgs = none := by
  have hd : (decode [F.msgType.put 0xB] tgt src c).map (fun m => (m.attr.msgLen, m.attr.msgType)) = some (0, 0xB) := rfl
  unfold extractMsgs
  cases h : decode [F.msgType.put 0xB] tgt src c with
  | none => rfl
  | some m =>
    rw [h] at hd
    simp only [Option.map_some, Option.some.injEq, Prod.mk.injEq] at hd
    have hch : chainUp m msgs = some m := by
      unfold chainUp
      have e1 : ¬ (m.attr.msgType = tReq ∧ m.attr.reqOp = opReqChain) := by rw [hd.2]; exact fun x => absurd x.1 (by decide)
      have e2 : ¬ (m.attr.msgType = tSnpReq ∧ m.attr.snpOp = opSnpChain) := by rw [hd.2]; exact fun x => absurd x.1 (by decide)
      simp only [if_neg e1, if_neg e2]
    simp only [Option.bind_some, hch, hd.1, if_true]

/-- A chained request whose predecessor has already been handed out is not
found: the lookup sees only messages still waiting. -/
theorem chained_request_needs_waiting_predecessor (m : Msg) (h : m.attr.msgType = tReq) (ho : m.attr.reqOp = opReqChain) :
    chainUp m [] = none := by
  simp [chainUp, h, ho]

/-- A chained request takes over the transaction identifier of the request
before it instead of keeping its own. -/
theorem chained_request_loses_txnID (m p : Msg) (h : m.attr.msgType = tReq) (ho : m.attr.reqOp = opReqChain)
    (hp : p.attr.msgType = tReq) : ∃ r, chainUp m [p] = some r ∧ r.attr.txnID = p.attr.txnID :=
  ⟨{ m with write := p.write, addr := p.addr + 64, attr := p.attr }, by simp [chainUp, h, ho, hp], rfl⟩

/-! ### Control words -/

/-- With 512-bit flits and four packets per flit, the pointer to the end of the
fourth packet is shifted out of a 32-bit word. -/
theorem fourth_end_pointer_fails : Cntl.toWord ⟨16, 4⟩ ⟨[0, 1, 2, 3], [3, 7, 11, 15]⟩ = none := by
  decide +kernel

/-! ### Reset -/

/-- Credits are lost on reset: a credit pulse or a flit on its way when reset is
asserted is gone, since neither side resets its count. -/
theorem reset_loses_credit : ∃ ops l, Link.run cfg256 .comp (.init cfg256) ops = some l ∧
    l.txCred + l.gnt.toNat + (l.valid || l.rtn).toNat + l.rxCred = 14 := by
  let i : LinkOp := .tick ⟨true, true, false⟩
  exact ⟨[i, i, .reset], _, rfl, by decide +kernel⟩

end Verif.Cxs
