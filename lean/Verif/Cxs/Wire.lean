import Verif.Cxs.ReqLemmas
import Mathlib.Tactic.IntervalCases

/-! What the peer sees on the wire: the bits of a request, and the size codes. -/
namespace Verif.Cxs
open Spec

theorem ofNat_bit (n k : Nat) (hk : k < 32) : (BitVec.ofNat 32 n)[k] = n.testBit k := by
  rw [← BitVec.getLsbD_eq_getElem hk, BitVec.getLsbD_ofNat]
  simp [hk]

/-- A request to a 64-byte aligned address starts with three words, laid out bit by bit as the CCIX
specification has it: a header with opcode, transaction id, length in words and message type; the
request attributes above address bits 51:32; and address bits 31:6 above the security bit and the quality of service. -/
theorem request_on_the_wire (m : Msg) (h : ReqOk m) (ha : m.addr.toNat % 64 = 0) :
    ∃ w1 w2 w3 body, encode m = some (w1 :: w2 :: w3 :: body) ∧ ∀ i < 32,
      w1.getLsbD i =
        (if i < 8 then m.attr.reqOp.getLsbD i else if i < 10 then false
         else if i < 22 then m.attr.txnID.getLsbD (i - 10)
         else if i < 27 then (3 + body.length).testBit (i - 22)
         else if i < 31 then m.attr.msgType.getLsbD (i - 27) else false) ∧
      w2.getLsbD i =
        (if i < 20 then m.addr.getLsbD (32 + i) else if i < 24 then false
         else m.attr.reqAttr.getLsbD (i - 24)) ∧
      w3.getLsbD i =
        (if i < 4 then m.attr.qos.getLsbD i else if i = 4 then m.attr.nonSecure
         else if i = 5 then false else m.addr.getLsbD i) := by
  obtain ⟨d, -, he⟩ := encodeReq_eq h
  have hx : ext1Required m.addr = false := by
    have : F.addr5.get (m.addr.setWidth 32) = 0 := by
      apply get_eq_zero
      intro i hi
      have h6 : i < 6 := hi
      have h7 : (m.addr.toNat % 2 ^ 6).testBit i = false := by
        rw [show (2 : Nat) ^ 6 = 64 from rfl, ha]; simp
      rw [Nat.testBit_mod_two_pow] at h7
      simp only [h6, decide_true, Bool.true_and] at h7
      show (m.addr.setWidth 32).getLsbD (0 + i) = false
      rw [Nat.zero_add, BitVec.getLsbD_setWidth, BitVec.getLsbD, h7, Bool.and_false]
    rw [ext1Required, this]; rfl
  have hl : lowWord m.addr = [] := by rw [lowWord, hx]; rfl
  rw [hl] at he
  refine ⟨_, _, _, _, by rw [encode, if_pos h.type, he]; rfl, ?_⟩
  intro i hi
  refine ⟨?_, ?_, ?_⟩
  · simp only [reqH, BitVec.getLsbD_or, getLsbD_put, F.ext, F.msgType, F.txnID, F.reqOp, F.msgLen, hx]
    rw [show 1 + ([] : List W).length + 2 + (reqBody m d).length = 3 + (reqBody m d).length from rfl]
    interval_cases i <;> simp [boolW, ofNat_bit]
  · simp only [reqW2, BitVec.getLsbD_or, getLsbD_put, F.reqAttr, F.addr51, addrHi]
    interval_cases i <;> simp
  · simp only [reqW3, BitVec.getLsbD_or, getLsbD_put, F.addr31, F.ns, F.qos]
    cases m.attr.nonSecure <;> interval_cases i <;> simp [boolW]

/-- How much data the size field of a request stands for; 128 bytes are refused. -/
theorem size_codes (a : Attr) :
    reqSize a = match a.reqAttr.toNat / 16 % 8 with
      | 7 => none | 6 => some 64 | 5 => some 32 | 4 => some 16 | _ => some 8 := by
  have : ∀ b : BitVec 8, reqSize { a with reqAttr := b } = match b.toNat / 16 % 8 with
      | 7 => none | 6 => some 64 | 5 => some 32 | 4 => some 16 | _ => some 8 := by
    unfold reqSize; dsimp only; decide +kernel
  exact this a.reqAttr

end Verif.Cxs
