import Verif.Cxs.ReqLemmas

/-! Responses, snoop requests, credit exchange, no-operation and credited
miscellaneous messages: decoding of the encoding. -/
namespace Verif.Cxs
open Spec

set_option linter.unusedSimpArgs false

/-- What decoding has to deliver. -/
def Decodes (S : Msg → Msg → Prop) (m : Msg) : Prop :=
  ∃ ws, encode m = some ws ∧ 0 < ws.length ∧ ws.length < 32 ∧
    ∀ (rest : List W) (tgt src credit : BitVec 8), ∃ r, decode (ws ++ rest) tgt src credit = some r ∧
      S m r ∧ r.attr.tgtID = tgt ∧ r.attr.srcID = src ∧ r.attr.msgCredit = credit ∧
      r.attr.msgLen.toNat = ws.length

def rspH (m : Msg) (n : Nat) : W :=
  F.msgType.put (m.attr.msgType.setWidth 32) ||| F.txnID.put (m.attr.txnID.setWidth 32) |||
    F.respAttr.put (m.attr.respAttr.setWidth 32) ||| F.respOp.put (m.attr.respOp.setWidth 32) |||
    F.msgLen.put (BitVec.ofNat 32 n)

theorem extensions_none {h : W} (hx : F.ext.get h = 0) (m : Msg) (ws : List W) :
    extensions h m ws = some (h, m, ws) := by
  cases ws <;> simp [extensions, hx]

theorem getLen (n : Nat) (hn : n < 32) : ((BitVec.ofNat 32 n).setWidth 8).toNat = n := by
  simp; omega

theorem decode_rsp {m : Msg} (h : RspOk m) : Decodes SameRsp m := by
  have hd : ∃ d, (m.write = true → placeData m.data = some d ∧ wordsBytes d = m.data ∧ 4 * d.length = m.data.length) := by
    by_cases hw : m.write = true
    · obtain ⟨d, h1, h2, h3⟩ := placeData_some m.data (h.data hw).1
      exact ⟨d, fun _ => ⟨h1, h2, h3⟩⟩
    · exact ⟨[], fun c => absurd c hw⟩
  obtain ⟨d, hd⟩ := hd
  generalize hbd : (if m.write then (if isSnpRespDataPtl m.attr then placeBE m.be m.data.length else []) ++ d else [] : List W) = body
  have hbody : bodyWords (isSnpRespDataPtl m.attr) m = some body := by
    subst hbd
    unfold bodyWords
    by_cases hw : m.write = true
    · simp [hw, (hd hw).1]
    · simp [hw]
  have hbl : body.length ≤ 18 := by
    subst hbd
    split
    · rename_i hw
      have h3 := (hd hw).2.2
      have := (h.data hw).2.2
      rw [List.length_append]
      split <;> simp <;> omega
    · simp
  have f2 : F.msgType.Fits (m.attr.msgType.setWidth 32) := by rcases h.type with e | e <;> rw [e] <;> decide
  have f3 : F.txnID.Fits (m.attr.txnID.setWidth 32) := fitsW (by omega) h.txnID
  have f4 : F.respAttr.Fits (m.attr.respAttr.setWidth 32) := fitsW (by omega) h.attr
  have f5 : F.respOp.Fits (m.attr.respOp.setWidth 32) := fitsW (by omega) h.op
  have f6 : F.msgLen.Fits (BitVec.ofNat 32 (body.length + 1)) := fitsNat (by simp only [F.msgLen]; omega)
  have he : encode m = some (rspH m (body.length + 1) :: body) := by
    have t1 : ¬ m.attr.msgType = tReq := by rcases h.type with e | e <;> rw [e] <;> decide
    have t2 : ¬ m.attr.msgType = tSnpReq := by rcases h.type with e | e <;> rw [e] <;> decide
    rw [encode, if_neg t1, if_neg t2, if_pos h.type]
    simp only [encodeRsp, rspHead, set_of_fits f2, set_of_fits f3, set_of_fits f4, set_of_fits f5, hbody,
      Option.bind_eq_bind, Option.bind_some, setLen, set_of_fits f6, Option.pure_def, rspH]
  refine ⟨_, he, by simp, by simp only [List.length_cons]; omega, ?_⟩
  intro rest tgt src credit
  have hn : body.length + 1 < 32 := by omega
  have g1 : F.ext.get (rspH m (body.length + 1)) = 0#32 := by unfold rspH; fields
  have g2 : F.msgType.get (rspH m (body.length + 1)) = m.attr.msgType.setWidth 32 := by unfold rspH; fields
  have g3 : F.msgLen.get (rspH m (body.length + 1)) = BitVec.ofNat 32 (body.length + 1) := by unfold rspH; fields
  have g4 : F.txnID.get (rspH m (body.length + 1)) = m.attr.txnID.setWidth 32 := by unfold rspH; fields
  have g5 : F.respAttr.get (rspH m (body.length + 1)) = m.attr.respAttr.setWidth 32 := by unfold rspH; fields
  have g6 : F.respOp.get (rspH m (body.length + 1)) = m.attr.respOp.setWidth 32 := by unfold rspH; fields
  generalize rspH m (body.length + 1) = hh at *
  rw [List.cons_append]
  unfold decode
  dsimp only
  have ht : (rxMsg hh tgt src credit).attr.msgType = m.attr.msgType := by
    simp only [rxMsg, g2, setWidth_back8]
  have t1 : ¬ m.attr.msgType = tReq := by rcases h.type with e | e <;> rw [e] <;> decide
  have t2 : ¬ m.attr.msgType = tSnpReq := by rcases h.type with e | e <;> rw [e] <;> decide
  rw [ht, if_neg t1, if_neg t2, if_pos h.type]
  unfold decodeRsp
  dsimp only
  rw [extensions_none g1]
  simp only [Option.bind_eq_bind, Option.bind_some]
  generalize hm1 : ({ rxMsg hh tgt src credit with attr := { (rxMsg hh tgt src credit).attr with
    txnID := (F.txnID.get hh).setWidth 16, respAttr := (F.respAttr.get hh).setWidth 8
    respOp := (F.respOp.get hh).setWidth 8 } } : Msg) = m1
  have hml : m1.attr.msgLen.toNat = body.length + 1 := by
    subst hm1; simp only [rxMsg, g3]; exact getLen _ hn
  have hw1 : m1.write = false := by subst hm1; rfl
  have hbe1 : m1.be = [] := by subst hm1; rfl
  have htot : (hh :: (body ++ rest)).length = (body.length + 1) + rest.length := by
    simp only [List.length_cons, List.length_append]; omega
  rw [htot]
  have hts := tailSize_eq hml (body := body) (total := body.length + 1 + rest.length) (rest := rest) rfl (by omega)
  rw [hts]
  simp only [Option.bind_some]
  have fin : ∀ r : Msg, r.attr = m1.attr → SameData m r → SameRsp m r ∧ r.attr.tgtID = tgt ∧ r.attr.srcID = src ∧
      r.attr.msgCredit = credit ∧ r.attr.msgLen.toNat = (hh :: body).length := by
    intro r hr hs
    refine ⟨⟨?_, ?_, ?_, ?_, hs⟩, ?_, ?_, ?_, ?_⟩
    all_goals rw [hr]
    all_goals subst hm1
    all_goals simp only [rxMsg]
    · rw [g2, setWidth_back8]
    · rw [g4, setWidth_back16]
    · rw [g6, setWidth_back8]
    · rw [g5, setWidth_back8]
    · rw [g3, getLen _ hn]; rfl
  cases hw : m.write
  · have hb0 : body = [] := by subst hbd; simp [hw]
    subst hb0
    refine ⟨m1, ?_, fin m1 rfl ⟨by rw [hw1, hw], by simp [hw], by simp [hw]⟩⟩
    have hts' := hts
    simp only [List.nil_append, List.length_nil] at hts' ⊢
    simp [hts']
  · obtain ⟨-, hd1, hd2⟩ := hd hw
    obtain ⟨-, k2, k3⟩ := h.data hw
    have hd16 : d.length ≤ 16 := by omega
    have hd0 : d.length ≠ 0 := by omega
    cases hp : isSnpRespDataPtl m.attr
    · have hb0 : body = d := by subst hbd; simp [hw, hp]
      subst hb0
      refine ⟨{ m1 with data := wordsBytes body, write := true }, ?_, fin _ rfl ⟨by simp [hw], fun _ => hd1, ?_⟩⟩
      · have h16 : ¬ 16 < body.length := by omega
        simp only [if_neg h16, Option.pure_def, Option.bind_some, hts, if_neg hd0]
        exact parseData_eq m1 rest hd16
      · intro _ i hi
        rw [h.fullOp hp i hi]
        simp [enabled, hbe1]
    · have h64 := h.partialOp hp hw
      have hb0 : body = placeBE m.be m.data.length ++ d := by subst hbd; simp [hw, hp]
      obtain ⟨e, q1, q2, q3⟩ := parseBE_eq (n := m.data.length) m.be (by omega) (d ++ rest)
      have h16 : 16 < body.length := by rw [hb0, List.length_append, placeBE_length]; omega
      rw [h64] at q1
      have q1' : parseBE (body ++ rest) 64 = some (e, d ++ rest) := by rw [hb0, List.append_assoc, h64]; exact q1
      have hts2 := tailSize_eq (m := { m1 with be := e }) hml (body := d) (total := body.length + 1 + rest.length)
        (rest := rest) rfl (by rw [hb0, List.length_append]; omega)
      refine ⟨{ m1 with be := e, data := wordsBytes d, write := true }, ?_, fin _ rfl ⟨by simp [hw], fun _ => hd1, ?_⟩⟩
      · subst hm1
        simp only [if_pos h16, q1', Option.pure_def, Option.bind_some]
        rw [hts2]
        simp only [Option.bind_some, if_neg hd0]
        exact parseData_eq _ rest hd16
      · intro _ i hi; exact q3 i hi

theorem ext1_clear {a : BitVec 64} (h : ∀ i, i < 6 → a.getLsbD i = false) :
    ext1Required a = false ∧ lowBits a = 0 := by
  have : F.addr5.get (a.setWidth 32) = 0 := by
    apply get_eq_zero
    intro i hi
    simp only [F.addr5, Nat.zero_add] at hi ⊢
    simp [h i hi]
  exact ⟨by simp [ext1Required, this], by unfold lowBits; rw [this]; rfl⟩

theorem decode_snp {m : Msg} (h : SnpOk m) : Decodes SameSnp m := by
  have haddr : ∀ i, (32 ≤ i ∧ i < 40) ∨ 52 ≤ i → m.addr.getLsbD i = false := fun i hi => h.addr i (Or.inr hi)
  obtain ⟨c1, c2, c3, c4⟩ := addrHi_clear haddr
  obtain ⟨x1, x2⟩ := ext1_clear (a := m.addr) (fun i hi => h.addr i (Or.inl hi))
  have x0 : ext0Required m.addr = false := by simp [ext0Required, c1, c2]
  have f1 : F.ext.Fits (boolW false) := by decide
  have f2 : F.msgType.Fits (m.attr.msgType.setWidth 32) := by rw [h.type]; decide
  have f3 : F.txnID.Fits (m.attr.txnID.setWidth 32) := fitsW (by omega) h.txnID
  have f4 : F.snpCast.Fits (m.attr.snpCast.setWidth 32) := by rw [h.cast]; decide
  have f5 : F.dataRet.Fits (boolW m.attr.dataRet) := fitsBool (by decide) _
  have f6 : F.snpOp.Fits (m.attr.snpOp.setWidth 32) := fitsW (by omega) h.op
  have f7 : F.msgLen.Fits (BitVec.ofNat 32 3) := by decide
  have f8 : F.ns.Fits (boolW m.attr.nonSecure) := fitsBool (by decide) _
  generalize hhd : F.ext.put (boolW false) ||| F.msgType.put (m.attr.msgType.setWidth 32) |||
    F.txnID.put (m.attr.txnID.setWidth 32) ||| F.snpCast.put (m.attr.snpCast.setWidth 32) |||
    F.dataRet.put (boolW m.attr.dataRet) ||| F.snpOp.put (m.attr.snpOp.setWidth 32) |||
    F.msgLen.put (BitVec.ofNat 32 3) = hh
  have t1 : ¬ m.attr.msgType = tReq := by rw [h.type]; decide
  have he : encode m = some [hh, F.addr51.put (addrHi m.addr),
      F.addr31.put ((m.addr >>> 6).setWidth 32) ||| F.ns.put (boolW m.attr.nonSecure)] := by
    rw [encode, if_neg t1, if_pos h.type]
    simp only [encodeSnp, snpHead, x0, set_of_fits f1, set_of_fits f2, set_of_fits f3, set_of_fits f4,
      set_of_fits f5, set_of_fits f6, ext0Words, snpAddrWords, x1, set_of_fits c3, set_of_fits c4,
      set_of_fits f8, Option.bind_eq_bind, Option.bind_some, Option.pure_def, Bool.false_eq_true, if_false,
      List.nil_append, setLen, List.length_cons, List.length_nil]
    have : (0 + 1 + 1 + 1 : Nat) = 3 := rfl
    rw [this, set_of_fits f7, Option.bind_some, hhd]
  refine ⟨_, he, by simp, by simp, ?_⟩
  intro rest tgt src credit
  have g1 : F.ext.get hh = boolW false := by rw [← hhd]; fields
  have g2 : F.msgType.get hh = m.attr.msgType.setWidth 32 := by rw [← hhd]; fields
  have g3 : F.msgLen.get hh = BitVec.ofNat 32 3 := by rw [← hhd]; fields
  have g4 : F.txnID.get hh = m.attr.txnID.setWidth 32 := by rw [← hhd]; fields
  have g5 : F.dataRet.get hh = boolW m.attr.dataRet := by rw [← hhd]; fields
  have g6 : F.snpOp.get hh = m.attr.snpOp.setWidth 32 := by rw [← hhd]; fields
  have k1 : F.addr51.get (F.addr51.put (addrHi m.addr)) = addrHi m.addr := by fields
  have k2 : F.addr31.get (F.addr31.put ((m.addr >>> 6).setWidth 32) ||| F.ns.put (boolW m.attr.nonSecure))
      = (m.addr >>> 6).setWidth 32 := by fields
  have k3 : F.ns.get (F.addr31.put ((m.addr >>> 6).setWidth 32) ||| F.ns.put (boolW m.attr.nonSecure))
      = boolW m.attr.nonSecure := by fields
  generalize F.addr31.put ((m.addr >>> 6).setWidth 32) ||| F.ns.put (boolW m.attr.nonSecure) = w3 at *
  generalize F.addr51.put (addrHi m.addr) = w2 at *
  simp only [List.cons_append, List.nil_append]
  unfold decode
  dsimp only
  have ht : (rxMsg hh tgt src credit).attr.msgType = m.attr.msgType := by
    simp only [rxMsg, g2, setWidth_back8]
  rw [ht, if_neg t1, if_pos h.type]
  unfold decodeSnp
  dsimp only
  rw [extensions_none g1]
  have hop : ¬ ((F.snpOp.get hh).setWidth 8 = opSnpChain) := by
    rw [g6, setWidth_back8]; exact h.notChain
  simp only [Option.bind_eq_bind, Option.bind_some, snpAddr]
  rw [if_neg hop]
  refine ⟨_, rfl, ⟨?_, ?_, ?_, ?_, ?_, ?_, ?_⟩, ?_, ?_, ?_, ?_⟩
  all_goals simp only [rxMsg]
  · rw [g2, setWidth_back8]
  · rw [g4, setWidth_back16]
  · rw [g6, setWidth_back8]
  · rw [h.cast]
  · rw [g5, boolW_bne]
  · rw [k3, boolW_bne]
  · rw [k1, k2]
    have := addr_parts haddr
    rw [x2] at this
    simpa using this
  · rw [g3]; rfl

/-- The opcode looked at when choosing the message class. -/
def opField : Field := ⟨16, 3⟩

theorem op3 (h : W) : (h >>> 16) &&& 7 = opField.get h := rfl

theorem opField_put (v : W) (hv : v.toNat < 8) : opField.get (F.miscOp.put v) = v := by
  apply BitVec.eq_of_getLsbD_eq
  intro i hi
  have hb : 3 ≤ i → v.getLsbD i = false := fun h3 => fits_bit (f := ⟨0, 3⟩) hv h3
  simp only [getLsbD_get, getLsbD_put, opField, F.miscOp]
  by_cases h3 : i < 3
  · have a1 : 16 + i < 32 := by omega
    have a2 : 16 + i - 16 < 4 := by omega
    have a3 : 16 + i - 16 = i := by omega
    have a4 : i < 4 := by omega
    simp [h3, hi, a1, a4]
  · simp [h3, hb (by omega)]

theorem decode_crd {m : Msg} (h : CrdOk m) : Decodes SameCrd m := by
  have t1 : ¬ m.attr.msgType = tReq := by rw [h.type]; decide
  have t2 : ¬ m.attr.msgType = tSnpReq := by rw [h.type]; decide
  have t3 : ¬ (m.attr.msgType = tResp ∨ m.attr.msgType = tSnpResp) := by rw [h.type]; decide
  have f1 : F.msgType.Fits (m.attr.msgType.setWidth 32) := by rw [h.type]; decide
  have f2 : F.miscOp.Fits (m.attr.miscOp.setWidth 32) := by rcases h.op with e | e | e <;> rw [e] <;> decide
  have o8 : (m.attr.miscOp.setWidth 32 : W).toNat < 8 := by rcases h.op with e | e | e <;> rw [e] <;> decide
  by_cases h0 : m.attr.miscOp = 0
  · have f3 : F.msgLen.Fits (BitVec.ofNat 32 1) := by decide
    generalize hhd : F.msgType.put (m.attr.msgType.setWidth 32) ||| F.miscOp.put (m.attr.miscOp.setWidth 32) |||
      F.msgLen.put (BitVec.ofNat 32 1) = hh
    have he : encode m = some [hh] := by
      rw [encode, if_neg t1, if_neg t2, if_neg t3, if_pos h.type, if_pos h0]
      simp only [encodeNop, set_of_fits f1, set_of_fits f2, Option.bind_eq_bind, Option.bind_some, setLen,
        List.length_nil, Nat.zero_add, set_of_fits f3, Option.pure_def, hhd]
    refine ⟨_, he, by simp, by simp, ?_⟩
    intro rest tgt src credit
    have g1 : F.msgType.get hh = m.attr.msgType.setWidth 32 := by rw [← hhd]; fields
    have g2 : F.miscOp.get hh = m.attr.miscOp.setWidth 32 := by rw [← hhd]; fields
    have g3 : F.msgLen.get hh = BitVec.ofNat 32 1 := by rw [← hhd]; fields
    have g4 : opField.get hh = 0#32 := by
      rw [← hhd, get_or, get_or, opField_put _ o8, h0]; fields; rfl
    simp only [List.cons_append, List.nil_append]
    unfold decode
    dsimp only
    have ht : (rxMsg hh tgt src credit).attr.msgType = m.attr.msgType := by
      simp only [rxMsg, g1, setWidth_back8]
    rw [ht, if_neg t1, if_neg t2, if_neg t3, if_pos h.type, op3, show opField.get hh = 0 from g4, if_pos rfl]
    refine ⟨_, rfl, ⟨?_, ?_, ?_⟩, ?_, ?_, ?_, ?_⟩
    · simp only [rxMsg]; rw [g1, setWidth_back8]
    · simp only [rxMsg]; rw [g2, setWidth_back8]
    · intro c; exact absurd h0 c
    · rfl
    · rfl
    · rfl
    · simp only [rxMsg]; rw [g3]; rfl
  · obtain ⟨q1, q2, q3, q4⟩ := h.credits h0
    have ho : m.attr.miscOp = 1 ∨ m.attr.miscOp = 2 := by
      rcases h.op with e | e
      · exact absurd e h0
      · exact e
    have f3 : F.msgLen.Fits (BitVec.ofNat 32 2) := by decide
    have f4 : F.dataCredit.Fits m.attr.dataCredit := q1
    have f5 : F.reqCredit.Fits m.attr.reqCredit := q2
    have f6 : F.miscCredit.Fits m.attr.miscCredit := q3
    have f7 : F.snpCredit.Fits m.attr.snpCredit := q4
    generalize hhd : F.msgType.put (m.attr.msgType.setWidth 32) ||| F.miscOp.put (m.attr.miscOp.setWidth 32) |||
      F.dataCredit.put m.attr.dataCredit ||| F.reqCredit.put m.attr.reqCredit ||| F.msgLen.put (BitVec.ofNat 32 2) = hh
    generalize hw1 : F.miscCredit.put m.attr.miscCredit ||| F.snpCredit.put m.attr.snpCredit = w1
    have he : encode m = some [hh, w1] := by
      rw [encode, if_neg t1, if_neg t2, if_neg t3, if_pos h.type, if_neg h0, if_pos ho]
      simp only [encodeCrd, set_of_fits f1, set_of_fits f2, set_of_fits f4, set_of_fits f5, set_of_fits f6,
        set_of_fits f7, Option.bind_eq_bind, Option.bind_some, Option.pure_def, setLen, List.length_cons,
        List.length_nil, Nat.zero_add, set_of_fits f3, hw1]
      rw [hhd]
    refine ⟨_, he, by simp, by simp, ?_⟩
    intro rest tgt src credit
    have g1 : F.msgType.get hh = m.attr.msgType.setWidth 32 := by rw [← hhd]; fields
    have g2 : F.miscOp.get hh = m.attr.miscOp.setWidth 32 := by rw [← hhd]; fields
    have g3 : F.msgLen.get hh = BitVec.ofNat 32 2 := by rw [← hhd]; fields
    have g4 : opField.get hh = m.attr.miscOp.setWidth 32 := by
      rw [← hhd, get_or, get_or, get_or, get_or, opField_put _ o8]; fields
    have g5 : F.dataCredit.get hh = m.attr.dataCredit := by rw [← hhd]; fields
    have g6 : F.reqCredit.get hh = m.attr.reqCredit := by rw [← hhd]; fields
    have g7 : F.miscCredit.get w1 = m.attr.miscCredit := by rw [← hw1]; fields
    have g8 : F.snpCredit.get w1 = m.attr.snpCredit := by rw [← hw1]; fields
    simp only [List.cons_append, List.nil_append]
    unfold decode
    dsimp only
    have ht : (rxMsg hh tgt src credit).attr.msgType = m.attr.msgType := by
      simp only [rxMsg, g1, setWidth_back8]
    have z1 : ¬ opField.get hh = 0 := by rw [g4]; rcases ho with e | e <;> rw [e] <;> decide
    have z2 : opField.get hh = 1 ∨ opField.get hh = 2 := by
      rw [g4]; rcases ho with e | e <;> rw [e] <;> decide
    rw [ht, if_neg t1, if_neg t2, if_neg t3, if_pos h.type, op3, if_neg z1, if_pos z2]
    refine ⟨_, rfl, ⟨?_, ?_, ?_⟩, ?_, ?_, ?_, ?_⟩
    · simp only [rxMsg]; rw [g1, setWidth_back8]
    · simp only [rxMsg]; rw [g2, setWidth_back8]
    · intro _; exact ⟨g5, g6, g7, g8⟩
    · rfl
    · rfl
    · rfl
    · simp only [rxMsg]; rw [g3]; rfl

theorem miscOp_of_credit {c : W} (he : c.getLsbD 0 = false) : F.miscOp.get (F.miscCredit3.put c) = 0 := by
  apply get_eq_zero
  intro i hi
  simp only [F.miscOp] at hi ⊢
  simp only [getLsbD_put, F.miscCredit3]
  by_cases h3 : i = 3
  · subst h3
    have : 16 + 3 - 19 = 0 := rfl
    rw [this, he, Bool.and_false]
  · have : ¬ 19 ≤ 16 + i := by omega
    simp [this]

theorem miscCredit_of_op {o : W} (ho : o.toNat < 8) : F.miscCredit3.get (F.miscOp.put o) = 0 := by
  apply get_eq_zero
  intro i hi
  simp only [F.miscCredit3] at hi ⊢
  simp only [getLsbD_put, F.miscOp]
  have hb : o.getLsbD (19 + i - 16) = false := fits_bit (f := ⟨0, 3⟩) ho (by omega : 3 ≤ 19 + i - 16)
  rw [hb]
  simp

theorem payload0_put (b : Byte) : (b.setWidth 32 <<< 8 : W) = F.payload0.put (b.setWidth 32) := by
  apply BitVec.eq_of_getLsbD_eq
  intro i hi
  simp only [BitVec.getLsbD_shiftLeft, BitVec.getLsbD_setWidth, getLsbD_put, F.payload0]
  by_cases h8 : i < 8
  · have : ¬ 8 ≤ i := by omega
    simp only [h8, this, decide_true, decide_false, Bool.not_true, Bool.and_false, Bool.false_and]
  · by_cases h16 : i - 8 < 8
    · simp [h8, h16, hi, (by omega : 8 ≤ i)]
    · have : b.getLsbD (i - 8) = false := BitVec.getLsbD_of_ge _ _ (by omega)
      simp [this]

theorem payload1_put (b : Byte) : (b.setWidth 32 : W) = F.payload1.put (b.setWidth 32) := by
  apply BitVec.eq_of_getLsbD_eq
  intro i hi
  simp only [BitVec.getLsbD_setWidth, getLsbD_put, F.payload1]
  by_cases h8 : i < 8
  · simp [h8, hi]
  · have : b.getLsbD i = false := BitVec.getLsbD_of_ge _ _ (by omega)
    simp [this]

theorem placePayload_bytes : ∀ l : List Byte, ∃ k, wordsBytes (placePayload l) = l ++ List.replicate k 0
  | a :: b :: c :: d :: rest => by
    obtain ⟨k, hk⟩ := placePayload_bytes rest
    refine ⟨k, ?_⟩
    rw [placePayload]
    have : wordsBytes (word4 a b c d :: placePayload rest) = wordBytes (word4 a b c d) ++ wordsBytes (placePayload rest) := by
      simp [wordsBytes]
    rw [this, hk, wordBytes_word4]; rfl
  | [] => ⟨0, rfl⟩
  | [a] => ⟨3, by simp only [placePayload, wordsBytes, List.flatMap_cons, wordBytes_word4, List.flatMap_nil]; rfl⟩
  | [a, b] => ⟨2, by simp only [placePayload, wordsBytes, List.flatMap_cons, wordBytes_word4, List.flatMap_nil]; rfl⟩
  | [a, b, c] => ⟨1, by simp only [placePayload, wordsBytes, List.flatMap_cons, wordBytes_word4, List.flatMap_nil]; rfl⟩

theorem placePayload_length : ∀ l : List Byte, (placePayload l).length = (l.length + 3) / 4
  | a :: b :: c :: d :: rest => by
    rw [placePayload, List.length_cons, placePayload_length rest]
    simp only [List.length_cons]
    omega
  | [] => by simp [placePayload]
  | [a] => by simp [placePayload]
  | [a, b] => by simp [placePayload]
  | [a, b, c] => by simp [placePayload]

theorem decode_misc {m : Msg} (h : MiscOk m) : Decodes SameMisc m := by
  have t1 : ¬ m.attr.msgType = tReq := by rw [h.type]; decide
  have t2 : ¬ m.attr.msgType = tSnpReq := by rw [h.type]; decide
  have t3 : ¬ (m.attr.msgType = tResp ∨ m.attr.msgType = tSnpResp) := by rw [h.type]; decide
  have t4 : ¬ m.attr.msgType = tMiscUnCredited := by rw [h.type]; decide
  have f1 : F.msgType.Fits (m.attr.msgType.setWidth 32) := by rw [h.type]; decide
  have o8 : (m.attr.miscOp.setWidth 32 : W).toNat < 8 := by
    have := h.op
    rw [BitVec.toNat_setWidth, Nat.mod_eq_of_lt] <;> omega
  have f2 : F.miscOp.Fits (m.attr.miscOp.setWidth 32) := Nat.lt_trans o8 (by decide)
  have f3 : F.miscCredit3.Fits m.attr.miscCredit := h.credit
  generalize hpl : (m.attr.payload.take m.attr.payloadSz).drop 2 = pl
  have hpll : pl.length = m.attr.payloadSz - 2 := by
    rw [← hpl, List.length_drop, List.length_take, h.array]
    have := h.size
    omega
  generalize hb : placePayload pl = body
  have hbl : body.length = (m.attr.payloadSz - 2 + 3) / 4 := by rw [← hb, placePayload_length, hpll]
  have hs := h.size
  have hbn : body.length ≤ 7 := by omega
  have f4 : F.msgLen.Fits (BitVec.ofNat 32 (body.length + 1)) := fitsNat (by simp only [F.msgLen]; omega)
  have f5 : F.payload0.Fits ((m.attr.payload.getD 0 0).setWidth 32) := fits8 (by decide) _
  have f6 : F.payload1.Fits ((m.attr.payload.getD 1 0).setWidth 32) := fits8 (by decide) _
  have z1 := miscOp_of_credit h.even
  have z2 := miscCredit_of_op o8
  have hhd : ∃ hh, encode m = some (hh :: body) ∧ F.msgType.get hh = m.attr.msgType.setWidth 32 ∧
      F.miscOp.get hh = m.attr.miscOp.setWidth 32 ∧ F.miscCredit3.get hh = m.attr.miscCredit ∧
      F.msgLen.get hh = BitVec.ofNat 32 (body.length + 1) ∧
      (0 < m.attr.payloadSz → F.payload0.get hh = (m.attr.payload.getD 0 0).setWidth 32 ∧
        F.payload1.get hh = (m.attr.payload.getD 1 0).setWidth 32) := by
    by_cases h0 : 0 < m.attr.payloadSz
    · refine ⟨F.msgType.put (m.attr.msgType.setWidth 32) ||| F.miscCredit3.put m.attr.miscCredit |||
        F.miscOp.put (m.attr.miscOp.setWidth 32) ||| F.payload0.put ((m.attr.payload.getD 0 0).setWidth 32) |||
        F.payload1.put ((m.attr.payload.getD 1 0).setWidth 32) ||| F.msgLen.put (BitVec.ofNat 32 (body.length + 1)),
        ?_, ?_, ?_, ?_, ?_, fun _ => ⟨?_, ?_⟩⟩
      · rw [encode, if_neg t1, if_neg t2, if_neg t3, if_neg t4, if_pos h.type]
        simp only [encodeMisc, set_of_fits f1, set_of_fits f2, set_of_fits f3, Option.bind_eq_bind, Option.bind_some]
        rw [if_pos (by omega : m.attr.payloadSz ≤ 32), if_pos h0, hpl, hb, payload0_put,
          payload1_put (m.attr.payload.getD 1 0)]
        simp only [setLen, set_of_fits f4, Option.bind_some, Option.pure_def, Option.bind_eq_bind]
        simp only [← payload1_put]
      · fields
      · simp only [get_or, z1]; fields
      · simp only [get_or, z2]; fields
      · fields
      · fields; exact get_put (by decide) f5
      · fields; exact get_put (by decide) f6
    · refine ⟨F.msgType.put (m.attr.msgType.setWidth 32) ||| F.miscCredit3.put m.attr.miscCredit |||
        F.miscOp.put (m.attr.miscOp.setWidth 32) ||| F.msgLen.put (BitVec.ofNat 32 (body.length + 1)),
        ?_, ?_, ?_, ?_, ?_, fun c => absurd c h0⟩
      · rw [encode, if_neg t1, if_neg t2, if_neg t3, if_neg t4, if_pos h.type]
        simp only [encodeMisc, set_of_fits f1, set_of_fits f2, set_of_fits f3, Option.bind_eq_bind, Option.bind_some]
        rw [if_pos (by omega : m.attr.payloadSz ≤ 32), if_neg h0, hpl, hb]
        simp only [setLen, set_of_fits f4, Option.bind_some, Option.pure_def, Option.bind_eq_bind]
      · fields
      · simp only [get_or, z1]; fields
      · simp only [get_or, z2]; fields
      · fields
  obtain ⟨hh, he, g1, g2, g3, g4, g5⟩ := hhd
  refine ⟨_, he, by simp, by simp only [List.length_cons]; omega, ?_⟩
  intro rest tgt src credit
  rw [List.cons_append]
  unfold decode
  dsimp only
  have ht : (rxMsg hh tgt src credit).attr.msgType = m.attr.msgType := by
    simp only [rxMsg, g1, setWidth_back8]
  rw [ht, if_neg t1, if_neg t2, if_neg t3, if_neg t4, if_pos h.type]
  unfold decodeMisc
  dsimp only
  generalize hm1 : ({ rxMsg hh tgt src credit with attr := { (rxMsg hh tgt src credit).attr with
    miscCredit := F.miscCredit3.get hh, miscOp := (F.miscOp.get hh).setWidth 8 } } : Msg) = m1
  have hml : m1.attr.msgLen.toNat = body.length + 1 := by
    subst hm1; simp only [rxMsg, g4]; exact getLen _ (by omega)
  have hts := tailSize_eq hml (body := body) (total := (hh :: (body ++ rest)).length) (rest := rest)
    (by simp only [List.length_cons, List.length_append]; omega) (by omega)
  rw [hts]
  simp only [Option.bind_eq_bind, Option.bind_some]
  have hc : 4 * body.length ≤ 30 ∧ body.length ≤ (body ++ rest).length := by
    rw [List.length_append]; omega
  rw [if_pos hc]
  refine ⟨_, rfl, ⟨?_, ?_, ?_, ?_⟩, ?_, ?_, ?_, ?_⟩
  · subst hm1; simp only [rxMsg]; rw [g1, setWidth_back8]
  · subst hm1; simp only [rxMsg]; rw [g2, setWidth_back8]
  · subst hm1; simp only [rxMsg]; rw [g3]
  · by_cases h0 : 0 < m.attr.payloadSz
    · obtain ⟨p0, p1⟩ := g5 h0
      obtain ⟨k, hk⟩ := placePayload_bytes pl
      rw [p0, p1, setWidth_back8, setWidth_back8, List.take_left' rfl, ← hb, hk, ← hpl]
      generalize hsz : m.attr.payloadSz = sz at *
      have ha := h.array
      generalize m.attr.payload = p at *
      match p, ha with
      | a :: b :: p, ha =>
        match sz, h0 with
        | 1, _ => rfl
        | n + 2, _ =>
          simp only [List.getD_cons_zero, List.take_succ_cons, List.drop_succ_cons, List.drop_zero,
            List.getD_cons_succ, List.append_assoc]
          have hl : (p.take n).length = n := by
            rw [List.length_take]; simp only [List.length_cons] at ha; omega
          rw [List.take_left' hl]
    · have : m.attr.payloadSz = 0 := by omega
      rw [this]; rfl
  · subst hm1; rfl
  · subst hm1; rfl
  · subst hm1; rfl
  · subst hm1; exact hml

end Verif.Cxs
