import Verif.Cxs.OtherLemmas

/-! Packets: header and messages. -/
namespace Verif.Cxs
open Spec

theorem Decodes.mono {S T : Msg → Msg → Prop} {m : Msg} (h : Decodes S m) (hst : ∀ r, S m r → T m r) :
    Decodes T m := by
  obtain ⟨ws, h1, h2, h3, h4⟩ := h
  refine ⟨ws, h1, h2, h3, fun rest t s c => ?_⟩
  obtain ⟨r, q1, q2, q3⟩ := h4 rest t s c
  exact ⟨r, q1, hst r q2, q3⟩

/-- The received message is the sent one and not chained. -/
def Arrives (m r : Msg) : Prop := Same m r ∧ ∀ msgs, chainUp r msgs = some r

theorem decode_ok {m : Msg} (h : MsgOk m) : Decodes Arrives m := by
  rcases h with h | h | h | h | h
  · refine Decodes.mono (S := SameReq) (decode_req h) fun r s => ⟨?_, fun msgs => ?_⟩
    · have t := h.type
      refine ⟨fun _ => s, ?_, ?_, ?_, ?_⟩ <;> intro c <;> rw [t] at c <;> exact absurd c (by decide)
    · have t := s.type.trans h.type
      have o : r.attr.reqOp ≠ opReqChain := by rw [s.op]; exact h.notChain
      unfold chainUp
      rw [t]
      simp only [o, and_false, if_false]
      rfl
  · refine Decodes.mono (decode_rsp h) fun r s => ⟨?_, fun msgs => ?_⟩
    · refine ⟨?_, ?_, fun _ => s, ?_, ?_⟩ <;> intro c <;> rcases h.type with t | t <;> rw [t] at c <;> exact absurd c (by decide)
    · unfold chainUp
      rw [s.type]
      rcases h.type with t | t <;> rw [t] <;> rfl
  · refine Decodes.mono (decode_snp h) fun r s => ⟨?_, fun msgs => ?_⟩
    · have t := h.type
      refine ⟨?_, fun _ => s, ?_, ?_, ?_⟩ <;> intro c <;> rw [t] at c <;> exact absurd c (by decide)
    · have t := s.type.trans h.type
      have o : r.attr.snpOp ≠ opSnpChain := by rw [s.op]; exact h.notChain
      unfold chainUp
      rw [t]
      simp only [o, and_false, if_false]
      rfl
  · refine Decodes.mono (decode_crd h) fun r s => ⟨?_, fun msgs => ?_⟩
    · have t := h.type
      refine ⟨?_, ?_, ?_, fun _ => s, ?_⟩ <;> intro c <;> rw [t] at c <;> exact absurd c (by decide)
    · unfold chainUp
      rw [s.type, h.type]; rfl
  · refine Decodes.mono (decode_misc h) fun r s => ⟨?_, fun msgs => ?_⟩
    · have t := h.type
      refine ⟨?_, ?_, ?_, ?_, fun _ => s⟩ <;> intro c <;> rw [t] at c <;> exact absurd c (by decide)
    · unfold chainUp
      rw [s.type, h.type]; rfl

/-- Messages one behind the other. -/
def encodeAll : List Msg → Option (List W)
  | [] => some []
  | m :: ms => (encode m).bind fun ws => (encodeAll ms).map (ws ++ ·)

/-- The received messages: same content, the identifiers of the packet, the
packet's credit with the first only. -/
inductive ArriveAll (tgt src : BitVec 8) : BitVec 8 → List Msg → List Msg → Prop where
  | nil {c} : ArriveAll tgt src c [] []
  | cons {c m r ms rs} : Same m r → r.attr.tgtID = tgt → r.attr.srcID = src → r.attr.msgCredit = c →
      ArriveAll tgt src 0 ms rs → ArriveAll tgt src c (m :: ms) (r :: rs)

theorem extractMsgs_skip (tgt src c : BitVec 8) (a b : List W) (msgs : List Msg) :
    extractMsgs tgt src c (a ++ b) a.length msgs = extractMsgs tgt src c b 0 msgs := by
  induction a with
  | nil => rfl
  | cons x a ih => simpa [extractMsgs] using ih

theorem extractMsgs_all (tgt src : BitVec 8) : ∀ (ms : List Msg), (∀ m ∈ ms, MsgOk m) →
    ∃ ws, encodeAll ms = some ws ∧ ∀ (c : BitVec 8) (msgs : List Msg), ∃ rs, ArriveAll tgt src c ms rs ∧
      extractMsgs tgt src c ws 0 msgs = some (msgs ++ rs)
  | [], _ => ⟨[], rfl, fun c msgs => ⟨[], .nil, by simp [extractMsgs]⟩⟩
  | m :: ms, h => by
    obtain ⟨ws, e1, e2, e3, e4⟩ := decode_ok (h m (by simp))
    obtain ⟨ws', f1, f2⟩ := extractMsgs_all tgt src ms (fun x hx => h x (by simp [hx]))
    refine ⟨ws ++ ws', by simp [encodeAll, e1, f1], fun c msgs => ?_⟩
    obtain ⟨r, r1, ⟨r2, r3⟩, r4, r5, r6, r7⟩ := e4 ws' tgt src c
    obtain ⟨rs, s1, s2⟩ := f2 0 (msgs ++ [r])
    refine ⟨r :: rs, .cons r2 r4 r5 r6 s1, ?_⟩
    obtain ⟨w, t, rfl⟩ := List.exists_cons_of_ne_nil (List.ne_nil_of_length_pos e2)
    simp only [List.cons_append] at r1 ⊢
    have hne : ¬ r.attr.msgLen = 0 := by
      intro hz
      rw [hz] at r7
      simp at r7
    simp only [extractMsgs, r1, Option.bind_some, r3]
    rw [if_neg hne, r7]
    simp only [List.length_cons, Nat.add_sub_cancel]
    rw [extractMsgs_skip, s2, List.append_assoc]
    rfl

theorem hdr_parse (k : Hdr) {a : Attr} (h : IdsOk a) {n : Nat} (hn : n < 32) :
    ∃ hs, k.words a n = some hs ∧ hs.length = k.size ∧
      ∀ ws, k.parse (hs ++ ws) = some (a.tgtID, a.srcID, a.msgCredit) := by
  have f1 : F.hMsgCredit.Fits (a.msgCredit.setWidth 32) := fitsW (by omega) h.msgCredit
  have f2 : F.hTgtID.Fits (a.tgtID.setWidth 32) := fitsW (by omega) h.tgtID
  have f3 : F.hSrcID.Fits (a.srcID.setWidth 32) := fitsW (by omega) h.srcID
  have f4 : F.oLength.Fits (BitVec.ofNat 32 n) := fitsNat (by simp only [F.oLength]; omega)
  have f5 : F.cLength.Fits (BitVec.ofNat 32 n) := fitsNat (by simp only [F.cLength]; omega)
  have hi : idWord a = some (F.hMsgCredit.put (a.msgCredit.setWidth 32) ||| F.hTgtID.put (a.tgtID.setWidth 32) |||
      F.hSrcID.put (a.srcID.setWidth 32)) := by
    simp only [idWord, set_of_fits f1, set_of_fits f2, set_of_fits f3, Option.bind_eq_bind, Option.bind_some,
      Option.pure_def]
  cases k
  · refine ⟨[F.oType.put 1 ||| F.hTc.put 7 ||| (F.hMsgCredit.put (a.msgCredit.setWidth 32) |||
      F.hTgtID.put (a.tgtID.setWidth 32) ||| F.hSrcID.put (a.srcID.setWidth 32)) ||| F.oLength.put (BitVec.ofNat 32 n)],
      ?_, rfl, ?_⟩
    · simp only [Hdr.words, hi, set_of_fits f4, Option.bind_eq_bind, Option.bind_some, Option.pure_def]
    · intro ws
      have g1 : F.hTgtID.get (F.oType.put 1 ||| F.hTc.put 7 ||| (F.hMsgCredit.put (a.msgCredit.setWidth 32) |||
        F.hTgtID.put (a.tgtID.setWidth 32) ||| F.hSrcID.put (a.srcID.setWidth 32)) ||| F.oLength.put (BitVec.ofNat 32 n))
          = a.tgtID.setWidth 32 := by fields
      have g2 : F.hSrcID.get (F.oType.put 1 ||| F.hTc.put 7 ||| (F.hMsgCredit.put (a.msgCredit.setWidth 32) |||
        F.hTgtID.put (a.tgtID.setWidth 32) ||| F.hSrcID.put (a.srcID.setWidth 32)) ||| F.oLength.put (BitVec.ofNat 32 n))
          = a.srcID.setWidth 32 := by fields
      have g3 : F.hMsgCredit.get (F.oType.put 1 ||| F.hTc.put 7 ||| (F.hMsgCredit.put (a.msgCredit.setWidth 32) |||
        F.hTgtID.put (a.tgtID.setWidth 32) ||| F.hSrcID.put (a.srcID.setWidth 32)) ||| F.oLength.put (BitVec.ofNat 32 n))
          = a.msgCredit.setWidth 32 := by fields
      have hs : ∀ w : W, Hdr.opt.size ≤ (w :: ws : List W).length := by intro w; simp [Hdr.size]
      simp only [Hdr.parse, List.cons_append, List.nil_append]
      rw [if_pos (hs _)]
      simp only [Hdr.size, Nat.sub_self, List.getD_cons_zero, g1, g2, g3, setWidth_back8]
  · refine ⟨[F.cFmt.put 3 ||| F.cType.put 0x12 ||| F.hTc.put 7 ||| F.cLength.put (BitVec.ofNat 32 n), F.cMsgCode.put 0x7F, 0,
      F.hMsgCredit.put (a.msgCredit.setWidth 32) |||
      F.hTgtID.put (a.tgtID.setWidth 32) ||| F.hSrcID.put (a.srcID.setWidth 32)], ?_, rfl, ?_⟩
    · simp only [Hdr.words, hi, set_of_fits f5, Option.bind_eq_bind, Option.bind_some, Option.pure_def]
    · intro ws
      have g1 : F.hTgtID.get (F.hMsgCredit.put (a.msgCredit.setWidth 32) |||
        F.hTgtID.put (a.tgtID.setWidth 32) ||| F.hSrcID.put (a.srcID.setWidth 32)) = a.tgtID.setWidth 32 := by fields
      have g2 : F.hSrcID.get (F.hMsgCredit.put (a.msgCredit.setWidth 32) |||
        F.hTgtID.put (a.tgtID.setWidth 32) ||| F.hSrcID.put (a.srcID.setWidth 32)) = a.srcID.setWidth 32 := by fields
      have g3 : F.hMsgCredit.get (F.hMsgCredit.put (a.msgCredit.setWidth 32) |||
        F.hTgtID.put (a.tgtID.setWidth 32) ||| F.hSrcID.put (a.srcID.setWidth 32)) = a.msgCredit.setWidth 32 := by fields
      have hs : ∀ x y z w : W, Hdr.comp.size ≤ (x :: y :: z :: w :: ws : List W).length := by
        intro x y z w; simp [Hdr.size]
      simp only [Hdr.parse, List.cons_append, List.nil_append]
      rw [if_pos (hs _ _ _ _)]
      simp only [Hdr.size, Nat.add_one_sub_one, List.getD_cons_succ, List.getD_cons_zero, g1, g2, g3, setWidth_back8]

/-- The packet of a message, and what comes out of it. -/
theorem extract_tlp (k : Hdr) {m : Msg} (h : MsgOk m) (hi : IdsOk m.attr) :
    ∃ bytes, tlpBytes k m = some bytes ∧ 4 ≤ bytes.length ∧ bytes.length % 4 = 0 ∧
      ∀ msgs, ∃ r, extract k bytes msgs = some (msgs ++ [r]) ∧ Same m r ∧
        r.attr.tgtID = m.attr.tgtID ∧ r.attr.srcID = m.attr.srcID ∧ r.attr.msgCredit = m.attr.msgCredit := by
  obtain ⟨ws, h1, h2⟩ := extractMsgs_all m.attr.tgtID m.attr.srcID [m] (by simpa using h)
  obtain ⟨ws', e1, e2, e3, -⟩ := decode_ok h
  have : ws' = ws := by simpa [encodeAll, e1] using h1
  subst this
  obtain ⟨hs, g1, g2, g3⟩ := hdr_parse k hi e3
  refine ⟨wordsBytes (hs ++ ws'), ?_, ?_, ?_, ?_⟩
  · simp [tlpBytes, tlpWords, e1, g1]
  · rw [wordsBytes_length, List.length_append]; omega
  · rw [wordsBytes_length]; omega
  · intro msgs
    obtain ⟨rs, q1, q2⟩ := h2 m.attr.msgCredit msgs
    cases q1 with
    | cons p1 p2 p3 p4 p5 =>
      cases p5
      refine ⟨_, ?_, p1, p2, p3, p4⟩
      simp only [extract, beWords_wordsBytes, g3, Option.bind_eq_bind, Option.bind_some]
      rw [List.drop_left' g2]
      exact q2

/-- A packet with any number of messages behind a header. -/
theorem extract_packed (k : Hdr) {a : Attr} (hi : IdsOk a) (ms : List Msg) (h : ∀ m ∈ ms, MsgOk m) {n : Nat}
    (hn : n < 32) : ∃ hs ws, k.words a n = some hs ∧ encodeAll ms = some ws ∧
      ∀ msgs, ∃ rs, extract k (wordsBytes (hs ++ ws)) msgs = some (msgs ++ rs) ∧
        ArriveAll a.tgtID a.srcID a.msgCredit ms rs := by
  obtain ⟨ws, h1, h2⟩ := extractMsgs_all a.tgtID a.srcID ms h
  obtain ⟨hs, g1, g2, g3⟩ := hdr_parse k hi hn
  refine ⟨hs, ws, g1, h1, fun msgs => ?_⟩
  obtain ⟨rs, q1, q2⟩ := h2 a.msgCredit msgs
  refine ⟨rs, ?_, q1⟩
  simp only [extract, beWords_wordsBytes, g3, Option.bind_eq_bind, Option.bind_some]
  rw [List.drop_left' g2]
  exact q2

end Verif.Cxs
