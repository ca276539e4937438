import Verif.Cxs.MsgLemmas
import Verif.Cxs.Legal

/-! Requests: encoding in closed form and decoding of it. -/
namespace Verif.Cxs
open Spec

set_option linter.unusedSimpArgs false

/-- Computes a field of a word put together from fields. -/
macro "fields" : tactic => `(tactic|
  simp (disch := first | decide | assumption) only [get_or, get_put_apart, get_put, BitVec.ofNat_eq_ofNat,
    BitVec.or_zero, BitVec.zero_or])

/-- The word with address bits 5 to 0, if needed. -/
def lowWord (a : BitVec 64) : List W :=
  if ext1Required a then [F.extType.put 1 ||| F.addr5.put (a.setWidth 32 &&& F.addr5.mask)]
  else []

def reqW2 (m : Msg) : W := F.reqAttr.put (m.attr.reqAttr.setWidth 32) ||| F.addr51.put (addrHi m.addr)

def reqW3 (m : Msg) : W :=
  F.addr31.put ((m.addr >>> 6).setWidth 32) ||| F.ns.put (boolW m.attr.nonSecure) |||
    F.qos.put (m.attr.qos.setWidth 32)

def reqH (m : Msg) (n : Nat) : W :=
  F.ext.put (boolW (ext1Required m.addr)) ||| F.msgType.put (m.attr.msgType.setWidth 32) |||
    F.txnID.put (m.attr.txnID.setWidth 32) ||| F.reqOp.put (m.attr.reqOp.setWidth 32) |||
    F.msgLen.put (BitVec.ofNat 32 n)

instance (f : Field) (v : W) : Decidable (f.Fits v) := inferInstanceAs (Decidable (_ < _))

theorem get_eq_zero {f : Field} {r : W} (h : ∀ i, i < f.width → r.getLsbD (f.shift + i) = false) :
    f.get r = 0 := by
  apply BitVec.eq_of_getLsbD_eq
  intro i hi
  rw [getLsbD_get]
  by_cases hw : i < f.width
  · simp [h i hw]
  · simp [hw]

theorem fits_of_bits {f : Field} {v : W} (h : ∀ i, f.width ≤ i → i < 32 → v.getLsbD i = false) : f.Fits v := by
  apply Nat.lt_pow_two_of_testBit
  intro i hi
  by_cases h32 : i < 32
  · exact h i hi h32
  · exact Nat.testBit_lt_two_pow (Nat.lt_of_lt_of_le v.isLt (Nat.pow_le_pow_right (by omega) (by omega)))

theorem addrHi_bit (a : BitVec 64) (i : Nat) (hi : i < 32) : (addrHi a).getLsbD i = a.getLsbD (32 + i) := by
  simp [addrHi, hi]

theorem fits8 {f : Field} (hf : 8 ≤ f.width) (v : BitVec 8) : f.Fits (v.setWidth 32) := by
  unfold Field.Fits
  rw [BitVec.toNat_setWidth]
  have := v.isLt
  have h2 : 2 ^ 8 ≤ 2 ^ f.width := Nat.pow_le_pow_right (by omega) hf
  have h3 : v.toNat % 2 ^ 32 = v.toNat := Nat.mod_eq_of_lt (by omega)
  omega

theorem fitsW {n : Nat} {f : Field} {v : BitVec n} (hn : n ≤ 32) (h : v.toNat < 2 ^ f.width) :
    f.Fits (v.setWidth 32) := by
  unfold Field.Fits
  rw [BitVec.toNat_setWidth, Nat.mod_eq_of_lt]
  · exact h
  · exact Nat.lt_of_lt_of_le v.isLt (Nat.pow_le_pow_right (by omega) hn)

theorem fitsBool {f : Field} (hf : 1 ≤ f.width) (b : Bool) : f.Fits (boolW b) := by
  unfold Field.Fits
  have h2 : 2 ^ 1 ≤ 2 ^ f.width := Nat.pow_le_pow_right (by omega) hf
  cases b <;> simp [boolW] <;> omega

theorem fitsNat {f : Field} {n : Nat} (h : n < 2 ^ f.width) : f.Fits (BitVec.ofNat 32 n) := by
  unfold Field.Fits
  rw [BitVec.toNat_ofNat]
  exact Nat.lt_of_le_of_lt (Nat.mod_le _ _) h

theorem addrHi_clear {a : BitVec 64} (h : ∀ i, (32 ≤ i ∧ i < 40) ∨ 52 ≤ i → a.getLsbD i = false) :
    F.addr63.get (addrHi a) = 0 ∧ F.addr59.get (addrHi a) = 0 ∧ F.addr51.Fits (addrHi a) ∧
    F.addr31.Fits ((a >>> 6).setWidth 32) := by
  refine ⟨get_eq_zero ?_, get_eq_zero ?_, fits_of_bits ?_, fits_of_bits ?_⟩
  · intro i hi
    simp only [F.addr63] at hi ⊢
    rw [addrHi_bit _ _ (by omega)]
    exact h _ (by omega)
  · intro i hi
    simp only [F.addr59] at hi ⊢
    rw [addrHi_bit _ _ (by omega)]
    exact h _ (by omega)
  · intro i hi h32
    simp only [F.addr51] at hi
    rw [addrHi_bit _ _ (by omega)]
    exact h _ (by omega)
  · intro i hi h32
    simp only [F.addr31] at hi
    simp only [BitVec.getLsbD_setWidth, BitVec.getLsbD_ushiftRight, h32, decide_true, Bool.true_and]
    exact h _ (by omega)

theorem low_of_ext1 {a : BitVec 64} (h : ext1Required a = true) : a.toNat % 64 ≠ 0 := by
  intro hz
  have : F.addr5.get (a.setWidth 32) = 0 := by
    apply get_eq_zero
    intro i hi
    simp only [F.addr5, Nat.zero_add] at hi ⊢
    have h1 : i < 32 := by omega
    simp only [BitVec.getLsbD_setWidth, h1, decide_true, Bool.true_and]
    have h2 : (a.toNat % 2 ^ 6).testBit i = a.toNat.testBit i := by
      rw [Nat.testBit_mod_two_pow]; simp [hi]
    rw [BitVec.getLsbD, ← h2]
    have : a.toNat % 2 ^ 6 = 0 := hz
    rw [this]; simp
  simp [ext1Required, this] at h

/-- Data and enables of a request. -/
def reqBody (m : Msg) (d : List W) : List W :=
  if m.write then (if hasByteEnables m.attr.reqOp then placeBE m.be m.data.length else []) ++ d else []

theorem encodeReq_eq {m : Msg} (h : ReqOk m) :
    ∃ d, (m.write = true → wordsBytes d = m.data ∧ 4 * d.length = m.data.length) ∧
      encodeReq m = some (reqH m (1 + (lowWord m.addr).length + 2 + (reqBody m d).length) ::
        (lowWord m.addr ++ [reqW2 m, reqW3 m] ++ reqBody m d)) := by
  obtain ⟨c1, c2, c3, c4⟩ := addrHi_clear h.addr
  have hd : ∃ d, (m.write = true → placeData m.data = some d ∧ wordsBytes d = m.data ∧ 4 * d.length = m.data.length) := by
    by_cases hw : m.write = true
    · obtain ⟨d, h1, h2, h3⟩ := placeData_some m.data (h.data hw).1
      exact ⟨d, fun _ => ⟨h1, h2, h3⟩⟩
    · exact ⟨[], fun c => absurd c hw⟩
  obtain ⟨d, hd⟩ := hd
  refine ⟨d, fun hw => ⟨(hd hw).2.1, (hd hw).2.2⟩, ?_⟩
  have hlow : (lowWord m.addr).length ≤ 1 := by unfold lowWord; split <;> simp
  have hbl : (reqBody m d).length ≤ 18 := by
    unfold reqBody
    split
    · rename_i hw
      have h3 := (hd hw).2.2
      have := (h.data hw).2.2.1
      rw [List.length_append]
      split <;> simp <;> omega
    · simp
  have hlen : F.msgLen.Fits (BitVec.ofNat 32 (1 + (lowWord m.addr).length + 2 + (reqBody m d).length)) :=
    fitsNat (by simp only [F.msgLen]; omega)
  have hbody : bodyWords (hasByteEnables m.attr.reqOp) m = some (reqBody m d) := by
    unfold reqBody bodyWords
    by_cases hw : m.write = true
    · simp [hw, (hd hw).1]
    · simp [hw]
  have e1 : ∀ b, F.ext.set (boolW b) = some (F.ext.put (boolW b)) := fun b => set_of_fits (fitsBool (by decide) b)
  have e2 : F.msgType.set (m.attr.msgType.setWidth 32) = some (F.msgType.put (m.attr.msgType.setWidth 32)) :=
    set_of_fits (by rw [h.type]; decide)
  have e3 : F.txnID.set (m.attr.txnID.setWidth 32) = some (F.txnID.put (m.attr.txnID.setWidth 32)) :=
    set_of_fits (fitsW (by omega) h.txnID)
  have e4 : F.reqOp.set (m.attr.reqOp.setWidth 32) = some (F.reqOp.put (m.attr.reqOp.setWidth 32)) :=
    set_of_fits (fits8 (by decide) _)
  have e5 : F.reqAttr.set (m.attr.reqAttr.setWidth 32) = some (F.reqAttr.put (m.attr.reqAttr.setWidth 32)) :=
    set_of_fits (fits8 (by decide) _)
  have e6 : F.ns.set (boolW m.attr.nonSecure) = some (F.ns.put (boolW m.attr.nonSecure)) :=
    set_of_fits (fitsBool (by decide) _)
  have e7 : F.qos.set (m.attr.qos.setWidth 32) = some (F.qos.put (m.attr.qos.setWidth 32)) :=
    set_of_fits (fitsW (by omega) h.qos)
  have e8 := set_of_fits c3
  have e9 := set_of_fits c4
  have e10 := set_of_fits hlen
  have e11 : F.extType.set 1 = some (F.extType.put 1) := set_of_fits (by decide)
  have e12 : F.addr5.set (m.addr.setWidth 32 &&& F.addr5.mask) = some (F.addr5.put (m.addr.setWidth 32 &&& F.addr5.mask)) :=
    set_of_fits (fits_of_bits (by
      intro i hi h32
      simp only [BitVec.getLsbD_and, getLsbD_mask]
      have : ¬ i < F.addr5.width := by omega
      simp [this]))
  have x0 : ext0Required m.addr = false := by simp [ext0Required, c1, c2]
  have hhead : reqHead m = some (F.ext.put (boolW (ext1Required m.addr)) ||| F.msgType.put (m.attr.msgType.setWidth 32) |||
      F.txnID.put (m.attr.txnID.setWidth 32) ||| F.reqOp.put (m.attr.reqOp.setWidth 32)) := by
    simp [reqHead, e1, e2, e3, e4, x0]
  have h0 : ∀ b, ext0Words b m.addr = some [] := by intro b; simp [ext0Words, x0]
  have h1 : ext1Words m.attr.reqOp m.addr = some (lowWord m.addr) := by
    unfold ext1Words lowWord
    cases hx : ext1Required m.addr
    · simp
    · have := h.low (low_of_ext1 hx)
      simp only [if_true, this, e11, e12, Option.bind_eq_bind, Option.bind_some, Option.pure_def]
  have h2 : reqAddrWords m = some [reqW2 m, reqW3 m] := by
    simp [reqAddrWords, e5, e6, e7, e8, e9, reqW2, reqW3]
  have hl : (lowWord m.addr ++ [reqW2 m, reqW3 m] ++ reqBody m d).length + 1
      = 1 + (lowWord m.addr).length + 2 + (reqBody m d).length := by
    simp only [List.length_append, List.length_cons, List.length_nil]; omega
  simp only [encodeReq, hhead, h0, h1, h2, hbody, Option.bind_eq_bind, Option.bind_some, List.nil_append,
    setLen, hl, e10, Option.pure_def, reqH]

/-- Facts about the first word of a request. -/
theorem reqH_get {m : Msg} (h : ReqOk m) {n : Nat} (hn : n < 32) :
    F.ext.get (reqH m n) = boolW (ext1Required m.addr) ∧
    F.msgType.get (reqH m n) = m.attr.msgType.setWidth 32 ∧
    F.msgLen.get (reqH m n) = BitVec.ofNat 32 n ∧
    F.txnID.get (reqH m n) = m.attr.txnID.setWidth 32 ∧
    F.reqOp.get (reqH m n) = m.attr.reqOp.setWidth 32 := by
  have f1 : F.ext.Fits (boolW (ext1Required m.addr)) := fitsBool (by decide) _
  have f2 : F.msgType.Fits (m.attr.msgType.setWidth 32) := by rw [h.type]; decide
  have f3 : F.txnID.Fits (m.attr.txnID.setWidth 32) := fitsW (by omega) h.txnID
  have f4 : F.reqOp.Fits (m.attr.reqOp.setWidth 32) := fits8 (by decide) _
  have f5 : F.msgLen.Fits (BitVec.ofNat 32 n) := fitsNat hn
  unfold reqH
  refine ⟨?_, ?_, ?_, ?_, ?_⟩ <;>
  fields

theorem reqW_get {m : Msg} (h : ReqOk m) :
    F.reqAttr.get (reqW2 m) = m.attr.reqAttr.setWidth 32 ∧
    F.addr51.get (reqW2 m) = addrHi m.addr ∧
    F.addr31.get (reqW3 m) = (m.addr >>> 6).setWidth 32 ∧
    F.ns.get (reqW3 m) = boolW m.attr.nonSecure ∧
    F.qos.get (reqW3 m) = m.attr.qos.setWidth 32 := by
  obtain ⟨-, -, c3, c4⟩ := addrHi_clear h.addr
  have f1 : F.reqAttr.Fits (m.attr.reqAttr.setWidth 32) := fits8 (by decide) _
  have f2 : F.ns.Fits (boolW m.attr.nonSecure) := fitsBool (by decide) _
  have f3 : F.qos.Fits (m.attr.qos.setWidth 32) := fitsW (by omega) h.qos
  unfold reqW2 reqW3
  refine ⟨?_, ?_, ?_, ?_, ?_⟩ <;>
  fields

/-- Address bits 5 to 0. -/
def lowBits (a : BitVec 64) : BitVec 64 := (F.addr5.get (a.setWidth 32)).setWidth 64

theorem fits_mask (f : Field) (v : W) : f.Fits (v &&& f.mask) := by
  apply fits_of_bits
  intro i hi h32
  have : ¬ i < f.width := by omega
  simp [BitVec.getLsbD_and, getLsbD_mask, this]

theorem get5 (v : W) : F.addr5.get v = v &&& F.addr5.mask := by
  simp [Field.get, F.addr5]

theorem extensions_low {m0 : Msg} (a : BitVec 64) (h : W) (hx : F.ext.get h = boolW (ext1Required a))
    (ws : List W) (hne : ws ≠ []) :
    ∃ h', extensions h m0 (lowWord a ++ ws) = some (h', { m0 with addr := m0.addr ||| lowBits a }, ws) := by
  obtain ⟨w, ws, rfl⟩ := List.exists_cons_of_ne_nil hne
  cases hb : ext1Required a
  · have : lowBits a = 0 := by
      unfold lowBits
      have : F.addr5.get (a.setWidth 32) = 0 := by simpa [ext1Required] using hb
      rw [this]; rfl
    refine ⟨h, ?_⟩
    rw [hb] at hx
    have hx : F.ext.get h = 0 := hx
    simp [lowWord, hb, extensions, hx, this]
  · rw [hb] at hx
    have hx : F.ext.get h = 1 := hx
    have fm : F.addr5.Fits (a.setWidth 32 &&& F.addr5.mask) := fits_mask _ _
    have f1 : F.extType.Fits 1 := by decide
    have g1 : F.ext.get (F.extType.put 1 ||| F.addr5.put (a.setWidth 32 &&& F.addr5.mask)) = 0#32 := by
      fields
    have g2 : F.extType.get (F.extType.put 1 ||| F.addr5.put (a.setWidth 32 &&& F.addr5.mask)) = 1#32 := by
      fields
    have g3 : F.addr5.get (F.extType.put 1 ||| F.addr5.put (a.setWidth 32 &&& F.addr5.mask))
        = a.setWidth 32 &&& F.addr5.mask := by
      fields
    have hl : lowWord a = [F.extType.put 1 ||| F.addr5.put (a.setWidth 32 &&& F.addr5.mask)] := by simp [lowWord, hb]
    rw [hl]
    generalize F.extType.put 1 ||| F.addr5.put (a.setWidth 32 &&& F.addr5.mask) = x at *
    refine ⟨x, ?_⟩
    have hext : extractExt x m0 = { m0 with addr := m0.addr ||| lowBits a } := by
      simp [extractExt, g2, g3, lowBits, get5]
    simp [extensions, hx, g1, hext]

/-- The address is put together again. -/
theorem addr_parts {a : BitVec 64} (h : ∀ i, (32 ≤ i ∧ i < 40) ∨ 52 ≤ i → a.getLsbD i = false) :
    0 ||| lowBits a ||| ((addrHi a).setWidth 64 <<< 32) ||| (((a >>> 6).setWidth 32 : W).setWidth 64 <<< 6) = a := by
  apply BitVec.eq_of_getLsbD_eq
  intro i hi
  simp only [BitVec.getLsbD_or, BitVec.getLsbD_shiftLeft, BitVec.getLsbD_setWidth, lowBits, getLsbD_get,
    addrHi, BitVec.getLsbD_ushiftRight, F.addr5, BitVec.ofNat_eq_ofNat, BitVec.getLsbD_zero, Bool.false_or, Nat.zero_add]
  by_cases h1 : i < 6
  · have a1 : i < 32 := by omega
    simp [hi, h1, a1]
  · by_cases h2 : i < 32
    · have a1 : i - 6 < 32 := by omega
      have a2 : 6 + (i - 6) = i := by omega
      have a3 : i - 6 < 64 := by omega
      simp [hi, h1, h2, a1, a2, a3]
    · have a1 : i - 32 < 32 := by omega
      have a2 : 32 + (i - 32) = i := by omega
      have a3 : i - 32 < 64 := by omega
      have a4 : 6 + (i - 6) = i := by omega
      by_cases h38 : i < 38
      · have := h i (by omega)
        rw [BitVec.getLsbD_eq_getElem hi] at this
        simp [hi, h1, h2, a2, a4, this]
      · have a5 : ¬ i - 6 < 32 := by omega
        simp [hi, h1, h2, a1, a2, a3, a5]

theorem tailSize_eq {m : Msg} {n total : Nat} (hm : m.attr.msgLen.toNat = n) {body rest : List W}
    (ht : total = n + rest.length) (hb : body.length ≤ n) : tailSize m total (body ++ rest) = some body.length := by
  unfold tailSize
  rw [hm, List.length_append]
  have e : total - (body.length + rest.length) = n - body.length := by omega
  rw [e, if_pos (by omega)]
  congr 1
  omega

theorem parseBE_eq {n : Nat} (be : List Bool) (hn : n = 16 ∨ n = 32 ∨ n = 64) (tl : List W) :
    ∃ e, parseBE (placeBE be n ++ tl) n = some (e, tl) ∧ e ≠ [] ∧ ∀ i, i < n → enabled e i = enabled be i := by
  have hadv : beAdvance n = (placeBE be n).length := by
    rw [placeBE_length]
    rcases hn with rfl | rfl | rfl <;> rfl
  have hn64 : n ≤ 64 := by omega
  refine ⟨(List.range 64).map fun i => decide (i < n) && beBit (placeBE be n ++ tl) i, ?_, ?_, ?_⟩
  · unfold parseBE
    rw [if_pos ⟨hn64, by simp⟩, hadv, List.drop_left]
  · intro h; have := congrArg List.length h; simp at this
  · intro i hi
    have hi64 : i < 64 := by omega
    have e : enabled (List.map (fun i => decide (i < n) && beBit (placeBE be n ++ tl) i) (List.range 64)) i
        = (decide (i < n) && beBit (placeBE be n ++ tl) i) := by
      unfold enabled
      rw [if_neg (by intro h; have := congrArg List.length h; simp at this)]
      simp only [List.length_map, List.length_range, Nat.mod_eq_of_lt hi64]
      rw [List.getD_eq_getElem?_getD, List.getElem?_map, List.getElem?_range hi64]
      rfl
    rw [e, beBit_placeBE be n i tl hi]
    simp [hi]

theorem reqSize_cases {a : Attr} {n : Nat} (h : reqSize a = some n) : n = 8 ∨ n = 16 ∨ n = 32 ∨ n = 64 := by
  unfold reqSize at h
  dsimp only at h
  split at h
  · simp at h
  · simp only [Option.some.injEq] at h
    split at h
    · omega
    · split at h
      · omega
      · split at h <;> omega

theorem parseData_eq (m : Msg) {d : List W} (tl : List W) (h : d.length ≤ 16) :
    parseData m (d ++ tl) d.length = some { m with data := wordsBytes d, write := true } := by
  simp [parseData, h]

/-- Enables and data of a request are parsed. -/
theorem req_tail {m m1 : Msg} (h : ReqOk m) {d rest : List W} {n total : Nat}
    (hd : m.write = true → wordsBytes d = m.data ∧ 4 * d.length = m.data.length)
    (hop : m1.attr.reqOp = m.attr.reqOp) (hra : m1.attr.reqAttr = m.attr.reqAttr)
    (hlen : m1.attr.msgLen.toNat = n) (ht : total = n + rest.length) (hb : (reqBody m d).length ≤ n)
    (hw1 : m1.write = false) (hbe1 : m1.be = []) :
    ∃ r, ((reqBE m1 total (reqBody m d ++ rest)).bind fun p => reqData p.1 total p.2) = some r ∧
      r.attr = m1.attr ∧ r.addr = m1.addr ∧ SameData m r := by
  have hnc : ¬ m1.attr.reqOp = opReqChain := by rw [hop]; exact h.notChain
  cases hw : m.write
  · -- no data
    have hbody : reqBody m d = [] := by simp [reqBody, hw]
    have hnb : hasByteEnables m.attr.reqOp = false := by
      cases hb : hasByteEnables m.attr.reqOp
      · rfl
      · have := (h.partialOp hb).1; rw [hw] at this; simp at this
    have h1 : reqBE m1 total (reqBody m d ++ rest) = some (m1, rest) := by
      simp [reqBE, hnc, hop, hnb, h.notChain, hbody]
    have h2 := tailSize_eq hlen (body := []) ht (by simp)
    simp only [List.nil_append, List.length_nil] at h2
    refine ⟨m1, ?_, rfl, rfl, ⟨by rw [hw1, hw], ?_, ?_⟩⟩
    · rw [h1]; simp [reqData, h2]
    · intro c; rw [hw] at c; simp at c
    · intro c; rw [hw] at c; simp at c
  · obtain ⟨hd1, hd2⟩ := hd hw
    obtain ⟨k1, k2, k3, k4⟩ := h.data hw
    have hd16 : d.length ≤ 16 := by omega
    have hd0 : d.length ≠ 0 := by omega
    have hdata : ∀ m2 : Msg, m2.attr = m1.attr → reqData m2 total (d ++ rest)
        = some { m2 with data := wordsBytes d, write := true } := by
      intro m2 hm2
      have hl : m2.attr.msgLen.toNat = n := by rw [hm2]; exact hlen
      have hbn : d.length ≤ n := by
        have : d.length ≤ (reqBody m d).length := by simp [reqBody, hw]
        omega
      have h2 := tailSize_eq hl (body := d) ht hbn
      have hk : (isWriteOp m2.attr.reqOp || isAtomicOp m2.attr.reqOp || decide (m2.attr.reqOp = opReqChain)) = true := by
        rw [hm2, hop]
        rcases k4 with k4 | k4 <;> simp [k4]
      unfold reqData
      rw [h2]
      simp only [Option.bind_eq_bind, Option.bind_some, if_neg hd0]
      rw [if_pos hk, parseData_eq m2 rest hd16]
    cases hb : hasByteEnables m.attr.reqOp
    · have hbody : reqBody m d = d := by simp [reqBody, hw, hb]
      have h1 : reqBE m1 total (reqBody m d ++ rest) = some (m1, d ++ rest) := by
        simp [reqBE, hnc, hop, hb, h.notChain, hbody]
      refine ⟨{ m1 with data := wordsBytes d, write := true }, ?_, rfl, rfl, ⟨by simp [hw], fun _ => hd1, ?_⟩⟩
      · rw [h1]; exact hdata m1 rfl
      · intro _ i hi
        have := h.fullOp hb i hi
        rw [this]
        simp [enabled, hbe1]
    · obtain ⟨-, p2, p3⟩ := h.partialOp hb
      have hsz := reqSize_cases p2
      have hbody : reqBody m d = placeBE m.be m.data.length ++ d := by simp [reqBody, hw, hb]
      obtain ⟨e, g1, g2, g3⟩ := parseBE_eq (n := m.data.length) m.be (by omega) (d ++ rest)
      have p2' : reqSize m1.attr = some m.data.length := by
        rw [← p2]; unfold reqSize; rw [hra]
      have h1 : reqBE m1 total (reqBody m d ++ rest) = some ({ m1 with be := e }, d ++ rest) := by
        have hc : decide (m.attr.reqOp = opReqChain) = false := by simp [h.notChain]
        rw [hbody, List.append_assoc]
        simp only [reqBE, hc, hop, hb, Bool.true_or, if_true, Bool.false_eq_true, if_false, p2', g1,
          Option.bind_eq_bind, Option.bind_some, Option.pure_def]
      refine ⟨{ m1 with be := e, data := wordsBytes d, write := true }, ?_, rfl, rfl, ⟨by simp [hw], fun _ => hd1, ?_⟩⟩
      · rw [h1]; exact hdata { m1 with be := e } rfl
      · intro _ i hi; exact g3 i hi

theorem setWidth_back8 (v : BitVec 8) : (v.setWidth 32).setWidth 8 = v := by
  apply BitVec.eq_of_toNat_eq
  simp

theorem setWidth_back16 (v : BitVec 16) : (v.setWidth 32).setWidth 16 = v := by
  apply BitVec.eq_of_toNat_eq
  simp

theorem boolW_bne (b : Bool) : (boolW b != 0) = b := by cases b <;> rfl

/-- A request is decoded from its encoding, whatever follows. -/
theorem decode_req {m : Msg} (h : ReqOk m) :
    ∃ ws, encode m = some ws ∧ 0 < ws.length ∧ ws.length < 32 ∧
      ∀ (rest : List W) (tgt src credit : BitVec 8), ∃ r, decode (ws ++ rest) tgt src credit = some r ∧
        SameReq m r ∧ r.attr.tgtID = tgt ∧ r.attr.srcID = src ∧ r.attr.msgCredit = credit ∧
        r.attr.msgLen.toNat = ws.length := by
  obtain ⟨d, hd, he⟩ := encodeReq_eq h
  have hlow : (lowWord m.addr).length ≤ 1 := by unfold lowWord; split <;> simp
  have hbl : (reqBody m d).length ≤ 18 := by
    unfold reqBody
    split
    · rename_i hw
      have h3 := (hd hw).2
      have := (h.data hw).2.2.1
      rw [List.length_append]
      split <;> simp <;> omega
    · simp
  generalize hn : 1 + (lowWord m.addr).length + 2 + (reqBody m d).length = n at he
  have hn32 : n < 32 := by omega
  refine ⟨_, by rw [encode, if_pos h.type, he], by simp, ?_, ?_⟩
  · simp only [List.length_cons, List.length_append, List.length_nil]; omega
  intro rest tgt src credit
  obtain ⟨g1, g2, g3, g4, g5⟩ := reqH_get h hn32
  obtain ⟨k1, k2, k3, k4, k5⟩ := reqW_get h
  generalize reqH m n = hh at *
  have hlist : hh :: (lowWord m.addr ++ [reqW2 m, reqW3 m] ++ reqBody m d) ++ rest
      = hh :: (lowWord m.addr ++ (reqW2 m :: reqW3 m :: (reqBody m d ++ rest))) := by simp
  have htot : (hh :: (lowWord m.addr ++ (reqW2 m :: reqW3 m :: (reqBody m d ++ rest)))).length = n + rest.length := by
    simp only [List.length_cons, List.length_append]; omega
  rw [hlist]
  unfold decode
  dsimp only
  rw [htot]
  have ht : (rxMsg hh tgt src credit).attr.msgType = tReq := by
    simp only [rxMsg, g2, setWidth_back8, h.type]
  rw [if_pos ht]
  unfold decodeReq
  dsimp only
  obtain ⟨h', hx⟩ := extensions_low (m0 := { rxMsg hh tgt src credit with attr := { (rxMsg hh tgt src credit).attr with
    txnID := (F.txnID.get hh).setWidth 16, reqOp := (F.reqOp.get hh).setWidth 8 } }) m.addr hh g1
    (reqW2 m :: reqW3 m :: (reqBody m d ++ rest)) (by simp)
  rw [hx]
  simp only [Option.bind_eq_bind, Option.bind_some]
  have hop : ¬ ((F.reqOp.get hh).setWidth 8 = opReqChain) := by
    rw [g5, setWidth_back8]; exact h.notChain
  simp only [reqAddr]
  rw [if_neg hop]
  simp only [Option.bind_some]
  have hml : (BitVec.setWidth 8 (F.msgLen.get hh)).toNat = n := by
    rw [g3]; simp; omega
  obtain ⟨r, r1, r2, r3, r4⟩ := req_tail (m1 := { rxMsg hh tgt src credit with
      addr := 0 ||| lowBits m.addr ||| BitVec.setWidth 64 (F.addr51.get (reqW2 m)) <<< 32 |||
        BitVec.setWidth 64 (F.addr31.get (reqW3 m)) <<< 6
      attr := { (rxMsg hh tgt src credit).attr with
        txnID := (F.txnID.get hh).setWidth 16, reqOp := (F.reqOp.get hh).setWidth 8
        reqAttr := (F.reqAttr.get (reqW2 m)).setWidth 8
        nonSecure := F.ns.get (reqW3 m) != 0
        qos := (F.qos.get (reqW3 m)).setWidth 8 } })
    (rest := rest) (total := n + rest.length) (n := n) h hd (by simp only [g5, setWidth_back8])
    (by simp only [k1, setWidth_back8]) hml rfl (by omega) rfl rfl
  refine ⟨r, r1, ⟨?_, ?_, ?_, ?_, ?_, ?_, ?_, r4⟩, ?_, ?_, ?_, ?_⟩
  all_goals simp only [r2, r3, rxMsg]
  · rw [g2, setWidth_back8]
  · rw [g4, setWidth_back16]
  · rw [g5, setWidth_back8]
  · rw [k1, setWidth_back8]
  · rw [k4, boolW_bne]
  · rw [k5, setWidth_back8]
  · rw [k2, k3]; exact addr_parts h.addr
  · rw [hml]
    simp only [List.length_cons, List.length_append, List.length_nil]; omega

end Verif.Cxs
