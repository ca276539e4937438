import Verif.ChiFlit.Lemmas
/-!
C30: CHI packets survive packing into flits and unpacking.

The specification is the sender's packet itself: what the receiver unpacks is
field by field what the sender packed, provided every field fits the width the
port gives it (`Fits`, written out from the widths of
`/repo/tlm-bridges/amba-chi.h`).
-/
namespace Verif.ChiFlit

/-! ## Requests -/

/-- The request's fields fit the port; the length is a size CHI can express. -/
def Req.Fits (c : Cfg) (r : Req) : Prop :=
  r.qos < 2 ^ 4 ∧ r.tgtId < 2 ^ c.nodeW ∧ r.srcId < 2 ^ c.nodeW ∧ r.txnId < 2 ^ 8 ∧
  r.returnNid < 2 ^ c.nodeW ∧ r.returnTxnId < 2 ^ 8 ∧ r.opcode < 2 ^ 6 ∧
  r.len ∈ [1, 2, 4, 8, 16, 32, 64] ∧ r.addr < 2 ^ c.addrW ∧ r.order < 2 ^ 2 ∧
  r.pCrdType < 2 ^ 4 ∧ r.lpid < 2 ^ 5 ∧ r.rsvdc < 2 ^ c.rsvdcW

theorem beq_flag (b : Bool) : (b.toNat % 2 ^ 1 == 1) = b := by cases b <;> rfl

theorem size_roundtrip {n : Nat} (h : n ∈ [1, 2, 4, 8, 16, 32, 64]) : 2 ^ (getSize n % 2 ^ 3) = n := by
  simp only [List.mem_cons, List.not_mem_nil, or_false] at h
  rcases h with rfl | rfl | rfl | rfl | rfl | rfl | rfl <;> rfl

theorem memAttr_bits (r : Req) :
    (memAttr r % 2 ^ 4).testBit 3 = r.allocate ∧ (memAttr r % 2 ^ 4).testBit 2 = r.cacheable ∧
    (memAttr r % 2 ^ 4).testBit 1 = r.device ∧ (memAttr r % 2 ^ 4).testBit 0 = r.earlyWrAck := by
  unfold memAttr
  cases r.allocate <;> cases r.cacheable <;> cases r.device <;> cases r.earlyWrAck <;> decide

theorem req_pairs {ub : Ub} {c : Cfg} (r : Req) (hn : c.nodeW ≤ 16)
    (ha : c.addrW ≤ 63 ∧ Full (intMask ub c.addrW) c.addrW)
    (hr : c.rsvdcW ≤ 32 ∧ Full (mask ub 32 c.rsvdcW) c.rsvdcW ∧ Full (intMask ub c.rsvdcW) c.rsvdcW) :
    Pairs ub false (reqFields c r) (reqSlots c) := by
  unfold reqFields reqSlots
  apply Pairs.append
  · have n : ∀ v, Pair ub false ⟨16, c.nodeW, v⟩ ⟨16, c.nodeW⟩ :=
      fun v => pair_small ub false (by omega) hn (by omega)
    refine .cons (pair_small ub false (by omega) (by omega) (by omega)) (.cons (n _) (.cons (n _)
      (.cons (pair_small ub false (by omega) (by omega) (by omega)) (.cons (n _)
      (.cons (pair_flag _ _ _) (.cons (pair_small ub false (by omega) (by omega) (by omega))
      (.cons (pair_small ub false (by omega) (by omega) (by omega))
      (.cons (pair_small ub false (by omega) (by omega) (by omega))
      (.cons (pair_num ub false (by omega) (by omega) (full_mask ub (by omega)) ha.2)
      (.cons (pair_flag _ _ _) (.cons (pair_flag _ _ _) (.cons (pair_flag _ _ _)
      (.cons (pair_small ub false (by omega) (by omega) (by omega))
      (.cons (pair_small ub false (by omega) (by omega) (by omega))
      (.cons (pair_small ub false (by omega) (by omega) (by omega))
      (.cons (pair_flag _ _ _) (.cons (pair_small ub false (by omega) (by omega) (by omega))
      (.cons (pair_flag _ _ _) (.cons (pair_flag _ _ _) (.cons (pair_flag _ _ _)
      .nil))))))))))))))))))))
  · by_cases h : c.rsvdcW = 0
    · rw [if_pos h, if_pos h]; exact .nil
    · rw [if_neg h, if_neg h]
      exact .cons (pair_num ub false (by omega) hr.1 hr.2.1 hr.2.2) .nil

theorem total_append (xs ys : List Field) : total (xs ++ ys) = total xs + total ys := by
  simp [total]

theorem total_opt (b w v : Nat) :
    total (if w = 0 then [] else [(⟨b, w, v⟩ : Field)]) = w := by
  by_cases h : w = 0 <;> simp [h, total]

theorem req_total (c : Cfg) (r : Req) : total (reqFields c r) = reqW c := by
  unfold reqFields reqW
  rw [total_append, total_opt]
  simp only [total, List.map_cons, List.map_nil, List.sum_cons, List.sum_nil, flag]
  omega

/-- Requests survive the trip through a flit whenever the compiler gives the
over-wide masks of the parser (and of the reserved field) all their bits. -/
theorem req_roundtrip_if_masks_full {ub : Ub} {c : Cfg} {r : Req} (hf : r.Fits c) (hn : c.nodeW ≤ 16)
    (ha : c.addrW ≤ 63 ∧ Full (intMask ub c.addrW) c.addrW)
    (hr : c.rsvdcW ≤ 32 ∧ Full (mask ub 32 c.rsvdcW) c.rsvdcW ∧ Full (intMask ub c.rsvdcW) c.rsvdcW) :
    ∃ f, createReq ub c r = some f ∧ parseReq ub c f = some r := by
  obtain ⟨f, e, -, g⟩ := fields_roundtrip (req_pairs r hn ha hr) (W := reqW c) (f := zero) (pos := 0)
    (by rw [req_total]; omega)
  refine ⟨f, by unfold createReq; rw [e]; rfl, ?_⟩
  unfold parseReq
  rw [g f (fun _ _ _ => rfl)]
  obtain ⟨h1, h2, h3, h4, h5, h6, h7, h8, h9, h10, h11, h12, h13⟩ := hf
  obtain ⟨m3, m2, m1, m0⟩ := memAttr_bits r
  have rs : (List.map (fun x : Field => x.v % 2 ^ x.w)
      (if c.rsvdcW = 0 then [] else [(⟨32, c.rsvdcW, r.rsvdc⟩ : Field)])).headD 0 = r.rsvdc := by
    by_cases h : c.rsvdcW = 0
    · rw [if_pos h]
      rw [h] at h13
      simp at h13
      simp [h13]
    · rw [if_neg h]
      simp [Nat.mod_eq_of_lt h13]
  simp only [reqFields, List.map_cons, List.cons_append,
    List.nil_append, reqOf, flag, beq_flag, size_roundtrip h8, m3, m2, m1, m0,
    Nat.mod_eq_of_lt h1, Nat.mod_eq_of_lt h2, Nat.mod_eq_of_lt h3, Nat.mod_eq_of_lt h4,
    Nat.mod_eq_of_lt h5, Nat.mod_eq_of_lt h6, Nat.mod_eq_of_lt h7, Nat.mod_eq_of_lt h9,
    Nat.mod_eq_of_lt h10, Nat.mod_eq_of_lt h11, Nat.mod_eq_of_lt h12, rs]

/-- Requests survive the trip for address and reserved widths of at most 30 bits
(node ids of at most 16). Missing: the wider addresses every real CHI port has,
see `req_wide_address_undefined`. -/
theorem req_roundtrip_partial {c : Cfg} {r : Req} (hf : r.Fits c) (hn : c.nodeW ≤ 16)
    (ha : c.addrW ≤ 30) (hr : c.rsvdcW ≤ 30) :
    ∃ f, createReq strict c r = some f ∧ parseReq strict c f = some r :=
  req_roundtrip_if_masks_full hf hn ⟨by omega, full_intMask _ ha⟩
    ⟨by omega, full_mask _ (by omega), full_intMask _ hr⟩

/-- A request with distinct values in every field. -/
def sampleReq : Req :=
  { qos := 9, tgtId := 5, srcId := 3, txnId := 200, returnNid := 77, stashValid := true,
    returnTxnId := 129, opcode := 0x21, len := 64, addr := 0x3ABCDEF0, nonSecure := true,
    likelyShared := false, allowRetry := true, order := 2, pCrdType := 11, allocate := true,
    cacheable := false, device := false, earlyWrAck := true, snpAttr := true, lpid := 17,
    excl := false, expCompAck := true, traceTag := false, rsvdc := 0x1234 }

example : sampleReq.Fits ⟨30, 7, 16⟩ := by unfold Req.Fits; decide

/-- FINDING. For every port whose addresses have more than 30 bits, hence for
every CHI configuration (44 to 52 bits), unpacking any request evaluates an
undefined shift. -/
theorem req_wide_address_undefined {c : Cfg} (h : 31 ≤ c.addrW) (hn : c.nodeW ≤ 16) (f : Flit) :
    parseReq strict c f = none := by
  have e : ∀ p, getField strict false f p ⟨64, c.addrW⟩ = none := by
    intro p
    unfold getField intMask strict
    rw [if_neg (by simp)]
    simp only [Bool.false_eq_true, if_false]
    rw [if_neg (by omega)]
  have num : ∀ b w p, b ≠ 1 → w ≤ 30 → ∃ v, getField strict false f p ⟨b, w⟩ = some v := by
    intro b w p hb hw
    unfold getField intMask
    rw [if_neg hb]
    simp only [Bool.false_eq_true, if_false, if_pos hw]
    exact ⟨_, rfl⟩
  unfold parseReq reqSlots
  simp only [List.cons_append, List.nil_append, getFields]
  obtain ⟨v1, e1⟩ := num 8 4 0 (by omega) (by omega)
  simp only [e1]
  obtain ⟨v2, e2⟩ := num 16 c.nodeW (0 + 4) (by omega) (by omega)
  simp only [e2]
  obtain ⟨v3, e3⟩ := num 16 c.nodeW (0 + 4 + c.nodeW) (by omega) (by omega)
  simp only [e3]
  obtain ⟨v4, e4⟩ := num 8 8 (0 + 4 + c.nodeW + c.nodeW) (by omega) (by omega)
  simp only [e4]
  obtain ⟨v5, e5⟩ := num 16 c.nodeW (0 + 4 + c.nodeW + c.nodeW + 8) (by omega) (by omega)
  simp only [e5]
  have fl : ∀ p, getField strict false f p flagSlot = some (getBits f p 1) := fun p => rfl
  simp only [fl]
  obtain ⟨v6, e6⟩ := num 8 8 (0 + 4 + c.nodeW + c.nodeW + 8 + c.nodeW + flagSlot.w) (by omega) (by omega)
  simp only [e6]
  obtain ⟨v7, e7⟩ := num 8 6 (0 + 4 + c.nodeW + c.nodeW + 8 + c.nodeW + flagSlot.w + 8) (by omega) (by omega)
  simp only [e7]
  obtain ⟨v8, e8⟩ := num 8 3 (0 + 4 + c.nodeW + c.nodeW + 8 + c.nodeW + flagSlot.w + 8 + 6) (by omega) (by omega)
  simp only [e8, e]

/-- What a shift instruction that uses the count modulo 32 makes of the `int`
masks, sign-extended to 64 bits (64-bit shifts: modulo 64). -/
def modulo32 : Ub := fun bits w =>
  if bits ≤ 32 then
    some (if w % 32 = 31 then 0x7fffffff else 2 ^ (w % 32) - 1)
  else some (2 ^ (w % 64) - 1)

/-- FINDING. On a machine that shifts modulo 32 a 44-bit request address keeps
only its low 12 bits. -/
theorem req_address_truncated_modulo32 :
    ∃ f, createReq modulo32 ⟨44, 7, 0⟩ sampleReq = some f ∧
      (parseReq modulo32 ⟨44, 7, 0⟩ f).map (·.addr) = some 0xEF0 ∧ sampleReq.addr = 0x3ABCDEF0 := by
  refine ⟨_, rfl, ?_, rfl⟩
  decide +kernel

/-- FINDING. A length CHI cannot express is not refused: the receiver sees one
byte. -/
theorem req_odd_length_becomes_one :
    ∃ f, createReq strict ⟨30, 7, 0⟩ { sampleReq with len := 12 } = some f ∧
      (parseReq strict ⟨30, 7, 0⟩ f).map (·.len) = some 1 := by
  refine ⟨_, rfl, ?_⟩
  decide +kernel

/-! ## Responses -/

def Rsp.Fits (c : Cfg) (r : Rsp) : Prop :=
  r.qos < 2 ^ 4 ∧ r.tgtId < 2 ^ c.nodeW ∧ r.srcId < 2 ^ c.nodeW ∧ r.txnId < 2 ^ 8 ∧
  r.opcode < 2 ^ 4 ∧ r.respErr < 2 ^ 2 ∧ r.resp < 2 ^ 3 ∧ r.fwdState < 2 ^ 3 ∧ r.dbid < 2 ^ 8 ∧
  r.pCrdType < 2 ^ 4

theorem rsp_pairs {ub : Ub} {c : Cfg} (r : Rsp) (hn : c.nodeW ≤ 16) :
    Pairs ub false (rspFields c r) (rspSlots c) := by
  have s : ∀ {w v}, w ≤ 8 → Pair ub false ⟨8, w, v⟩ ⟨8, w⟩ :=
    fun h => pair_small ub false (by omega) h (by omega)
  have n : ∀ v, Pair ub false ⟨16, c.nodeW, v⟩ ⟨16, c.nodeW⟩ :=
    fun v => pair_small ub false (by omega) hn (by omega)
  exact .cons (s (by omega)) (.cons (n _) (.cons (n _) (.cons (s (by omega)) (.cons (s (by omega))
    (.cons (s (by omega)) (.cons (s (by omega)) (.cons (s (by omega)) (.cons (s (by omega))
    (.cons (s (by omega)) (.cons (pair_flag _ _ _) .nil))))))))))

/-- Responses survive the trip. -/
theorem rsp_roundtrip {c : Cfg} {r : Rsp} (hf : r.Fits c) (hn : c.nodeW ≤ 16) :
    ∃ f, createRsp strict c r = some f ∧ parseRsp strict c f = some r := by
  have ht : total (rspFields c r) = rspW c := by
    simp [rspFields, rspW, total, flag]; omega
  obtain ⟨f, e, -, g⟩ := fields_roundtrip (rsp_pairs (ub := strict) r hn) (W := rspW c) (f := zero)
    (pos := 0) (by rw [ht]; omega)
  refine ⟨f, by unfold createRsp; rw [e]; rfl, ?_⟩
  unfold parseRsp
  rw [g f (fun _ _ _ => rfl)]
  obtain ⟨h1, h2, h3, h4, h5, h6, h7, h8, h9, h10⟩ := hf
  simp only [rspFields, List.map_cons, List.map_nil, rspOf, flag, beq_flag,
    Nat.mod_eq_of_lt h1, Nat.mod_eq_of_lt h2, Nat.mod_eq_of_lt h3, Nat.mod_eq_of_lt h4,
    Nat.mod_eq_of_lt h5, Nat.mod_eq_of_lt h6, Nat.mod_eq_of_lt h7, Nat.mod_eq_of_lt h8,
    Nat.mod_eq_of_lt h9, Nat.mod_eq_of_lt h10]

example : (⟨15, 100, 3, 255, 4, 2, 5, 6, 77, 9, true⟩ : Rsp).Fits ⟨44, 7, 32⟩ := by
  unfold Rsp.Fits; decide

/-! ## Snoops -/

/-- `c.addrW` is the width of the snoop address field, which has no bits 0 to 2. -/
def Snp.Fits (c : Cfg) (r : Snp) : Prop :=
  r.qos < 2 ^ 4 ∧ r.srcId < 2 ^ c.nodeW ∧ r.txnId < 2 ^ 8 ∧ r.fwdNid < 2 ^ c.nodeW ∧
  r.fwdTxnId < 2 ^ 8 ∧ r.opcode < 2 ^ 5 ∧ r.addr < 2 ^ (c.addrW + 3) ∧ r.addr % 8 = 0

theorem snp_pairs {ub : Ub} {c : Cfg} (r : Snp) (hn : c.nodeW ≤ 16) (ha : c.addrW ≤ 61) :
    Pairs ub true (snpFields c r) (snpSlots c) := by
  have s : ∀ {w v b}, (b = 8 ∨ b = 16) → w ≤ 8 → Pair ub true ⟨8, w, v⟩ ⟨b, w⟩ :=
    fun hb h => pair_small ub true (by omega) (by omega) (by omega)
  have n : ∀ v, Pair ub true ⟨16, c.nodeW, v⟩ ⟨16, c.nodeW⟩ :=
    fun v => pair_small ub true (by omega) hn (by omega)
  exact .cons (s (by omega) (by omega)) (.cons (n _) (.cons (s (by omega) (by omega)) (.cons (n _)
    (.cons (s (by omega) (by omega)) (.cons (s (by omega) (by omega))
    (.cons (pair_num ub true (by omega) (by omega) (full_mask ub (by omega)) (full_mask (bits := 64) ub (by omega)))
    (.cons (pair_flag _ _ _) (.cons (pair_flag _ _ _) (.cons (pair_flag _ _ _)
    (.cons (pair_flag _ _ _) .nil))))))))))

/-- Snoops survive the trip, for every address width. -/
theorem snp_roundtrip {c : Cfg} {r : Snp} (hf : r.Fits c) (hn : c.nodeW ≤ 16) (ha : c.addrW ≤ 61) :
    ∃ f, createSnp strict c r = some f ∧ parseSnp strict c f = some r := by
  have ht : total (snpFields c r) = snpW c := by
    simp [snpFields, snpW, total, flag]; omega
  obtain ⟨f, e, -, g⟩ := fields_roundtrip (snp_pairs (ub := strict) r hn ha) (W := snpW c) (f := zero)
    (pos := 0) (by rw [ht]; omega)
  refine ⟨f, by unfold createSnp; rw [e]; rfl, ?_⟩
  unfold parseSnp
  rw [g f (fun _ _ _ => rfl)]
  obtain ⟨h1, h2, h3, h4, h5, h6, h7, h8⟩ := hf
  have hs : r.addr >>> 3 < 2 ^ c.addrW := by
    rw [Nat.shiftRight_eq_div_pow]
    rw [Nat.pow_add] at h7
    omega
  have hb : ((r.addr >>> 3) <<< 3) % 2 ^ 64 = r.addr := by
    rw [Nat.shiftRight_eq_div_pow, Nat.shiftLeft_eq]
    have : 2 ^ (c.addrW + 3) ≤ 2 ^ 64 := Nat.pow_le_pow_right (by omega) (by omega)
    omega
  have h58 : r.fwdTxnId % 2 ^ 8 % 2 ^ 8 = r.fwdTxnId := by omega
  simp only [snpFields, List.map_cons, List.map_nil, snpOf, flag, beq_flag, h58,
    Nat.mod_eq_of_lt h1, Nat.mod_eq_of_lt h2, Nat.mod_eq_of_lt h3, Nat.mod_eq_of_lt h4,
    Nat.mod_eq_of_lt h6, Nat.mod_eq_of_lt hs, hb]

example : (⟨15, 100, 3, 5, 200, 17, 0x123456789A8, true, false, true, false⟩ : Snp).Fits ⟨41, 7, 0⟩ := by
  unfold Snp.Fits; decide

/-! ## Data -/

def DatAttr.Fits (c : DCfg) (a : DatAttr) : Prop :=
  a.qos < 2 ^ 4 ∧ a.tgtId < 2 ^ c.nodeW ∧ a.srcId < 2 ^ c.nodeW ∧ a.txnId < 2 ^ 8 ∧
  a.homeNid < 2 ^ c.nodeW ∧ a.opcode < 2 ^ c.opW ∧ a.respErr < 2 ^ 2 ∧ a.resp < 2 ^ 3 ∧
  a.fwdState < 2 ^ 3 ∧ a.dbid < 2 ^ 8 ∧ a.ccid < 2 ^ 2 ∧ a.rsvdc < 2 ^ c.rsvdcW ∧
  a.dataCheck < 2 ^ c.checkW ∧ a.poison < 2 ^ c.poisonW

theorem datHead_pairs {ub : Ub} {c : DCfg} (a : DatAttr) (i : Nat) (hn : c.nodeW ≤ 16)
    (ho : c.opW ≤ 8) (hr : c.rsvdcW ≤ 8) : Pairs ub false (datHead c a i) (datHeadSlots c) := by
  have s : ∀ {w v}, w ≤ 8 → Pair ub false ⟨8, w, v⟩ ⟨8, w⟩ :=
    fun h => pair_small ub false (by omega) h (by omega)
  have n : ∀ v, Pair ub false ⟨16, c.nodeW, v⟩ ⟨16, c.nodeW⟩ :=
    fun v => pair_small ub false (by omega) hn (by omega)
  unfold datHead datHeadSlots
  apply Pairs.append
  · exact .cons (s (by omega)) (.cons (n _) (.cons (n _) (.cons (s (by omega)) (.cons (n _)
      (.cons (s ho) (.cons (s (by omega)) (.cons (s (by omega)) (.cons (s (by omega))
      (.cons (s (by omega)) (.cons (s (by omega)) (.cons (s (by omega))
      (.cons (pair_flag _ _ _) .nil))))))))))))
  · by_cases h : c.rsvdcW = 0
    · rw [if_pos h, if_pos h]; exact .nil
    · rw [if_neg h, if_neg h]
      exact .cons (pair_small ub false (by omega) hr (by omega)) .nil

theorem datHead_total (c : DCfg) (a : DatAttr) (i : Nat) :
    total (datHead c a i) + c.bytes + 8 * c.bytes + c.checkW + c.poisonW = datW c := by
  unfold datHead datW
  rw [total_append, total_opt]
  simp only [total, List.map_cons, List.map_nil, List.sum_cons, List.sum_nil, flag]
  omega

theorem check_pairs {ub : Ub} {c : DCfg} (a : DatAttr) (h : c.checkW ≤ 30) :
    Pairs ub false (if c.checkW = 0 then [] else [⟨64, c.checkW, a.dataCheck⟩]) (datCheckSlots c) := by
  unfold datCheckSlots
  split
  · exact .nil
  · exact .cons (pair_num ub false (by omega) (by omega) (full_mask ub (by omega)) (full_intMask ub h)) .nil

theorem poison_pairs {ub : Ub} {c : DCfg} (a : DatAttr) (h : c.poisonW ≤ 8) :
    Pairs ub false (if c.poisonW = 0 then [] else [⟨8, c.poisonW, a.poison⟩]) (datPoisonSlots c) := by
  unfold datPoisonSlots
  split
  · exact .nil
  · exact .cons (pair_small ub false (by omega) h (by omega)) .nil

theorem head_opt {b w v : Nat} (h : v < 2 ^ w) :
    (List.map (fun x : Field => x.v % 2 ^ x.w) (if w = 0 then [] else [(⟨b, w, v⟩ : Field)])).headD 0 = v := by
  by_cases hw : w = 0
  · rw [if_pos hw]; rw [hw] at h; simp at h; simp [h]
  · rw [if_neg hw]; simp [Nat.mod_eq_of_lt h]

/-- The data packets that can be sent and received intact. Every restriction
marks a defect shown below: at most one flit's worth of data; one byte of the
buffer beyond the data must be readable; a full flit needs at least eight bits
behind the data; the reserved field has at most 8 bits and data check at most
30. -/
def DatOk (c : DCfg) (d : Dat) : Prop :=
  d.len ≤ c.bytes ∧ d.len < d.buf.length ∧ (d.len = c.bytes → 8 ≤ c.checkW + c.poisonW) ∧
  c.rsvdcW ≤ 8 ∧ c.checkW ≤ 30 ∧ c.poisonW ≤ 8 ∧ c.nodeW ≤ 16 ∧ c.opW ≤ 8

/-- Data packets: within `DatOk` one flit is created, the packet is complete, and
the receiver sees the same attributes, chunk number 0, every data byte on its
lane, and on every lane of the data the sender's byte enable. Missing: everything
`DatOk` excludes, and the lanes behind the data when byte enables are given
(`dat_enables_behind_data`). -/
theorem dat_roundtrip_partial {c : DCfg} {d : Dat} (hf : d.attr.Fits c) (hok : DatOk c d) :
    ∃ f s, createDat strict c d ⟨0, 0⟩ = some (f, s, true) ∧
      ∃ rx, parseDat strict c f = some rx ∧ rx.attr = d.attr ∧ rx.dataId = 0 ∧
        rx.data.length = c.bytes ∧ rx.be.length = c.bytes ∧
        (∀ i (h : i < d.buf.length), i < d.len → rx.data[i]? = some (d.buf[i]).toNat) ∧
        (∀ i, i < d.len → rx.be[i]? =
          some (if d.be = [] then true else d.be.getD (i % d.be.length) false)) ∧
        (d.be = [] → ∀ i, d.len ≤ i → i < c.bytes → rx.be[i]? = some false) := by
  obtain ⟨hl, hb, hfull, hr, hc, hp, hn, ho⟩ := hok
  have hT := datHead_total c d.attr 0
  obtain ⟨f1, e1, o1, g1⟩ := fields_roundtrip (datHead_pairs (ub := strict) d.attr 0 hn ho hr)
    (W := datW c) (f := zero) (pos := 0) (by omega)
  rw [Nat.zero_add] at e1 o1 g1
  generalize hP : total (datHead c d.attr 0) = P at *
  obtain ⟨f2, e2, o2, d2⟩ := setDataFrom_ok (W := datW c) (buf := d.buf) (pos := P + c.bytes)
    (d.len + 1) 0 (setBE d c 0 f1 P) (by omega) (by
      by_cases h : d.len = c.bytes
      · have := hfull h; omega
      · omega)
  have tc : total (if c.checkW = 0 then [] else [(⟨64, c.checkW, d.attr.dataCheck⟩ : Field)]) = c.checkW := by
    by_cases h : c.checkW = 0 <;> simp [h, total]
  have tp : total (if c.poisonW = 0 then [] else [(⟨8, c.poisonW, d.attr.poison⟩ : Field)]) = c.poisonW := by
    by_cases h : c.poisonW = 0 <;> simp [h, total]
  have tt : total (datTail c d.attr) = c.checkW + c.poisonW := by
    rw [← tc, ← tp]; simp [datTail, total]
  obtain ⟨f3, e3, o3, g3⟩ := fields_roundtrip
    (Pairs.append (check_pairs (ub := strict) (c := c) d.attr hc) (poison_pairs d.attr hp))
    (W := datW c) (f := f2) (pos := P + c.bytes + 8 * c.bytes) (by
      show _ + total (datTail c d.attr) ≤ _
      rw [tt]; omega)
  change setFields strict (datW c) f2 (P + c.bytes + 8 * c.bytes) (datTail c d.attr) = _ at e3
  change _ = some (f3, _ + total (datTail c d.attr)) at e3
  change ∀ i, i < _ ∨ _ + total (datTail c d.attr) ≤ i → _ at o3
  rw [tt] at e3 o3
  refine ⟨f3, ⟨c.bytes, P + c.bytes + 8 * c.bytes + (c.checkW + c.poisonW)⟩, ?_, ?_⟩
  · unfold createDat
    rw [if_neg (by simp)]
    simp only [Nat.zero_div, Nat.zero_mod, e1]
    unfold setData
    rw [if_neg (by omega), e2]
    simp only [e3, Nat.zero_add]
    simp [hl]
  -- the flit restricted to the header, the enables and the data
  have lo : ∀ i, i < P + c.bytes + 8 * c.bytes → f3 i = f2 i := fun i hi => o3 i (Or.inl hi)
  have mid : ∀ i, i < P + c.bytes → f3 i = setBE d c 0 f1 P i := by
    intro i hi
    rw [lo i (by omega), o2 i (by omega)]
  have be_at : ∀ i, i < c.bytes → f3 (P + i) = beBit d 0 i := by
    intro i hi
    rw [mid _ (by omega)]
    unfold setBE
    rw [if_pos (by omega)]
    congr 1
    omega
  have head := g1 f3 (fun i _ hi => by
    rw [mid i (by omega)]
    unfold setBE
    rw [if_neg (by omega)])
  have chk : getFields strict false f3 (P + c.bytes + 8 * c.bytes) (datCheckSlots c)
      = some ((if c.checkW = 0 then [] else [(⟨64, c.checkW, d.attr.dataCheck⟩ : Field)]).map
          (fun x => x.v % 2 ^ x.w), P + c.bytes + 8 * c.bytes + c.checkW) ∧
      getFields strict false f3 (P + c.bytes + 8 * c.bytes + c.checkW) (datPoisonSlots c)
      = some ((if c.poisonW = 0 then [] else [(⟨8, c.poisonW, d.attr.poison⟩ : Field)]).map
          (fun x => x.v % 2 ^ x.w), P + c.bytes + 8 * c.bytes + c.checkW + c.poisonW) := by
    obtain ⟨fa, ea, -, ga⟩ := fields_roundtrip (check_pairs (ub := strict) (c := c) d.attr hc)
      (W := datW c) (f := f2) (pos := P + c.bytes + 8 * c.bytes) (by rw [tc]; omega)
    obtain ⟨fb, eb, ob, gb⟩ := fields_roundtrip (poison_pairs (ub := strict) (c := c) d.attr hp)
      (W := datW c) (f := fa) (pos := P + c.bytes + 8 * c.bytes + c.checkW) (by rw [tp]; omega)
    rw [tc] at ea ga
    rw [tp] at eb ob gb
    have hfb : fb = f3 := by
      have : setFields strict (datW c) f2 (P + c.bytes + 8 * c.bytes) (datTail c d.attr)
          = some (fb, P + c.bytes + 8 * c.bytes + c.checkW + c.poisonW) := by
        unfold datTail
        rw [setFields_append ea, eb]
      rw [e3] at this
      simp only [Option.some.injEq, Prod.mk.injEq] at this
      exact this.1.symm
    subst hfb
    refine ⟨ga fb (fun i h1 h2 => ob i (by omega)), gb fb (fun _ _ _ => rfl)⟩
  have dat_at : ∀ i (h : i < d.buf.length), i < d.len →
      getBits f3 (P + c.bytes + 8 * i) 8 = (d.buf[i]).toNat := by
    intro i hi hil
    apply Nat.eq_of_testBit_eq
    intro k
    rw [testBit_getBits]
    by_cases hk : k < 8
    · rw [lo _ (by omega), d2 i hi (by omega) (by omega) k hk]
      simp [hk]
    · have : (d.buf[i]).toNat < 2 ^ k :=
        Nat.lt_of_lt_of_le (d.buf[i]).isLt (Nat.pow_le_pow_right (by omega) (by omega))
      rw [Nat.testBit_lt_two_pow this]
      simp [hk]
  unfold parseDat
  rw [head]
  simp only [chk.1, chk.2]
  obtain ⟨h1, h2, h3, h4, h5, h6, h7, h8, h9, h10, h11, h12, h13, h14⟩ := hf
  refine ⟨{ attr := d.attr, dataId := 0,
            data := (List.range c.bytes).map fun i => getBits f3 (P + c.bytes + 8 * i) 8,
            be := (List.range c.bytes).map fun i => f3 (P + i) }, ?_, rfl, rfl, ?_, ?_, ?_, ?_, ?_⟩
  · simp only [datHead, List.map_cons, List.cons_append,
      List.nil_append, flag, beq_flag, head_opt h12, head_opt h13, head_opt h14,
      Nat.mod_eq_of_lt h1, Nat.mod_eq_of_lt h2, Nat.mod_eq_of_lt h3, Nat.mod_eq_of_lt h4,
      Nat.mod_eq_of_lt h5, Nat.mod_eq_of_lt h6, Nat.mod_eq_of_lt h7, Nat.mod_eq_of_lt h8,
      Nat.mod_eq_of_lt h9, Nat.mod_eq_of_lt h10, Nat.mod_eq_of_lt h11, Nat.zero_mod]
  · simp
  · simp
  · intro i hi hil
    rw [List.getElem?_map, List.getElem?_range (by omega)]
    simp only [Option.map_some, Option.some.injEq]
    exact dat_at i hi hil
  · intro i hil
    rw [List.getElem?_map, List.getElem?_range (by omega)]
    simp only [Option.map_some, Option.some.injEq]
    rw [be_at i (by omega)]
    unfold beBit
    split
    · rename_i h; simp [h, hil]
    · rename_i be' h
      rw [if_neg h]; rfl
  · intro hbe i h1 h2
    rw [List.getElem?_map, List.getElem?_range h2]
    simp only [Option.map_some, Option.some.injEq]
    rw [be_at i h2]
    unfold beBit
    rw [hbe]
    simp
    omega

def sampleAttr : DatAttr :=
  ⟨9, 5, 3, 200, 77, 4, 2, 5, 6, 129, 3, true, 0xAB, 0x0, 0xC3⟩

example : sampleAttr.Fits ⟨16, 7, 8, 0, 8, 4⟩ ∧
    DatOk ⟨16, 7, 8, 0, 8, 4⟩ ⟨sampleAttr, (List.range 17).map (BitVec.ofNat 8), 16, [true, false]⟩ := by
  unfold DatAttr.Fits DatOk; decide

/-- FINDING. A data packet whose buffer has exactly the bytes it announces (and
fits one flit) is read beyond its end. -/
theorem dat_reads_past_buffer {c : DCfg} {d : Dat} (hlen : d.buf.length = d.len)
    (h : d.len ≤ c.bytes) (s : DatSt) (ub : Ub) : createDat ub c d s = none := by
  unfold createDat
  split
  · rfl
  · split
    · rfl
    · rename_i f1 p1 _
      unfold setData
      rw [if_neg (by omega), setDataFrom_overread _ _ _ (by omega) (by omega)]

example : (⟨sampleAttr, List.replicate 16 0#8, 16, []⟩ : Dat).buf.length = 16 := by decide

/-- FINDING. On a port without data check and poison fields a packet that fills
the bus writes outside the flit. -/
theorem dat_writes_past_flit {c : DCfg} {d : Dat} (hlen : c.bytes ≤ d.len)
    (hc : c.checkW + c.poisonW < 8) (ub : Ub) : createDat ub c d ⟨0, 0⟩ = none := by
  unfold createDat
  rw [if_neg (by simp)]
  have hT := datHead_total c d.attr ((0 / c.bytes) % 256)
  split
  · rfl
  · rename_i f1 p1 h1
    have hp := setFields_pos h1
    dsimp only at hp
    unfold setData
    have : (if d.len > c.bytes then c.bytes else d.len) = c.bytes := by split <;> omega
    rw [this, setDataFrom_range _ _ _ (by omega) (by omega)]

/-- FINDING. A packet that needs more than one flit never gets its second one:
after a flit has been made the next attempt fails an assertion. -/
theorem dat_second_flit_asserts {ub : Ub} {c : DCfg} {d : Dat} {s s' : DatSt} {f : Flit} {fin : Bool}
    (h : createDat ub c d s = some (f, s', fin)) (ub' : Ub) : createDat ub' c d s' = none := by
  unfold createDat at h
  split at h
  · exact absurd h (by simp)
  split at h
  · exact absurd h (by simp)
  split at h
  · exact absurd h (by simp)
  split at h
  · exact absurd h (by simp)
  · rename_i f1 p1 e1 _ f2 e2 _ f3 p3 e3
    simp only [Option.some.injEq, Prod.mk.injEq] at h
    obtain ⟨-, rfl, -⟩ := h
    have a := setFields_pos e1
    have b := setFields_pos e3
    have : 4 ≤ total (datHead c d.attr (s.sent / c.bytes % 256)) := by
      simp [total, datHead]
    unfold createDat
    rw [if_pos]
    show p3 ≠ 0
    omega

/-- The packet above is incomplete after its first flit: 32 bytes on a 16-byte
bus. -/
theorem dat_multi_flit_fails :
    ∃ f s, createDat strict ⟨16, 7, 0, 0, 8, 4⟩ ⟨sampleAttr, List.replicate 33 7#8, 32, []⟩ ⟨0, 0⟩
      = some (f, s, false) ∧
      createDat strict ⟨16, 7, 0, 0, 8, 4⟩ ⟨sampleAttr, List.replicate 33 7#8, 32, []⟩ s = none := by
  refine ⟨_, _, rfl, ?_⟩
  decide +kernel

/-- FINDING. With byte enables, lanes behind the data are enabled too: a 4-byte
write with enables `[1,1,1,1]` on a 16-byte bus arrives with all 16 lanes
enabled. -/
theorem dat_enables_behind_data :
    ∃ f s, createDat strict ⟨16, 7, 0, 0, 8, 4⟩
        ⟨sampleAttr, [1#8, 2#8, 3#8, 4#8, 5#8], 4, [true, true, true, true]⟩ ⟨0, 0⟩ = some (f, s, true) ∧
      (parseDat strict ⟨16, 7, 0, 0, 8, 4⟩ f).map (·.be) = some (List.replicate 16 true) := by
  refine ⟨_, _, rfl, ?_⟩
  decide +kernel

/-- FINDING. A reserved field wider than eight bits loses its upper bits in data
packets (requests keep them). -/
theorem dat_rsvdc_truncated :
    ∃ f s, createDat strict ⟨16, 7, 12, 0, 8, 4⟩
        ⟨{ sampleAttr with rsvdc := 0xFAB }, [1#8, 2#8], 1, []⟩ ⟨0, 0⟩ = some (f, s, true) ∧
      (parseDat strict ⟨16, 7, 12, 0, 8, 4⟩ f).map (·.attr.rsvdc) = some 0xAB := by
  refine ⟨_, _, rfl, ?_⟩
  decide +kernel

end Verif.ChiFlit
