import Verif.RP.CodecLemmas

/-!
# Properties of the remote-port codec: C01, C02, C03, C05

`recv` is the receiving side (read 20 header bytes, read the announced payload,
decode).  All statements are of the form "these bytes are a packet" (`IsPacket`):
whatever follows them in the stream, the receiver decodes them to the same
packet and stops exactly at the packet boundary.
-/

namespace Verif.RP
open Verif

/-- A byte string that is one complete well-formed packet, decoding to `p`,
wherever it appears in a stream. -/
def IsPacket (w : List Byte) (p : Pkt) : Prop := ∀ rest, recv (w ++ rest) = some (p, rest)

theorem IsPacket.ne_nil {w : List Byte} {p : Pkt} (h : IsPacket w p) : w ≠ [] := by
  intro e
  have := h []
  rw [e] at this
  simp [recv, slice] at this

/-! ## C01: bus accesses -/

/-- The bytes an endpoint puts on the wire for one bus access: the encoded
header, then the data (for write requests and read responses), then the
byte-enable array (`remote-port-tlm-memory-slave.cc` 131-141,
`remote-port-tlm-memory-master.cc` 118-135). -/
def busWire (c : Caps) (i : BusIn) (data be : List Byte) : Option (List Byte) :=
  (encBus c i).map fun p => p.1 ++ (data ++ be)

/-- Which accesses carry data: write requests and read responses. -/
def carriesData (i : BusIn) : Bool :=
  (i.cmd == cmdWrite && !isResponse i.flags) || (i.cmd == cmdRead && isResponse i.flags)

/-- The attributes announced on the wire: the extended layout marks itself. -/
def wireAttr (c : Caps) (i : BusIn) : U64 :=
  if usesExt c i then i.attr ||| attrExtBase else i.attr

theorem busHsize_eq (i : BusIn) : busHsize i = if carriesData i then i.size else 0 := by
  unfold busHsize carriesData
  by_cases h1 : i.cmd = cmdWrite
  · have : ¬ (cmdWrite = cmdRead) := by decide
    cases h2 : isResponse i.flags <;> simp [h1, this]
  · by_cases h3 : i.cmd = cmdRead
    · have : ¬ (cmdRead = cmdWrite) := by decide
      cases h2 : isResponse i.flags <;> simp [h3, this]
    · simp [h1, h3]

/-- **C01 (extended layout).** Every field of an extended bus access survives the
wire except that only the low 16 bits of the master id do (see
`bus_master_id_lost`); the receiver stops at the packet boundary, finds the data
bytes and the byte-enable bytes where the sender put them, and uses exactly the
60 header bytes. -/
theorem bus_roundtrip_ext_partial (c : Caps) (i : BusIn) (data be : List Byte)
    (hcmd : i.cmd = cmdRead ∨ i.cmd = cmdWrite)
    (hext : usesExt c i = true)
    (hdata : data.length = if carriesData i then i.size.toNat else 0)
    (hbe : be.length = i.beLen.toNat)
    (hfit : 80 + data.length + be.length < 2 ^ 32) :
    ∃ w p, busWire c i data be = some w ∧ IsPacket w p ∧
      p.hdr = { cmd := i.cmd, len := BitVec.ofNat 32 (60 + data.length + be.length), id := i.id,
                flags := i.flags, dev := i.dev } ∧
      p.body = .bus i.clk (i.attr ||| attrExtBase) i.addr i.size i.width i.streamWidth
        (i.masterId.truncate 16)
        (some { dataOffset := 80, nextOffset := 0, beOffset := BitVec.ofNat 32 (80 + data.length),
                beLen := i.beLen }) ∧
      p.used = 60 ∧ w.length = 20 + p.hdr.len.toNat ∧
      p.raw.drop (20 + p.used) = data ++ be ∧ p.hdr.len.toNat - p.used = data.length + be.length ∧
      rxData p data.length = some data ∧
      rxByteEn p = some (if i.beLen = 0 then none else some be) := by
  have hs : (busHsize i).toNat = data.length := by
    rw [busHsize_eq, hdata]; split <;> simp
  have hsum : (busHsize i + i.beLen).toNat = data.length + be.length := by
    rw [BitVec.toNat_add, hs, hbe, Nat.mod_eq_of_lt]
    omega
  let h : Hdr := { cmd := i.cmd, len := BitVec.ofNat 32 (60 + data.length + be.length), id := i.id,
                   flags := i.flags, dev := i.dev }
  have hlen : h.len.toNat = 60 + data.length + be.length := ofNat_toNat_of_lt (by omega)
  let payload : List Byte :=
    encBusCommon i.clk (i.masterId.truncate 16) i.addr (i.attr ||| attrExtBase) i.size i.width
           i.streamWidth
      ++ (w16 ((i.masterId >>> 16).truncate 16) ++ (w32 ((i.masterId >>> 32).truncate 32)
      ++ (w32 80 ++ (w32 0 ++ (w32 (BitVec.ofNat 32 (80 + data.length)) ++ (w32 i.beLen ++
        (data ++ be)))))))
  have hpl : payload.length = h.len.toNat := by
    rw [hlen]
    simp only [payload, List.length_append, encBusCommon_length, w16_length, w32_length]
    omega
  have hw : busWire c i data be = some (encHdr h ++ payload) := by
    simp only [busWire, encBus, hext, if_true, Option.map_some, hsum, hs, payload, h,
      List.append_assoc, Nat.add_assoc]
  have hd : decPayload (encHdr h ++ payload) h =
      some (.bus i.clk (i.attr ||| attrExtBase) i.addr i.size i.width i.streamWidth
        (i.masterId.truncate 16)
        (some { dataOffset := 80, nextOffset := 0, beOffset := BitVec.ofNat 32 (80 + data.length),
                beLen := i.beLen }), 60) := by
    have hdb := decBus_ext (h := h) (clk := i.clk) (m0 := i.masterId.truncate 16)
      (m1 := (i.masterId >>> 16).truncate 16) (m2 := (i.masterId >>> 32).truncate 32)
      (addr := i.addr) (size := i.size) (width := i.width) (sw := i.streamWidth) (d0 := 80)
      (d1 := 0) (d2 := BitVec.ofNat 32 (80 + data.length)) (d3 := i.beLen) (payload := data ++ be)
      (by omega) (hasExtBase_or i.attr)
    have c1 : h.cmd ≠ cmdHello := by
      rcases hcmd with e | e <;> simp only [h, e] <;> decide
    have c2 : h.cmd = cmdWrite ∨ h.cmd = cmdRead := hcmd.symm
    rw [decPayload, if_neg c1, if_pos c2]
    exact hdb
  have hr : IsPacket _ _ := fun rest => recv_append (rest := rest) hpl hd
  have hlenw : (encHdr h ++ payload).length = 20 + h.len.toNat := by
    rw [List.length_append, encHdr_length, hpl]
  refine ⟨_, _, hw, hr, rfl, rfl, rfl, hlenw, ?_, by show h.len.toNat - 60 = _; omega, ?_, ?_⟩
  · show (encHdr h ++ payload).drop (20 + 60) = data ++ be
    simp only [payload]
    rw [← List.drop_drop, drop_lit (encHdr_length h),
      show (60 : Nat) = 38 + (2 + (4 + (4 + (4 + (4 + 4))))) from rfl,
      ← List.drop_drop, drop_lit (encBusCommon_length ..), ← List.drop_drop, drop_lit (w16_length _),
      ← List.drop_drop, drop_lit (w32_length _), ← List.drop_drop, drop_lit (w32_length _),
      ← List.drop_drop, drop_lit (w32_length _), ← List.drop_drop, drop_lit (w32_length _),
      drop_lit (w32_length _)]
  · have e80 : (80 : U32).toNat = 80 := by decide
    simp only [rxData, hasExtBase_or, if_true, e80, payload]
    rw [slice_skip_lit (encHdr_length h) (by omega),
      slice_skip_lit (encBusCommon_length ..) (by omega), sl_w16 (by omega), sl_w32 (by omega),
      sl_w32 (by omega), sl_w32 (by omega), sl_w32 (by omega), sl_w32 (by omega)]
    exact slice_head rfl
  · have e1 : (BitVec.ofNat 32 (80 + data.length)).toNat = 80 + data.length :=
      ofNat_toNat_of_lt (by omega)
    have e2 : (BitVec.ofNat 32 (80 + data.length) + i.beLen).toNat
        = 80 + data.length + be.length := by
      rw [BitVec.toNat_add, e1, hbe, Nat.mod_eq_of_lt]; omega
    simp only [rxByteEn, hasExtBase_or, true_and]
    by_cases hz : i.beLen = 0
    · simp [hz]
    · rw [if_pos hz, if_neg hz, e1, e2, hlen, if_neg (by omega), if_neg (by omega)]
      have : slice (80 + data.length) i.beLen.toNat (encHdr h ++ payload) = some be := by
        simp only [payload]
        rw [slice_skip_lit (encHdr_length h) (by omega),
          slice_skip_lit (encBusCommon_length ..) (by omega), sl_w16 (by omega), sl_w32 (by omega),
          sl_w32 (by omega), sl_w32 (by omega), sl_w32 (by omega), sl_w32 (by omega),
          slice_skip_lit rfl (by omega), ← hbe]
        have : 80 + data.length - 20 - 38 - 2 - 4 - 4 - 4 - 4 - 4 - data.length = 0 := by omega
        rw [this]
        exact slice_all rfl
      rw [this]; rfl

/-- **C01 (old layout).** With a peer that lacks the extension, every field
survives, for every master id the encoder accepts (it asserts `< 0xffff`).
The old layout has no room for byte enables, so none may be sent. -/
theorem bus_roundtrip_old (c : Caps) (i : BusIn) (data : List Byte)
    (hcmd : i.cmd = cmdRead ∨ i.cmd = cmdWrite)
    (hold : usesExt c i = false)
    (hmid : i.masterId.toNat < 0xffff)
    (hdata : data.length = if carriesData i then i.size.toNat else 0)
    (hfit : 58 + data.length < 2 ^ 32) :
    ∃ w p, busWire c i data [] = some w ∧ IsPacket w p ∧
      p.hdr = { cmd := i.cmd, len := BitVec.ofNat 32 (38 + data.length), id := i.id,
                flags := i.flags, dev := i.dev } ∧
      (∃ m : U16, p.body = .bus i.clk i.attr i.addr i.size i.width i.streamWidth m none ∧
        m.zeroExtend 64 = i.masterId) ∧
      p.used = 38 ∧ w.length = 20 + p.hdr.len.toNat ∧
      p.raw.drop (20 + p.used) = data ∧ p.hdr.len.toNat - p.used = data.length ∧
      rxData p data.length = some data ∧ rxByteEn p = some none := by
  have hs : (busHsize i).toNat = data.length := by
    rw [busHsize_eq, hdata]; split <;> simp
  have hattr : hasExtBase i.attr = false := by
    have := hold; simp only [usesExt, Bool.or_eq_false_iff] at this; exact this.2
  let h : Hdr := { cmd := i.cmd, len := BitVec.ofNat 32 (38 + data.length), id := i.id,
                   flags := i.flags, dev := i.dev }
  have hlen : h.len.toNat = 38 + data.length := ofNat_toNat_of_lt (by omega)
  let payload : List Byte :=
    encBusCommon i.clk (i.masterId.truncate 16) i.addr i.attr i.size i.width
           i.streamWidth ++ data
  have hpl : payload.length = h.len.toNat := by
    rw [hlen]
    simp only [payload, List.length_append, encBusCommon_length]
  have hw : busWire c i data [] = some (encHdr h ++ payload) := by
    simp only [busWire, encBus, hold, hmid, if_true, hs, payload, h,
      List.append_assoc, List.append_nil]
    rfl
  have hd : decPayload (encHdr h ++ payload) h =
      some (.bus i.clk i.attr i.addr i.size i.width i.streamWidth
        (i.masterId.truncate 16) none, 38) := by
    have hdb := decBus_old (h := h) (clk := i.clk) (m := i.masterId.truncate 16)
      (addr := i.addr) (size := i.size) (width := i.width) (sw := i.streamWidth) (payload := data)
      (by omega) hattr
    have c1 : h.cmd ≠ cmdHello := by
      rcases hcmd with e | e <;> simp only [h, e] <;> decide
    have c2 : h.cmd = cmdWrite ∨ h.cmd = cmdRead := hcmd.symm
    rw [decPayload, if_neg c1, if_pos c2]
    exact hdb
  have hr : IsPacket _ _ := fun rest => recv_append (rest := rest) hpl hd
  have hlenw : (encHdr h ++ payload).length = 20 + h.len.toNat := by
    rw [List.length_append, encHdr_length, hpl]
  refine ⟨_, _, hw, hr, rfl, ⟨_, rfl, ?_⟩, rfl, hlenw, ?_, by show h.len.toNat - 38 = _; omega, ?_, rfl⟩
  · apply BitVec.eq_of_toNat_eq
    simp
    omega
  · show (encHdr h ++ payload).drop (20 + 38) = data
    simp only [payload]
    rw [← List.drop_drop, drop_lit (encHdr_length h), drop_lit (encBusCommon_length ..)]
  · simp only [rxData, hattr, payload]
    rw [slice_skip_lit (encHdr_length h) (by omega),
      slice_skip_lit (encBusCommon_length ..) (by omega)]
    exact slice_all rfl

/-- What the encoder's returned size means: the linear buffer it describes is
the header plus, for read responses only, the data (`ret_size`). -/
theorem bus_encoded_size (c : Caps) (i : BusIn) (b : List Byte) (n : Nat)
    (h : encBus c i = some (b, n)) :
    n = b.length + if i.cmd = cmdRead ∧ isResponse i.flags then i.size.toNat else 0 := by
  unfold encBus at h
  have hr : (busRetSize i).toNat = if i.cmd = cmdRead ∧ isResponse i.flags then i.size.toNat else 0 := by
    unfold busRetSize; split <;> rfl
  dsimp only at h
  split at h
  · injection h with h; injection h with hb hn
    rw [← hn, ← hb, hr]
    simp only [List.length_append, encHdr_length, encBusCommon_length, w16_length, w32_length]
  · split at h
    · injection h with h; injection h with hb hn
      rw [← hn, ← hb, hr]
      simp only [List.length_append, encHdr_length, encBusCommon_length]
    · cases h

/-- A sample extended write used to show that the hypotheses are met. -/
def sampleWrite : BusIn :=
  { cmd := cmdWrite, id := 7, flags := 0, dev := 3, clk := 99, masterId := 0x11, addr := 0x1000,
    attr := 2, size := 3, width := 0, streamWidth := 3, beLen := 2 }

example : (sampleWrite.cmd = cmdRead ∨ sampleWrite.cmd = cmdWrite) ∧
    usesExt { extBase := true } sampleWrite = true ∧
    [1#8, 2#8, 3#8].length = (if carriesData sampleWrite then sampleWrite.size.toNat else 0) ∧
    [0xff#8, 0#8].length = sampleWrite.beLen.toNat := by decide

example : usesExt {} sampleWrite = false ∧ sampleWrite.masterId.toNat < 0xffff := by decide

/-- **C01 is violated for wide master ids**: two accesses that differ only in
master id bits above 15 decode to the same packet body, so a 64-bit master id
does not survive although the extended layout transmits all of it. -/
theorem bus_master_id_lost :
    ∃ i j : BusIn, i.masterId ≠ j.masterId ∧
      ∃ wi wj pi pj, busWire { extBase := true } i [] [] = some wi ∧
        busWire { extBase := true } j [] [] = some wj ∧ wi ≠ wj ∧
        recv wi = some (pi, []) ∧ recv wj = some (pj, []) ∧ pi.body = pj.body := by
  let mk (m : U64) : BusIn :=
    { cmd := cmdRead, id := 0, flags := 0, dev := 0, clk := 0, masterId := m, addr := 0, attr := 0,
      size := 4, width := 0, streamWidth := 4, beLen := 0 }
  have r (m : U64) := bus_roundtrip_ext_partial { extBase := true } (mk m) [] []
    (Or.inl rfl) rfl (by show [].length = if carriesData (mk 0) then _ else _; simp [mk, carriesData, isResponse, cmdRead, cmdWrite]) rfl (by decide)
  obtain ⟨w1, p1, hw1, hr1, -, hb1, -⟩ := r 0x10000
  obtain ⟨w2, p2, hw2, hr2, -, hb2, -⟩ := r 0x20000
  refine ⟨mk 0x10000, mk 0x20000, by decide, w1, w2, p1, p2, hw1, hw2, ?_, by simpa using hr1 [],
    by simpa using hr2 [], ?_⟩
  · intro h
    have e : busWire { extBase := true } (mk 0x10000) [] []
        ≠ busWire { extBase := true } (mk 0x20000) [] [] := by decide +kernel
    exact e (by rw [hw1, hw2, h])
  · have : (mk 0x10000).masterId.truncate 16 = (mk 0x20000).masterId.truncate 16 := by decide
    rw [hb1, hb2, this]

/-- The old layout refuses the legal 16-bit master id `0xffff` (the assert uses
`<` instead of `<=`). -/
theorem bus_old_rejects_master_ffff :
    encBus {} { sampleWrite with masterId := 0xffff } = none := by decide

/-! ## C02: control packets -/

/-- **C02 (hello).** Version and the complete capability list survive. -/
theorem hello_roundtrip (id dev : U32) (major minor : U16) (caps : List U32)
    (hn : caps.length < 2 ^ 16) :
    ∃ p, IsPacket (encHello id dev major minor caps) p ∧
      p.hdr.cmd = cmdHello ∧ p.hdr.id = id ∧ p.hdr.dev = dev ∧ p.hdr.flags = 0 ∧
      p.body = .hello major minor caps ∧ p.used = p.hdr.len.toNat := by
  let h : Hdr := { cmd := cmdHello, len := BitVec.ofNat 32 (12 + 4 * caps.length), id, flags := 0, dev }
  have hlen : h.len.toNat = 12 + 4 * caps.length := ofNat_toNat_of_lt (by omega)
  let payload : List Byte :=
    w16 major ++ (w16 minor ++ (w32 32 ++ (w16 (BitVec.ofNat 16 caps.length) ++ (w16 0
    ++ (caps.map w32).flatten))))
  have hfl : ((caps.map w32).flatten).length = 4 * caps.length := by
    clear hlen payload h hn
    induction caps with
    | nil => rfl
    | cons c cs ih => simp only [List.map_cons, List.flatten_cons, List.length_append, w32_length, ih,
        List.length_cons]; omega
  have hpl : payload.length = h.len.toNat := by
    rw [hlen]
    simp only [payload, List.length_append, w16_length, w32_length, hfl]
    omega
  have hw : encHello id dev major minor caps = encHdr h ++ payload := by
    simp only [encHello, payload, h, List.append_assoc]
  have hn16 : (BitVec.ofNat 16 caps.length).toNat = caps.length := by simp; omega
  have hcaps : rdCaps 32 caps.length (encHdr h ++ payload) = some caps := by
    have := rdCaps_flatten (encHdr h ++ (w16 major ++ (w16 minor ++ (w32 32 ++
      (w16 (BitVec.ofNat 16 caps.length) ++ w16 0))))) 32 (by simp) caps []
    simpa only [payload, List.append_assoc, List.append_nil] using this
  have hd : decPayload (encHdr h ++ payload) h = some (.hello major minor caps, h.len.toNat) := by
    have h1 : ¬ h.len.toNat < 4 := by omega
    have h2 : h.len.toNat - 4 ≥ 8 := by omega
    have r1 : rd16 20 (encHdr h ++ payload) = some major := by
      simp only [rd16, payload]
      rw [slice_skip_lit (encHdr_length h) (by omega)]
      simp [hd_w16, dec_w16]
    have r2 : rd16 22 (encHdr h ++ payload) = some minor := by
      simp only [rd16, payload]
      rw [slice_skip_lit (encHdr_length h) (by omega)]
      simp [sl_w16, hd_w16, dec_w16]
    have r3 : rd32 24 (encHdr h ++ payload) = some 32 := by
      simp only [rd32, payload]
      rw [slice_skip_lit (encHdr_length h) (by omega)]
      simp [sl_w16, hd_w32, dec_w32]
    have r4 : rd16 28 (encHdr h ++ payload) = some (BitVec.ofNat 16 caps.length) := by
      simp only [rd16, payload]
      rw [slice_skip_lit (encHdr_length h) (by omega)]
      simp [sl_w16, sl_w32, hd_w16, dec_w16]
    have e32 : (32 : U32).toNat = 32 := by decide
    rw [decPayload, if_pos rfl, decHello, if_neg h1]
    simp only [r1, r2, r3, r4, Option.bind_eq_bind, Option.bind_some, if_pos h2, e32, hn16, hcaps,
      Option.pure_def, Nat.lt_irrefl, and_false, if_false]
  refine ⟨_, fun rest => by rw [hw]; exact recv_append hpl hd, rfl, rfl, rfl, rfl, rfl, rfl⟩

/-- **C02 (interrupt).** -/
theorem interrupt_roundtrip (id dev : U32) (clk : U64) (line : U32) (vector : U64) (val : U8)
    (flags : U32) :
    ∃ p, IsPacket (encInterrupt id dev clk line vector val flags) p ∧
      p.hdr = { cmd := cmdInterrupt, len := 21, id, flags, dev } ∧
      p.body = .interrupt clk vector line val ∧ p.used = 21 := by
  let h : Hdr := { cmd := cmdInterrupt, len := 21, id, flags, dev }
  let payload := w64 clk ++ (w64 vector ++ (w32 line ++ w8 val))
  have hw : encInterrupt id dev clk line vector val flags = encHdr h ++ payload := by
    simp only [encInterrupt, payload, h, List.append_assoc]
  have hpl : payload.length = h.len.toNat := by simp [payload, h]
  have hd : decPayload (encHdr h ++ payload) h = some (.interrupt clk vector line val, 21) := by
    have c1 : ¬ (cmdInterrupt = cmdHello) := by decide
    have c2 : ¬ (cmdInterrupt = cmdWrite ∨ cmdInterrupt = cmdRead) := by decide
    rw [decPayload, if_neg c1, if_neg c2, if_pos rfl]
    simp [payload, encHdr, rd64, rd32, rd8, sl_w32, sl_w64, hd_w64, hd_w32, hd_w8', dec_w64,
      dec_w32, dec_w8, h]
  exact ⟨_, fun rest => by rw [hw]; exact recv_append hpl hd, rfl, rfl, rfl⟩

/-- **C02 (sync).** -/
theorem sync_roundtrip (id dev : U32) (clk : U64) (flags : U32) :
    ∃ p, IsPacket (encSync id dev clk flags) p ∧
      p.hdr = { cmd := cmdSync, len := 8, id, flags, dev } ∧ p.body = .sync clk ∧ p.used = 8 := by
  let h : Hdr := { cmd := cmdSync, len := 8, id, flags, dev }
  let payload := w64 clk
  have hpl : payload.length = h.len.toNat := by simp [payload, h]
  have hd : decPayload (encHdr h ++ payload) h = some (.sync clk, 8) := by
    have c1 : ¬ (cmdSync = cmdHello) := by decide
    have c2 : ¬ (cmdSync = cmdWrite ∨ cmdSync = cmdRead) := by decide
    have c3 : ¬ (cmdSync = cmdInterrupt) := by decide
    rw [decPayload, if_neg c1, if_neg c2, if_neg c3, if_pos rfl]
    simp [payload, encHdr, rd64, sl_w32, hd_w64', dec_w64, h]
  exact ⟨_, fun _ => recv_append hpl hd, rfl, rfl, rfl⟩

/-- **C02 (ATS).** Attributes, address and length survive; the result survives
in its low 32 bits (the wire field is 32 bits wide).  The timestamp does not:
see `ats_timestamp_swapped`. -/
theorem ats_roundtrip_partial (cmd id dev : U32) (clk attr addr len result : U64) (flags : U32)
    (rsv : List Byte) (hcmd : cmd = cmdAtsReq ∨ cmd = cmdAtsInv) (hrsv : rsv.length = 32) :
    ∃ p ts, IsPacket (encAts cmd id dev clk attr addr len result flags rsv) p ∧
      p.hdr = { cmd, len := 68, id, flags, dev } ∧
      p.body = .ats ts attr addr len (result.truncate 32) ∧
      ts = BitVec.ofNat 64 (leDec (beEnc 8 clk.toNat)) := by
  let h : Hdr := { cmd, len := 68, id, flags, dev }
  let payload := w64 clk ++ (w64 attr ++ (w64 addr ++ (w64 len ++ (w32 (result.truncate 32) ++ rsv))))
  have hw : encAts cmd id dev clk attr addr len result flags rsv = encHdr h ++ payload := by
    simp only [encAts, payload, h, List.append_assoc]
  have hpl : payload.length = h.len.toNat := by simp [payload, h, hrsv]
  have hd : decPayload (encHdr h ++ payload) h =
      some (.ats (BitVec.ofNat 64 (leDec (w64 clk))) attr addr len (result.truncate 32), 0) := by
    have c1 : ¬ (h.cmd = cmdHello) := by rcases hcmd with e | e <;> simp only [h, e] <;> decide
    have c2 : ¬ (h.cmd = cmdWrite ∨ h.cmd = cmdRead) := by
      rcases hcmd with e | e <;> simp only [h, e] <;> decide
    have c3 : ¬ (h.cmd = cmdInterrupt) := by rcases hcmd with e | e <;> simp only [h, e] <;> decide
    have c4 : ¬ (h.cmd = cmdSync) := by rcases hcmd with e | e <;> simp only [h, e] <;> decide
    rw [decPayload, if_neg c1, if_neg c2, if_neg c3, if_neg c4, if_pos hcmd]
    simp [payload, encHdr, rd64, rd32, rd64raw, sl_w32, sl_w64, hd_w64, hd_w32, dec_w64, dec_w32]
  exact ⟨_, _, fun rest => by rw [hw]; exact recv_append hpl hd, rfl, rfl, rfl⟩

/-- **C02 is violated for the ATS timestamp**: the decoder never converts it, so
the receiver sees the byte-reversed value. -/
theorem ats_timestamp_swapped :
    ∃ p, recv (encAts cmdAtsReq 0 0 1 0 0 0 0 0 (List.replicate 32 0)) = some (p, []) ∧
      ∃ a b c d, p.body = .ats 0x0100000000000000 a b c d := by
  obtain ⟨p, ts, h1, -, h3, h4⟩ := ats_roundtrip_partial cmdAtsReq 0 0 1 0 0 0 0 0
    (List.replicate 32 0) (Or.inl rfl) rfl
  refine ⟨p, by simpa using h1 [], ?_⟩
  have : ts = 0x0100000000000000 := by rw [h4]; decide
  exact ⟨_, _, _, _, by rw [h3, this]⟩

example : (cmdAtsInv = cmdAtsReq ∨ cmdAtsInv = cmdAtsInv) ∧ (List.replicate 32 (0 : Byte)).length = 32 := by
  decide

/-! ## C03: stream framing -/

/-- **C03.** Any concatenation of packets is received as exactly those packets,
in order. -/
theorem stream_framing (ws : List (List Byte × Pkt)) (h : ∀ wp ∈ ws, IsPacket wp.1 wp.2) :
    recvAll (ws.map (·.1)).flatten = some (ws.map (·.2)) := by
  induction ws with
  | nil => simp [recvAll]
  | cons wp ws ih =>
    have hp := h wp (by simp)
    have hne : wp.1 ≠ [] := hp.ne_nil
    have hr := hp (ws.map (·.1)).flatten
    have ih' := ih (fun x hx => h x (by simp [hx]))
    rw [recvAll]
    have hlt : (ws.map (·.1)).flatten.length < (wp.1 ++ (ws.map (·.1)).flatten).length := by
      have : 0 < wp.1.length := List.length_pos_iff.mpr hne
      simp only [List.length_append]; omega
    have hne2 : (wp.1 ++ (ws.map (·.1)).flatten) ≠ [] := by simp [hne]
    simp only [List.map_cons, List.flatten_cons]
    rw [if_neg hne2]
    simp only [hr, hlt, dite_true, ih', Option.map_some]

/-- The messages the library sends, with the sender's view of their contents. -/
inductive Msg
  | bus (c : Caps) (i : BusIn) (data be : List Byte)
  | hello (id dev : U32) (major minor : U16) (caps : List U32)
  | interrupt (id dev : U32) (clk : U64) (line : U32) (vector : U64) (val : U8) (flags : U32)
  | sync (id dev : U32) (clk : U64) (flags : U32)
  | ats (cmd id dev : U32) (clk attr addr len result : U64) (flags : U32) (rsv : List Byte)

/-- The bytes sent for a message. -/
def Msg.wire : Msg → Option (List Byte)
  | .bus c i data be => busWire c i data be
  | .hello id dev a b caps => some (encHello id dev a b caps)
  | .interrupt id dev clk line v val fl => some (encInterrupt id dev clk line v val fl)
  | .sync id dev clk fl => some (encSync id dev clk fl)
  | .ats cmd id dev clk attr addr len res fl rsv => some (encAts cmd id dev clk attr addr len res fl rsv)

/-- Well-formedness: sizes agree with the buffers and fit the 32-bit length
field; no byte enables in the old layout; a master id the old layout accepts. -/
def Msg.Wf : Msg → Prop
  | .bus c i data be =>
    (i.cmd = cmdRead ∨ i.cmd = cmdWrite) ∧
    data.length = (if carriesData i then i.size.toNat else 0) ∧
    80 + data.length + be.length < 2 ^ 32 ∧
    (if usesExt c i then be.length = i.beLen.toNat else be = [] ∧ i.masterId.toNat < 0xffff)
  | .hello _ _ _ _ caps => caps.length < 2 ^ 16
  | .ats cmd _ _ _ _ _ _ _ _ rsv => (cmd = cmdAtsReq ∨ cmd = cmdAtsInv) ∧ rsv.length = 32
  | _ => True

/-- What the receiver must see for a message. -/
def Msg.Matches : Msg → Pkt → Prop
  | .bus c i data be, p =>
    p.hdr.cmd = i.cmd ∧ p.hdr.id = i.id ∧ p.hdr.dev = i.dev ∧ p.hdr.flags = i.flags ∧
    (∃ ext, p.body = .bus i.clk (wireAttr c i) i.addr i.size i.width i.streamWidth
        (i.masterId.truncate 16) ext) ∧
    rxData p data.length = some data ∧ rxByteEn p = some (if be = [] then none else some be)
  | .hello id dev a b caps, p =>
    p.hdr.cmd = cmdHello ∧ p.hdr.id = id ∧ p.hdr.dev = dev ∧ p.body = .hello a b caps
  | .interrupt id dev clk line v val fl, p =>
    p.hdr = { cmd := cmdInterrupt, len := 21, id, flags := fl, dev } ∧
    p.body = .interrupt clk v line val
  | .sync id dev clk fl, p =>
    p.hdr = { cmd := cmdSync, len := 8, id, flags := fl, dev } ∧ p.body = .sync clk
  | .ats cmd id dev _ attr addr len res fl _, p =>
    p.hdr = { cmd, len := 68, id, flags := fl, dev } ∧
    ∃ ts, p.body = .ats ts attr addr len (res.truncate 32)

theorem Msg.isPacket (m : Msg) (h : m.Wf) : ∃ w p, m.wire = some w ∧ IsPacket w p ∧ m.Matches p := by
  cases m with
  | bus c i data be =>
    obtain ⟨hcmd, hdata, hfit, hl⟩ := h
    by_cases hext : usesExt c i = true
    · rw [if_pos hext] at hl
      obtain ⟨w, p, hw, hp, h1, h2, -, -, -, -, h5, h6⟩ :=
        bus_roundtrip_ext_partial c i data be hcmd hext hdata hl hfit
      refine ⟨w, p, hw, hp, by rw [h1], by rw [h1], by rw [h1], by rw [h1],
        ⟨_, by rw [h2, wireAttr, if_pos hext]⟩, h5, ?_⟩
      · rw [h6]
        by_cases hz : i.beLen = 0
        · have : be = [] := List.length_eq_zero_iff.mp (by rw [hl, hz]; rfl)
          rw [if_pos hz, if_pos this]
        · have : be ≠ [] := by
            intro e; rw [e] at hl
            exact hz (BitVec.eq_of_toNat_eq (by simpa using hl.symm))
          rw [if_neg hz, if_neg this]
    · rw [if_neg hext] at hl
      obtain ⟨rfl, hm⟩ := hl
      obtain ⟨w, p, hw, hp, h1, ⟨m, h2, h3⟩, -, -, -, -, h5, h6⟩ :=
        bus_roundtrip_old c i data hcmd (by simpa using hext) hm hdata (by simp at hfit; omega)
      refine ⟨w, p, hw, hp, by rw [h1], by rw [h1], by rw [h1], by rw [h1], ⟨none, ?_⟩, h5, h6⟩
      rw [h2, wireAttr, if_neg hext, ← h3]
      congr 1
      simp
  | hello id dev a b caps =>
    obtain ⟨p, hp, h1, h2, h3, -, h5, -⟩ := hello_roundtrip id dev a b caps h
    exact ⟨_, p, rfl, hp, h1, h2, h3, h5⟩
  | interrupt id dev clk line v val fl =>
    obtain ⟨p, hp, h1, h2, -⟩ := interrupt_roundtrip id dev clk line v val fl
    exact ⟨_, p, rfl, hp, h1, h2⟩
  | sync id dev clk fl =>
    obtain ⟨p, hp, h1, h2, -⟩ := sync_roundtrip id dev clk fl
    exact ⟨_, p, rfl, hp, h1, h2⟩
  | ats cmd id dev clk attr addr len res fl rsv =>
    obtain ⟨p, ts, hp, h1, h2, -⟩ := ats_roundtrip_partial cmd id dev clk attr addr len res fl rsv h.1 h.2
    exact ⟨_, p, rfl, hp, h1, ts, h2⟩

/-- Pointwise relation of two lists of equal length. -/
def Pointwise {α β : Type} (R : α → β → Prop) : List α → List β → Prop
  | [], [] => True
  | a :: as, b :: bs => R a b ∧ Pointwise R as bs
  | _, _ => False

/-- **C03.** The stream made of any finite sequence of well-formed messages, of
any mix of kinds, is received as exactly one matching packet per message, in
order, with nothing left over. -/
theorem message_stream (ms : List Msg) (h : ∀ m ∈ ms, m.Wf) :
    ∃ ws ps, Pointwise (fun m w => m.wire = some w) ms ws ∧
      recvAll ws.flatten = some ps ∧ Pointwise Msg.Matches ms ps := by
  suffices ∃ wps : List (List Byte × Pkt), Pointwise (fun m w => m.wire = some w) ms (wps.map (·.1)) ∧
      (∀ wp ∈ wps, IsPacket wp.1 wp.2) ∧ Pointwise Msg.Matches ms (wps.map (·.2)) by
    obtain ⟨wps, h1, h2, h3⟩ := this
    exact ⟨_, _, h1, stream_framing wps h2, h3⟩
  induction ms with
  | nil => exact ⟨[], trivial, by simp, trivial⟩
  | cons m ms ih =>
    obtain ⟨wps, h1, h2, h3⟩ := ih (fun x hx => h x (by simp [hx]))
    obtain ⟨w, p, hw, hp, hm⟩ := m.isPacket (h m (by simp))
    refine ⟨(w, p) :: wps, ⟨hw, h1⟩, ?_, ⟨hm, h3⟩⟩
    intro wp hwp
    rcases List.mem_cons.mp hwp with e | e
    · rw [e]; exact hp
    · exact h2 wp e

example : ∀ m ∈ [Msg.hello 0 0 4 3 [1, 3, 4], .sync 1 0 500 0,
    .bus { extBase := true } sampleWrite [1, 2, 3] [0xff, 0], .bus {} sampleWrite [1, 2, 3] []], m.Wf := by
  intro m hm
  simp only [List.mem_cons, List.not_mem_nil, or_false] at hm
  rcases hm with e | e | e | e <;> subst e <;> simp only [Msg.Wf] <;> decide

/-- If byte enables are written behind an old-layout packet (which the memory
slave does when a peer lists the byte-enable capability without the
extended-base one), the frame boundary is lost: the receiver does not stop at
the end of the bytes sent. -/
theorem old_layout_byte_enables_break_framing :
    ∃ i data be w, busWire { extByteEn := true } i data be = some w ∧ i.beLen.toNat = be.length ∧
      ∀ p rest, recv w = some (p, rest) → rest ≠ [] := by
  refine ⟨sampleWrite, [1, 2, 3], [0xff, 0], _, rfl, rfl, ?_⟩
  intro p rest h hr
  obtain ⟨w, p', hw, hp, -⟩ := bus_roundtrip_old { extByteEn := true } sampleWrite [1, 2, 3]
    (Or.inr rfl) rfl (by decide) (by decide) (by decide)
  have e : busWire { extByteEn := true } sampleWrite [1, 2, 3] [0xff, 0]
      = some (w ++ [0xff, 0]) := by
    have : busWire { extByteEn := true } sampleWrite [1, 2, 3] [0xff, 0] =
      (busWire { extByteEn := true } sampleWrite [1, 2, 3] []).map (· ++ [0xff, 0]) := by decide +kernel
    rw [this, hw]; rfl
  have h2 := hp [0xff, 0]
  have e2 := Option.some.inj e
  rw [← e2, h, hr] at h2
  simp at h2

/-! ## C05: capability negotiation -/

/-- **C05 (recording).** Starting from no capabilities, what is recorded is
exactly what the peer listed (unknown capabilities are ignored), in any order
and with any repetition; a major version other than 4 is refused. -/
theorem caps_recorded (major : U16) (caps : List U32) :
    cmdHelloHandle {} major caps =
      if major = 4 then
        some { extBase := decide ((1 : U32) ∈ caps), extByteEn := decide ((2 : U32) ∈ caps),
               wirePosted := decide ((3 : U32) ∈ caps), ats := decide ((4 : U32) ∈ caps) }
      else none := by
  have gen : ∀ (l : List U32) (c : Caps), l.foldl procCap c =
      { extBase := c.extBase || decide ((1 : U32) ∈ l), extByteEn := c.extByteEn || decide ((2 : U32) ∈ l),
        wirePosted := c.wirePosted || decide ((3 : U32) ∈ l), ats := c.ats || decide ((4 : U32) ∈ l) } := by
    intro l
    induction l with
    | nil => intro c; simp
    | cons a l ih =>
      intro c
      rw [List.foldl_cons, ih]
      unfold procCap
      split
      · next e => subst e; simp
      · split
        · next e => subst e; simp
        · split
          · next e => subst e; simp
          · split
            · next e => subst e; simp
            · next h1 h2 h3 h4 =>
              have g1 : ¬ (1 : U32) = a := Ne.symm h1
              have g2 : ¬ (2 : U32) = a := Ne.symm h2
              have g3 : ¬ (3 : U32) = a := Ne.symm h3
              have g4 : ¬ (4 : U32) = a := Ne.symm h4
              simp only [List.mem_cons, g1, g2, g3, g4, false_or]
  unfold cmdHelloHandle
  by_cases hm : major = 4
  · subst hm
    by_cases hc : caps.length = 0
    · rw [List.length_eq_zero_iff] at hc
      subst hc; simp
    · simp [hc, processCaps, gen]
  · rw [if_pos hm, if_neg hm]

/-- **C05 (use).** An access whose attributes do not themselves claim the
extension is encoded in the extended layout exactly when the peer listed the
extended-base capability: the receiver sees the extension mark iff so. -/
theorem layout_matches_caps (caps : List U32) (c : Caps) (i : BusIn) (hattr : hasExtBase i.attr = false)
    (hc : cmdHelloHandle {} 4 caps = some c) :
    usesExt c i = decide ((1 : U32) ∈ caps) := by
  rw [caps_recorded] at hc
  simp at hc
  simp [usesExt, hattr, ← hc]

example : hasExtBase sampleWrite.attr = false ∧
    cmdHelloHandle {} 4 [1, 3, 4, 77] = some { extBase := true, wirePosted := true, ats := true } := by
  decide

/-- A second hello from a peer that listed the extended-base capability trips
the assert of `rp_process_caps`. -/
theorem second_hello_asserts (c : Caps) (caps : List U32) (h : c.extBase = true) (hne : caps ≠ []) :
    cmdHelloHandle c 4 caps = none := by
  simp [cmdHelloHandle, processCaps, h, hne]

/-- **C01 (byte enables of arbitrary packets).** Whatever the packet says, byte
enables are handed out only if they start behind the packet structure and end,
computed in 32 bits, inside the packet; otherwise an assertion fails. -/
theorem byte_enables_checked (hdr : Hdr) (used : Nat) (raw : List Byte) (ts attr addr : U64) (len width sw : U32)
    (mid : U16) (e : BusExt) (hattr : hasExtBase attr = true) (hlen : e.beLen ≠ 0) :
    let p : Pkt := { hdr, body := .bus ts attr addr len width sw mid (some e), used, raw }
    ((e.beOffset.toNat < 80 ∨ hdr.len.toNat + 20 < (e.beOffset + e.beLen).toNat) → rxByteEn p = none) ∧
    (80 ≤ e.beOffset.toNat → (e.beOffset + e.beLen).toNat ≤ hdr.len.toNat + 20 →
      rxByteEn p = (slice e.beOffset.toNat e.beLen.toNat raw).map some) := by
  simp only [rxByteEn, hattr, true_and, ne_eq, hlen, not_false_eq_true, if_true]
  constructor
  · rintro (h | h)
    · rw [if_pos h]
    · by_cases h80 : e.beOffset.toNat < 80
      · rw [if_pos h80]
      · rw [if_neg h80, if_pos (by omega)]
  · intro h1 h2
    rw [if_neg (by omega), if_neg (by omega)]

example : ∃ attr : U64, hasExtBase attr = true := ⟨2 ^ 2, by decide⟩

end Verif.RP
