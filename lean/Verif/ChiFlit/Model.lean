/-
CHI flit packing and unpacking: `/repo/tlm-bridges/private/chi/pkts.h`
(`ReqPkt` 43-398, `RspPkt` 400-611, `SnpPkt` 614-828, `DatPkt` 830-1200), with
the field widths of `/repo/tlm-bridges/amba-chi.h` 105-229.

A flit (`sc_bv<FLIT_WIDTH>`) is a function from bit positions to bits, together
with its width. Writing a range beyond the width is an error of the bit-vector
library; that, a failed assertion and a read outside the caller's buffer are
`none`.
-/
namespace Verif.ChiFlit

abbrev Flit := Nat → Bool

/-- Assignment to `flit.range(pos + w - 1, pos)`: the low `w` bits of `v`. -/
def putBits (f : Flit) (pos w v : Nat) : Flit := fun i =>
  if pos ≤ i ∧ i < pos + w then v.testBit (i - pos) else f i

/-- `flit.range(pos + w - 1, pos).to_uint64()` for `w ≤ 64`. -/
def getBits (f : Flit) (pos : Nat) : Nat → Nat
  | 0 => 0
  | w + 1 => (f pos).toNat + 2 * getBits f (pos + 1) w

/-- What the compiler makes of a mask `(1 << w) - 1` (as a 64-bit value) whose
shift is not defined by the language, `bits` being the width of the shifted
type. `none`: undefined behaviour. Theorems quantify over it or fix it. -/
abbrev Ub := Nat → Nat → Option Nat

/-- The language: no meaning. -/
def strict : Ub := fun _ _ => none

/-- `(1 << w) - 1` with `1` of a type of `bits` bits (types narrower than `int`
are promoted to `int`, where the result must fit). -/
def mask (ub : Ub) (bits w : Nat) : Option Nat :=
  if bits ≤ 32 ∧ w ≤ 30 then some (2 ^ w - 1)
  else if bits = 32 ∧ w = 31 then some (2 ^ w - 1)
  else if bits = 64 ∧ w < 64 then some (2 ^ w - 1)
  else ub bits w

/-- `(1 << width) - 1` with a plain `int` literal: defined up to 30 bits. -/
def intMask (ub : Ub) (w : Nat) : Option Nat :=
  if w ≤ 30 then some (2 ^ w - 1) else ub 31 w

/-- A field to be packed: bits of its C type (1 for `bool`), width, value. -/
structure Field where
  bits : Nat
  w : Nat
  v : Nat
  deriving DecidableEq, Repr

/-- A `bool` field. -/
def flag (b : Bool) : Field := ⟨1, 1, b.toNat⟩

/-- `Set` (220-236): the template for numbers masks, the overload for `bool`
writes one bit. -/
def setField (ub : Ub) (W : Nat) (f : Flit) (pos : Nat) (x : Field) : Option Flit :=
  if x.bits = 1 then
    if pos < W then some (putBits f pos 1 x.v) else none
  else
    match mask ub x.bits x.w with
    | none => none
    | some m => if pos + x.w ≤ W then some (putBits f pos x.w (x.v &&& m)) else none

/-- Packing fields one after the other; new flit and position. -/
def setFields (ub : Ub) (W : Nat) (f : Flit) (pos : Nat) : List Field → Option (Flit × Nat)
  | [] => some (f, pos)
  | x :: xs =>
    match setField ub W f pos x with
    | none => none
    | some f' => setFields ub W f' (pos + x.w) xs

/-- A field to be unpacked: bits of the C type, width. -/
structure Slot where
  bits : Nat
  w : Nat
  deriving DecidableEq, Repr

def flagSlot : Slot := ⟨1, 1⟩

/-- `Extract` (238-251) and `ExtractBool` (253-256). `typed` selects the mask of
`SnpPkt` (`static_cast<T>(1) << width`, 764), the others use a plain `int`. -/
def getField (ub : Ub) (typed : Bool) (f : Flit) (pos : Nat) (x : Slot) : Option Nat :=
  if x.bits = 1 then some (getBits f pos 1)
  else
    match if typed then mask ub x.bits x.w else intMask ub x.w with
    | none => none
    | some m => some ((getBits f pos x.w &&& m) % 2 ^ x.bits)

def getFields (ub : Ub) (typed : Bool) (f : Flit) (pos : Nat) : List Slot → Option (List Nat × Nat)
  | [] => some ([], pos)
  | x :: xs =>
    match getField ub typed f pos x with
    | none => none
    | some v =>
      match getFields ub typed f (pos + x.w) xs with
      | none => none
      | some (vs, p) => some (v :: vs, p)

/-- A fresh `sc_bv` is all zero. -/
def zero : Flit := fun _ => false

/-! ## Requests -/

/-- Template parameters of a port. -/
structure Cfg where
  addrW : Nat
  nodeW : Nat
  rsvdcW : Nat
  deriving DecidableEq, Repr

/-- The attributes a request carries (`chiattr_extension` and the payload's
address and length). -/
structure Req where
  qos : Nat
  tgtId : Nat
  srcId : Nat
  txnId : Nat
  returnNid : Nat
  stashValid : Bool
  returnTxnId : Nat
  opcode : Nat
  len : Nat
  addr : Nat
  nonSecure : Bool
  likelyShared : Bool
  allowRetry : Bool
  order : Nat
  pCrdType : Nat
  allocate : Bool
  cacheable : Bool
  device : Bool
  earlyWrAck : Bool
  snpAttr : Bool
  lpid : Nat
  excl : Bool
  expCompAck : Bool
  traceTag : Bool
  rsvdc : Nat
  deriving DecidableEq, Repr

/-- `GetSize` (320-342). -/
def getSize (len : Nat) : Nat :=
  if len = 64 then 6 else if len = 32 then 5 else if len = 16 then 4 else if len = 8 then 3
  else if len = 4 then 2 else if len = 2 then 1 else 0

/-- `GetMemAttr` (351-363). -/
def memAttr (r : Req) : Nat :=
  r.allocate.toNat * 8 + r.cacheable.toNat * 4 + r.device.toNat * 2 + r.earlyWrAck.toNat

/-- `FLIT_WIDTH` (80-102). -/
def reqW (c : Cfg) : Nat :=
  4 + c.nodeW + c.nodeW + 8 + c.nodeW + 1 + 8 + 6 + 3 + c.addrW + 1 + 1 + 1 + 2 + 4 + 4 + 1 + 5
    + 1 + 1 + 1 + c.rsvdcW

/-- The fields in the order of `CreateFlit` (152-201); the last one only if the
reserved field exists. -/
def reqFields (c : Cfg) (r : Req) : List Field :=
  [⟨8, 4, r.qos⟩, ⟨16, c.nodeW, r.tgtId⟩, ⟨16, c.nodeW, r.srcId⟩, ⟨8, 8, r.txnId⟩,
   ⟨16, c.nodeW, r.returnNid⟩, flag r.stashValid, ⟨8, 8, r.returnTxnId⟩, ⟨8, 6, r.opcode⟩,
   ⟨8, 3, getSize r.len⟩, ⟨64, c.addrW, r.addr⟩, flag r.nonSecure, flag r.likelyShared,
   flag r.allowRetry, ⟨8, 2, r.order⟩, ⟨8, 4, r.pCrdType⟩, ⟨8, 4, memAttr r⟩, flag r.snpAttr,
   ⟨8, 5, r.lpid⟩, flag r.excl, flag r.expCompAck, flag r.traceTag]
  ++ (if c.rsvdcW = 0 then [] else [⟨32, c.rsvdcW, r.rsvdc⟩])

/-- `CreateFlit` on a fresh packet. -/
def createReq (ub : Ub) (c : Cfg) (r : Req) : Option Flit :=
  (setFields ub (reqW c) zero 0 (reqFields c r)).map (·.1)

/-- The extractions in the order of `ParseFlit` (258-318). -/
def reqSlots (c : Cfg) : List Slot :=
  [⟨8, 4⟩, ⟨16, c.nodeW⟩, ⟨16, c.nodeW⟩, ⟨8, 8⟩, ⟨16, c.nodeW⟩, flagSlot, ⟨8, 8⟩, ⟨8, 6⟩,
   ⟨8, 3⟩, ⟨64, c.addrW⟩, flagSlot, flagSlot, flagSlot, ⟨8, 2⟩, ⟨8, 4⟩, ⟨8, 4⟩, flagSlot,
   ⟨16, 5⟩, flagSlot, flagSlot, flagSlot]
  ++ (if c.rsvdcW = 0 then [] else [⟨32, c.rsvdcW⟩])

/-- What `ParseFlit` makes of the extracted values (`ExtractMemAttr` 365-376).
Absent reserved field: 0. -/
def reqOf (l : List Nat) : Option Req :=
  match l with
  | qos :: tgt :: src :: txn :: rn :: sv :: rt :: op :: sz :: addr :: ns :: ls :: ar :: ord :: pc
      :: ma :: sa :: lp :: ex :: ec :: tt :: rest =>
    some
      { qos := qos, tgtId := tgt, srcId := src, txnId := txn, returnNid := rn,
        stashValid := sv == 1, returnTxnId := rt, opcode := op, len := 2 ^ sz, addr := addr,
        nonSecure := ns == 1, likelyShared := ls == 1, allowRetry := ar == 1, order := ord,
        pCrdType := pc, allocate := ma.testBit 3, cacheable := ma.testBit 2,
        device := ma.testBit 1, earlyWrAck := ma.testBit 0, snpAttr := sa == 1, lpid := lp,
        excl := ex == 1, expCompAck := ec == 1, traceTag := tt == 1,
        rsvdc := rest.headD 0 }
  | _ => none

def parseReq (ub : Ub) (c : Cfg) (f : Flit) : Option Req :=
  match getFields ub false f 0 (reqSlots c) with
  | none => none
  | some (l, _) => reqOf l

/-! ## Responses -/

structure Rsp where
  qos : Nat
  tgtId : Nat
  srcId : Nat
  txnId : Nat
  opcode : Nat
  respErr : Nat
  resp : Nat
  fwdState : Nat
  dbid : Nat
  pCrdType : Nat
  traceTag : Bool
  deriving DecidableEq, Repr

/-- `FLIT_WIDTH` (423-434). -/
def rspW (c : Cfg) : Nat := 4 + c.nodeW + c.nodeW + 8 + 4 + 2 + 3 + 3 + 8 + 4 + 1

/-- `CreateFlit` (482-507). -/
def rspFields (c : Cfg) (r : Rsp) : List Field :=
  [⟨8, 4, r.qos⟩, ⟨16, c.nodeW, r.tgtId⟩, ⟨16, c.nodeW, r.srcId⟩, ⟨8, 8, r.txnId⟩,
   ⟨8, 4, r.opcode⟩, ⟨8, 2, r.respErr⟩, ⟨8, 3, r.resp⟩, ⟨8, 3, r.fwdState⟩, ⟨8, 8, r.dbid⟩,
   ⟨8, 4, r.pCrdType⟩, flag r.traceTag]

def createRsp (ub : Ub) (c : Cfg) (r : Rsp) : Option Flit :=
  (setFields ub (rspW c) zero 0 (rspFields c r)).map (·.1)

/-- `ParseFlit` (562-589). -/
def rspSlots (c : Cfg) : List Slot :=
  [⟨8, 4⟩, ⟨16, c.nodeW⟩, ⟨16, c.nodeW⟩, ⟨8, 8⟩, ⟨8, 4⟩, ⟨8, 2⟩, ⟨8, 3⟩, ⟨8, 3⟩, ⟨8, 8⟩, ⟨8, 4⟩,
   flagSlot]

def rspOf (l : List Nat) : Option Rsp :=
  match l with
  | [qos, tgt, src, txn, op, re, rs, fs, db, pc, tt] =>
    some ⟨qos, tgt, src, txn, op, re, rs, fs, db, pc, tt == 1⟩
  | _ => none

def parseRsp (ub : Ub) (c : Cfg) (f : Flit) : Option Rsp :=
  match getFields ub false f 0 (rspSlots c) with
  | none => none
  | some (l, _) => rspOf l

/-! ## Snoops -/

structure Snp where
  qos : Nat
  srcId : Nat
  txnId : Nat
  fwdNid : Nat
  fwdTxnId : Nat
  opcode : Nat
  addr : Nat
  nonSecure : Bool
  doNotGoToSD : Bool
  retToSrc : Bool
  traceTag : Bool
  deriving DecidableEq, Repr

/-- `FLIT_WIDTH` (639-650); `addrW` is the template parameter of `SnpPkt`, three
less than the port's address width (tlm2chi-bridge-rnf.h 59-60). -/
def snpW (c : Cfg) : Nat :=
  4 + c.nodeW + 8 + c.nodeW + 8 + 5 + c.addrW + 1 + 1 + 1 + 1

/-- `CreateFlit` (699-724). -/
def snpFields (c : Cfg) (r : Snp) : List Field :=
  [⟨8, 4, r.qos⟩, ⟨16, c.nodeW, r.srcId⟩, ⟨8, 8, r.txnId⟩, ⟨16, c.nodeW, r.fwdNid⟩,
   ⟨8, 8, r.fwdTxnId⟩, ⟨8, 5, r.opcode⟩, ⟨64, c.addrW, r.addr >>> 3⟩, flag r.nonSecure,
   flag r.doNotGoToSD, flag r.retToSrc, flag r.traceTag]

def createSnp (ub : Ub) (c : Cfg) (r : Snp) : Option Flit :=
  (setFields ub (snpW c) zero 0 (snpFields c r)).map (·.1)

/-- `ParseFlit` (779-806); `FwdTxnID` is extracted with 16 bits and stored with
8. -/
def snpSlots (c : Cfg) : List Slot :=
  [⟨8, 4⟩, ⟨16, c.nodeW⟩, ⟨8, 8⟩, ⟨16, c.nodeW⟩, ⟨16, 8⟩, ⟨8, 5⟩, ⟨64, c.addrW⟩, flagSlot,
   flagSlot, flagSlot, flagSlot]

def snpOf (l : List Nat) : Option Snp :=
  match l with
  | [qos, src, txn, fn, ft, op, addr, ns, dn, rs, tt] =>
    some ⟨qos, src, txn, fn, ft % 2 ^ 8, op, (addr <<< 3) % 2 ^ 64, ns == 1, dn == 1, rs == 1,
      tt == 1⟩
  | _ => none

def parseSnp (ub : Ub) (c : Cfg) (f : Flit) : Option Snp :=
  match getFields ub true f 0 (snpSlots c) with
  | none => none
  | some (l, _) => snpOf l

/-! ## Data -/

/-- Template parameters of the data channel; `bytes` is `DATA_WIDTH/8`. -/
structure DCfg where
  bytes : Nat
  nodeW : Nat
  rsvdcW : Nat
  checkW : Nat
  poisonW : Nat
  opW : Nat
  deriving DecidableEq, Repr

structure DatAttr where
  qos : Nat
  tgtId : Nat
  srcId : Nat
  txnId : Nat
  homeNid : Nat
  opcode : Nat
  respErr : Nat
  resp : Nat
  fwdState : Nat
  dbid : Nat
  ccid : Nat
  traceTag : Bool
  rsvdc : Nat
  dataCheck : Nat
  poison : Nat
  deriving DecidableEq, Repr

/-- A data packet to be sent: attributes, the caller's buffer (exactly the bytes
that may be read), the data length, the byte enables (empty: none given). -/
structure Dat where
  attr : DatAttr
  buf : List (BitVec 8)
  len : Nat
  be : List Bool

/-- `FLIT_WIDTH` (864-882). -/
def datW (c : DCfg) : Nat :=
  4 + c.nodeW + c.nodeW + 8 + c.nodeW + c.opW + 2 + 3 + 3 + 8 + 2 + 2 + 1 + c.rsvdcW + c.bytes
    + 8 * c.bytes + c.checkW + c.poisonW

/-- The fields before the byte enables (954-975). -/
def datHead (c : DCfg) (a : DatAttr) (dataId : Nat) : List Field :=
  [⟨8, 4, a.qos⟩, ⟨16, c.nodeW, a.tgtId⟩, ⟨16, c.nodeW, a.srcId⟩, ⟨8, 8, a.txnId⟩,
   ⟨16, c.nodeW, a.homeNid⟩, ⟨8, c.opW, a.opcode⟩, ⟨8, 2, a.respErr⟩, ⟨8, 3, a.resp⟩,
   ⟨8, 3, a.fwdState⟩, ⟨8, 8, a.dbid⟩, ⟨8, 2, a.ccid⟩, ⟨8, 2, dataId⟩, flag a.traceTag]
  ++ (if c.rsvdcW = 0 then [] else [⟨32, c.rsvdcW, a.rsvdc⟩])

/-- The fields after the data (980-986). -/
def datTail (c : DCfg) (a : DatAttr) : List Field :=
  (if c.checkW = 0 then [] else [⟨64, c.checkW, a.dataCheck⟩])
  ++ (if c.poisonW = 0 then [] else [⟨8, c.poisonW, a.poison⟩])

/-- `SetByteEnable` (1027-1059): the bit of lane `i`. -/
def beBit (d : Dat) (sent i : Nat) : Bool :=
  match d.be with
  | [] => decide (i < d.len)
  | be => be.getD ((i + sent) % be.length) false

def setBE (d : Dat) (c : DCfg) (sent : Nat) (f : Flit) (pos : Nat) : Flit := fun i =>
  if pos ≤ i ∧ i < pos + c.bytes then beBit d sent (i - pos) else f i

/-- The loop of `SetData` (1061-1081), `i` from the current value up to and
including `len`; it starts at the beginning of the buffer for every flit. -/
def setDataFrom (W : Nat) (buf : List (BitVec 8)) (f : Flit) (pos i : Nat) : Nat → Option Flit
  | 0 => some f
  | n + 1 =>
    match buf[i]? with
    | none => none
    | some b =>
      if pos + 8 * i + 8 ≤ W then setDataFrom W buf (putBits f (pos + 8 * i) 8 b.toNat) pos (i + 1) n
      else none

def setData (W : Nat) (c : DCfg) (d : Dat) (f : Flit) (pos : Nat) : Option Flit :=
  setDataFrom W d.buf f pos 0 ((if d.len > c.bytes then c.bytes else d.len) + 1)

/-- Progress of a packet: `m_sent` and `m_pos`. -/
structure DatSt where
  sent : Nat
  pos : Nat
  deriving DecidableEq, Repr

/-- `CreateFlit` (926-990): the flit, the new state and `Done()`. `m_pos` is
asserted to be zero (952) and never reset. -/
def createDat (ub : Ub) (c : DCfg) (d : Dat) (s : DatSt) : Option (Flit × DatSt × Bool) :=
  if s.pos ≠ 0 then none
  else
    match setFields ub (datW c) zero 0 (datHead c d.attr ((s.sent / c.bytes) % 256)) with
    | none => none
    | some (f1, p1) =>
      match setData (datW c) c d (setBE d c s.sent f1 p1) (p1 + c.bytes) with
      | none => none
      | some f2 =>
        match setFields ub (datW c) f2 (p1 + c.bytes + 8 * c.bytes) (datTail c d.attr) with
        | none => none
        | some (f3, p3) =>
          some (f3, ⟨s.sent + c.bytes, p3⟩, decide (s.sent + c.bytes ≥ d.len))

/-- The receiver's view of a data flit: attributes, the number of the data
chunk, one byte and one enable per lane. -/
structure DatRx where
  attr : DatAttr
  dataId : Nat
  data : List Nat
  be : List Bool
  deriving DecidableEq, Repr

/-- `ParseFlit` (1136-1186) up to the byte enables. The reserved field is
extracted as `uint8_t` (1164). -/
def datHeadSlots (c : DCfg) : List Slot :=
  [⟨8, 4⟩, ⟨16, c.nodeW⟩, ⟨16, c.nodeW⟩, ⟨8, 8⟩, ⟨16, c.nodeW⟩, ⟨8, c.opW⟩, ⟨8, 2⟩, ⟨8, 3⟩, ⟨8, 3⟩,
   ⟨8, 8⟩, ⟨8, 2⟩, ⟨8, 2⟩, flagSlot]
  ++ (if c.rsvdcW = 0 then [] else [⟨8, c.rsvdcW⟩])

def datCheckSlots (c : DCfg) : List Slot := if c.checkW = 0 then [] else [⟨64, c.checkW⟩]

def datPoisonSlots (c : DCfg) : List Slot := if c.poisonW = 0 then [] else [⟨8, c.poisonW⟩]

def parseDat (ub : Ub) (c : DCfg) (f : Flit) : Option DatRx :=
  match getFields ub false f 0 (datHeadSlots c) with
  | none => none
  | some (h, p) =>
    let be := (List.range c.bytes).map fun i => f (p + i)
    let data := (List.range c.bytes).map fun i => getBits f (p + c.bytes + 8 * i) 8
    match getFields ub false f (p + c.bytes + 8 * c.bytes) (datCheckSlots c) with
    | none => none
    | some (ck, p2) =>
      match getFields ub false f p2 (datPoisonSlots c) with
      | none => none
      | some (po, _) =>
        match h with
        | qos :: tgt :: src :: txn :: hn :: op :: re :: rs :: fs :: db :: cc :: di :: tt :: rest =>
          some
            { attr := ⟨qos, tgt, src, txn, hn, op, re, rs, fs, db, cc, tt == 1, rest.headD 0,
                ck.headD 0, po.headD 0⟩
              dataId := di, data := data, be := be }
        | _ => none

end Verif.ChiFlit
