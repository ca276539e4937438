import Verif.Cxs.Msg

/-!
The translation between CHI and CCIX messages in the CCIX port of the CHI
interconnect: `/repo/tlm-modules/private/ccix/ccixport.h` (line numbers below
without a file name are of this file). The messages themselves travel as in
`Verif.Cxs`.

`none` is a reported error (`SC_REPORT_ERROR`, which throws by default), a failed
assertion or undefined behaviour. Cache lines have 64 bytes (`CACHELINE_SZ`).
Addresses are 64-bit, lengths natural numbers.
-/
namespace Verif.Ccix
open Verif.Cxs (Msg Attr tReq tResp tSnpReq tSnpResp)

/-- What the port reads and writes of a CHI request (`ReqTxn`,
`/repo/tlm-modules/iconnect-chi.h` 164-880, with its `chiattr_extension`). `len` is the data
length of the payload. -/
structure ChiReq where
  opcode : BitVec 8
  addr : BitVec 64
  len : Nat
  tgtID : BitVec 16 := 0
  srcID : BitVec 16 := 0
  txnID : BitVec 8 := 0
  nonSecure : Bool := true
  qos : BitVec 8 := 0
  device : Bool := false
  ewa : Bool := false
  cacheable : Bool := false
  allocate : Bool := false
  order : BitVec 8 := 0
  snpAttr : Bool := false
  snoopMe : Bool := false
  expCompAck : Bool := false
  deriving DecidableEq, Repr

/-- A CHI data message (`DatMsg`): a line of data, its byte enables, the opcode
and the response field. -/
structure Dat where
  data : List Byte
  be : List Bool
  opcode : BitVec 8
  resp : BitVec 8
  deriving DecidableEq, Repr

/-! ### Kinds of CHI requests -/

/-- `ReqTxn::IsRead` (iconnect-chi.h 444-458). -/
def isRead (op : BitVec 8) : Bool :=
  op = 0x04 ∨ op = 0x03 ∨ op = 0x24 ∨ op = 0x25 ∨ op = 0x02 ∨ op = 0x26 ∨ op = 0x01 ∨ op = 0x07

/-- `IsDataLess` (iconnect-chi.h 323-338; 413-428). -/
def isDataLess (op : BitVec 8) : Bool :=
  op = 0x0B ∨ op = 0x0C ∨ op = 0x0D ∨ op = 0x08 ∨ op = 0x27 ∨ op = 0x09 ∨ op = 0x0A ∨ op = 0x23 ∨ op = 0x22

/-- `IsWrite` (iconnect-chi.h 520-538; 444-461). -/
def isWrite (op : BitVec 8) : Bool :=
  op = 0x15 ∨ op = 0x17 ∨ op = 0x18 ∨ op = 0x19 ∨ op = 0x1B ∨ op = 0x1A ∨ op = 0x1C ∨ op = 0x1D ∨
    op = 0x20 ∨ op = 0x21

/-- `IsAtomic` (iconnect-chi.h 383-389). -/
def isAtomic (op : BitVec 8) : Bool := 0x28 ≤ op.toNat ∧ op.toNat ≤ 0x39

/-- `IsAtomicCompare` (iconnect-chi.h 369-374). -/
def isCompare (op : BitVec 8) : Bool := op = 0x39

/-! ### Requests, sending side -/

/-- `toReqOp` (702-748). -/
def toReqOp (op : BitVec 8) : Option (BitVec 8) :=
  match op.toNat with
  | 0x04 => some 0x00
  | 0x03 => some 0x01
  | 0x24 => some 0x02
  | 0x25 => some 0x03
  | 0x02 => some 0x05
  | 0x26 => some 0x06
  | 0x01 => some 0x07
  | 0x07 => some 0x04
  | 0x0D => some 0x13
  | 0x08 => some 0x14
  | 0x27 => some 0x15
  | 0x09 => some 0x16
  | 0x0A => some 0x17
  | 0x0B => some 0x10
  | 0x0C => some 0x11
  | _ => none

/-- `toWriteReqOp` (750-812). -/
def toWriteReqOp (op resp : BitVec 8) : Option (BitVec 8) :=
  match op.toNat with
  | 0x1C => some 0x20
  | 0x1D => some 0x21
  | 0x18 => some 0x22
  | 0x19 => some 0x23
  | 0x15 => some 0x2D
  | 0x1A => some 0x24
  | 0x1B => if resp = 7 then some 0x27 else if resp = 6 then some 0x25 else none
  | 0x17 => if resp = 7 ∨ resp = 6 then some 0x2B else none
  | _ => none

/-- `toAtomicReqOp` (814-879). -/
def toAtomicReqOp (op : BitVec 8) (snoopMe : Bool) : Option (BitVec 8) :=
  let base : BitVec 8 := if snoopMe then 0x80 else 0
  if 0x28 ≤ op.toNat ∧ op.toNat < 0x30 then some (base ||| 0x40 ||| (op &&& 7))
  else if 0x30 ≤ op.toNat ∧ op.toNat < 0x38 then some (base ||| 0x50 ||| (op &&& 7))
  else if op = 0x38 then some (base ||| 0x60)
  else if op = 0x39 then some (base ||| 0x61)
  else none

/-- `GetReqAttrSize` (592-625), before the shift. -/
def sizeCode (len : Nat) : Nat :=
  if len = 128 then 7 else if len = 64 then 6 else if len = 32 then 5 else if len = 16 then 4
  else if len = 8 then 3 else if len = 4 then 2 else if len = 2 then 1 else 0

/-- `GetReqAttrMemType` (499-533). -/
def memType (q : ChiReq) : Option Nat :=
  if q.device then
    if q.order = 3 then some (if q.ewa then 1 else 0)
    else if q.ewa then some 2 else none
  else if q.cacheable && q.allocate then some 5
  else if q.cacheable then some 4
  else some 3

/-- The window of the line that a request of length `len < 64` covers: its
offset and length (644-668, 1285-1306). For device memory it starts at the
address, else (and for a compare) at the address aligned to the length. -/
def window (compare : Bool) (mt addr len : Nat) : Nat × Nat :=
  let aligned := addr / len * len
  if ¬ compare ∧ mt < 3 then (addr % 64, len - (addr - aligned)) else (aligned % 64, len)

/-- Position in the eight-byte window of a request shorter than that
(674-689, 1313-1323). -/
def smallOff (compare : Bool) (addr len : Nat) : Nat :=
  if compare then addr % 4 / len * len else addr % 4

/-- `memcpy(&dst[at], src, src.length)`. -/
def place (dst : List Byte) (at_ : Nat) (src : List Byte) : Option (List Byte) :=
  if at_ + src.length ≤ dst.length then some (dst.take at_ ++ src ++ dst.drop (at_ + src.length)) else none

/-- `memcpy(d, &src[off], n)`. -/
def fetch (src : List Byte) (off n : Nat) : Option (List Byte) :=
  if off + n ≤ src.length then some ((src.drop off).take n) else none

/-- `CopyData` (642-700): data and byte enables of the CCIX message. For a whole
line the byte enables are copied from the *data* (696-698); otherwise there are
none. -/
def copyData (compare : Bool) (mt : Nat) (addr len : Nat) (d : Dat) : Option (List Byte × List Bool) :=
  if len < 64 then
    if len = 0 then none
    else do
      let (off, n) := window compare mt addr len
      let w ← fetch d.data off n
      if n < 8 then
        if n = 0 then none
        else do
          let b ← place (List.replicate 8 0) (smallOff compare addr n) w
          return (b, [])
      else return (w, [])
  else if len = 64 then some (d.data, d.data.map fun b => decide (b = 0xFF))
  else none

/-- The attributes of an outgoing request (`chi2ccix`, 567-590). -/
def reqAttrs (q : ChiReq) (op : BitVec 8) (mt : Nat) : Attr :=
  { msgType := tReq
    tgtID := q.tgtID.setWidth 8
    srcID := q.srcID.setWidth 8
    txnID := q.txnID.setWidth 16
    reqOp := op
    nonSecure := q.nonSecure
    qos := q.qos
    reqAttr := BitVec.ofNat 8 (sizeCode q.len * 16 + mt) }

/-- `CCIXReq(req)` (374-390), for reads and requests without data
(`ProcessReq` 3299-3301). The payload of a CHI request carries no write command
(set by the requesting node), so neither does the message. -/
def sendReq (q : ChiReq) : Option Msg := do
  let op ← toReqOp q.opcode
  let mt ← memType q
  return { attr := reqAttrs q op mt, write := false, addr := q.addr, data := [], be := [] }

/-- The opcode of a message with data (`AddData` 635-639). -/
def dataOp (op resp : BitVec 8) (snoopMe : Bool) : Option (BitVec 8) :=
  if isAtomic op then toAtomicReqOp op snoopMe else toWriteReqOp op resp

/-- `CCIXReq(req, dat)` (395-401) with `AddData` (629-640), for writes and
atomics. -/
def sendData (q : ChiReq) (d : Dat) : Option Msg := do
  let mt ← memType q
  let (data, be) ← copyData (isCompare q.opcode) mt q.addr.toNat q.len d
  let op ← dataOp q.opcode d.resp q.snoopMe
  return { attr := reqAttrs q op mt, write := true, addr := q.addr, data := data, be := be }

/-- The CHI data messages the port sends on (`ProcessDat` 3411-3456): copy-back
data (opcode 2) only if it passes dirty data on (`GetPassDirty`), other write
data always. -/
def forwards (d : Dat) : Bool :=
  if d.opcode = 2 then d.resp.getLsbD 2 else d.opcode = 3 ∨ d.opcode = 0xC

/-! ### Requests, receiving side -/

/-- `IsCCIXAtomic` (1119-1123). -/
def isCcixAtomic (op : BitVec 8) : Bool := 0x40 ≤ op.toNat ∧ op.toNat ≤ 0xE1

/-- `IsCCIXAtomicSnpMe` (1125-1129). -/
def isCcixSnpMe (op : BitVec 8) : Bool := 0xC0 ≤ op.toNat ∧ op.toNat ≤ 0xE1

/-- `IsAtomicCompare` (481-487). -/
def isCcixCompare (op : BitVec 8) : Bool := op = 0x61 ∨ op = 0xE1

/-- `toCHIAtomic` (1172-1195). -/
def toChiAtomic (op : BitVec 8) : Option (BitVec 8) :=
  let n := op.toNat
  if (0x40 ≤ n ∧ n < 0x50) ∨ (0xC0 ≤ n ∧ n < 0xD0) then some (0x28 ||| (op &&& 7))
  else if (0x50 ≤ n ∧ n < 0x60) ∨ (0xD0 ≤ n ∧ n < 0xE0) then some (0x30 ||| (op &&& 7))
  else if n = 0x60 ∨ n = 0xE0 then some 0x38
  else if n = 0x61 ∨ n = 0xE1 then some 0x39
  else none

/-- `toCHI` (1047-1117). -/
def toChi (op : BitVec 8) : Option (BitVec 8) :=
  match op.toNat with
  | 0x00 => some 0x04
  | 0x01 => some 0x03
  | 0x02 => some 0x24
  | 0x03 => some 0x25
  | 0x05 => some 0x02
  | 0x06 => some 0x26
  | 0x07 => some 0x01
  | 0x04 => some 0x07
  | 0x13 => some 0x0D
  | 0x14 => some 0x08
  | 0x15 => some 0x27
  | 0x16 => some 0x09
  | 0x17 => some 0x0A
  | 0x10 => some 0x0B
  | 0x11 => some 0x0C
  | 0x20 => some 0x1C
  | 0x21 => some 0x1D
  | 0x22 => some 0x18
  | 0x23 => some 0x19
  | 0x24 => some 0x1A
  | 0x25 => some 0x1B
  | 0x27 => some 0x1B
  | 0x2B => some 0x17
  | 0x2D => some 0x15
  | _ => if isCcixAtomic op then toChiAtomic op else none

/-- Reads that are acknowledged (`IsFullyCoherentRead` 1197-1210) and
`IsDataLessWithCompAck` (555-562). -/
def wantsAck (op : BitVec 8) : Bool :=
  op = 0x03 ∨ op = 0x24 ∨ op = 0x25 ∨ op = 0x02 ∨ op = 0x26 ∨ op = 0x01 ∨ op = 0x07 ∨ op = 0x0B ∨ op = 0x0C

/-- `GetCHISnpAttr` (1002-1045). -/
def chiSnpAttr (op : BitVec 8) : Bool :=
  op = 0x03 ∨ op = 0x24 ∨ op = 0x25 ∨ op = 0x02 ∨ op = 0x26 ∨ op = 0x01 ∨ op = 0x07 ∨ isDataLess op

/-- `ToCHIMemoryAttributes` (949-1000): device, early write acknowledge,
cacheable, allocate, order. -/
def chiMem (mt : Nat) : Option (Bool × Bool × Bool × Bool × BitVec 8) :=
  match mt with
  | 0 => some (true, false, false, false, 3)
  | 1 => some (true, true, false, false, 3)
  | 2 => some (true, true, false, false, 2)
  | 3 => some (false, true, false, false, 0)
  | 4 => some (false, true, true, false, 0)
  | 5 => some (false, true, true, true, 0)
  | _ => none

/-- `GetDatOpcode` (1212-1237). -/
def datOpcode (chiOp ccixOp : BitVec 8) : BitVec 8 :=
  if isCcixAtomic ccixOp then 3
  else if chiOp = 0x1C ∨ chiOp = 0x1D ∨ chiOp = 0x18 ∨ chiOp = 0x19 ∨ chiOp = 0x20 ∨ chiOp = 0x21 then 3
  else 2

/-- `toDatResp` (1346-1380). -/
def toDatResp (op : BitVec 8) : Option (BitVec 8) :=
  if isCcixAtomic op then some 0
  else match op.toNat with
    | 0x20 => some 0
    | 0x21 => some 0
    | 0x22 => some 0
    | 0x23 => some 0
    | 0x24 => some 6
    | 0x25 => some 6
    | 0x27 => some 7
    | 0x2B => some 7
    | 0x2D => some 2
    | _ => none

/-- `HasByteEnables` (886-901). -/
def hasByteEnables (op : BitVec 8) : Bool := op = 0x20 ∨ op = 0x22 ∨ op = 0x24

/-- Bytes into a 64-byte array (`deep_copy_from` in `ITxn`, 98-121), zero
elsewhere. -/
def line (data : List Byte) : List Byte := (data ++ List.replicate 64 0).take 64

/-- Byte enables into a 64-entry array, disabled elsewhere; a null pointer
(`[]`) leaves it alone. -/
def lineBe (be : List Bool) : List Bool := (be ++ List.replicate 64 false).take 64

/-- `GenerateCHIData` (1281-1344) for a request of `size` bytes: data and byte
enables of the data message, and the data length of the CHI request. -/
def genData (compare : Bool) (mt addr size : Nat) (src : List Byte) : Option (List Byte × List Bool × Nat) := do
  let (off, n) := window compare mt addr size
  let s ← if n < 8 then (if n = 0 then none else fetch src (smallOff compare addr n) n) else fetch src 0 n
  let data ← place (List.replicate 64 0) off s
  return (data, (List.range 64).map fun i => decide (off ≤ i ∧ i < off + n), n)

/-- `CCIXReq(gp, ccix)` (363-369) with `ccix2chi` (903-942) and `CreateDatGP`
(1239-1279): the CHI request and, for writes and atomics, the data message that
will answer its buffer response. A message without data has the receiver's
default length of 64 (`/repo/tlm-bridges/private/ccix/pkts.h` 262-289). -/
def receive (r : Msg) : Option (ChiReq × Option Dat) := do
  let op ← toChi r.attr.reqOp
  let mt := r.attr.reqAttr.toNat % 8
  let (device, ewa, cacheable, allocate, order) ← chiMem mt
  let n := if r.write then r.data.length else 64
  let q : ChiReq :=
    { opcode := op, addr := r.addr, len := n
      tgtID := r.attr.tgtID.setWidth 16, srcID := r.attr.srcID.setWidth 16, txnID := r.attr.txnID.setWidth 8
      nonSecure := r.attr.nonSecure, qos := r.attr.qos
      device := device, ewa := ewa, cacheable := cacheable, allocate := allocate, order := order
      snpAttr := if isCcixSnpMe r.attr.reqOp then true else chiSnpAttr op
      snoopMe := isCcixSnpMe r.attr.reqOp
      expCompAck := wantsAck op }
  if isWrite op ∨ isCcixAtomic r.attr.reqOp then
    let resp ← toDatResp r.attr.reqOp
    if n < 64 then
      let (data, be, n) ← genData (isCcixCompare r.attr.reqOp) mt r.addr.toNat (2 ^ (r.attr.reqAttr.toNat / 16 % 8))
        (line r.data)
      return ({ q with len := n }, some { data := data, be := be, opcode := datOpcode op r.attr.reqOp, resp := resp })
    else if n = 64 then
      return (q, some
        { data := line r.data
          be := if hasByteEnables r.attr.reqOp then lineBe r.be else List.replicate 64 true
          opcode := datOpcode op r.attr.reqOp, resp := resp })
    else none
  else return (q, none)

/-! ### Responses -/

/-- `SetResp` of responses (1657-1719): opcode and attribute of the CCIX response
for the response field of a CHI `CompData`. -/
def toResp (atomicNonStore : Bool) (resp : BitVec 8) : Option (BitVec 8 × BitVec 8) :=
  if atomicNonStore then some (1, 4)
  else match resp.toNat with
    | 0 => some (1, 4)
    | 2 => some (1, 4)
    | 1 => some (1, 6)
    | 6 => some (2, 5)
    | 7 => some (2, 7)
    | _ => none

/-- `GetCHIResp` (1770-1786). -/
def ofResp (op attr : BitVec 8) : Option (BitVec 8) :=
  if op = 1 ∧ attr = 4 then some 2
  else if op = 1 ∧ attr = 6 then some 1
  else if op = 2 ∧ attr = 5 then some 6
  else if op = 2 ∧ attr = 7 then some 7
  else none

/-- `GenerateCCIXData` (1578-1642): what the home's port sends of the line it got
for a request of `size` bytes; `datAddr` is the address in the payload of the CHI
data message. -/
def shrink (compare : Bool) (mt addr size datAddr : Nat) (d : List Byte) : Option (List Byte) :=
  let len := if compare then size / 2 else size
  if len = 0 then none
  else do
    let (off, n) := window compare mt addr len
    if n = 0 then none
    else do
      let w ← fetch d off n
      let at_ := if n < 8 then smallOff compare datAddr n else 0
      let b ← place (List.replicate 64 0) at_ w
      return b.take (if n < 8 then 8 else n)

/-- `GenerateCHIData` of a response (1474-1544): the line the requester's port
makes of the message; `rspAddr` is the address in the payload of the received
message. The window's offset is overwritten by the address (1517). -/
def expand (compare : Bool) (mt addr size rspAddr : Nat) (d : List Byte) : Option (List Byte × List Bool) :=
  let len := if compare then size / 2 else size
  if len = 0 then none
  else do
    let n := (window compare mt addr len).2
    let off := addr % 64
    if n = 0 then none
    else do
      let w ← fetch (line d) (if n < 8 then smallOff compare rspAddr n else 0) n
      let data ← place (List.replicate 64 0) off w
      return (data, (List.range 64).map fun i => decide (off ≤ i ∧ i < off + n))

/-! ### Snoops -/

/-- `toSnpOp` (1908-1948). -/
def toSnpOp (op : BitVec 8) : Option (BitVec 8) :=
  match op.toNat with
  | 0x03 => some 0
  | 0x02 => some 2
  | 0x01 => some 2
  | 0x04 => some 2
  | 0x07 => some 4
  | 0x09 => some 4
  | 0x08 => some 1
  | 0x0A => some 5
  | _ => none

/-- `toCHIOpcode` (1986-2020). The further cases of the switch are CHI opcodes
that all lead to the error too. -/
def ofSnpOp (op : BitVec 8) : Option (BitVec 8) :=
  match op.toNat with
  | 0 => some 0x03
  | 2 => some 0x01
  | 4 => some 0x07
  | 1 => some 0x08
  | 5 => some 0x0A
  | _ => none

/-- `GetDoNotGoToSD` of a snoop that arrived (1980-1984). -/
def snpNoSD (op : BitVec 8) : Bool := op = 0x08 ∨ op = 0x0A

/-- The answers to a snoop: CHI `SnpResp`, `SnpRespData`, `SnpRespDataPtl`, and
the acknowledgement that travels as one. -/
inductive SnpAns
  | resp (r : BitVec 8)
  | data (r : BitVec 8)
  | partialData (r : BitVec 8)
  | compAck
  deriving DecidableEq, Repr

/-- `SetResp` of snoop responses (2193-2320): opcode and attribute. -/
def toSnpResp : SnpAns → Option (BitVec 8 × BitVec 8)
  | .data r =>
    match r.toNat with
    | 0 => some (0, 0)
    | 1 => some (0, 6)
    | 2 => some (0, 4)
    | 3 => some (0, 7)
    | 4 => some (1, 0)
    | 6 => some (1, 4)
    | 5 => some (1, 6)
    | _ => none
  | .partialData r =>
    match r.toNat with
    | 4 => some (3, 0)
    | 2 => some (2, 5)
    | _ => none
  | .resp r =>
    match r.toNat with
    | 0 => some (4, 0)
    | 2 => some (4, 4)
    | 1 => some (4, 6)
    | _ => none
  | .compAck => some (6, 0)

/-- `ccix2chi` of snoop responses (2322-2453). -/
def ofSnpResp (op attr : BitVec 8) : Option SnpAns :=
  if op.toNat < 2 then
    if op.toNat < 1 then
      match attr.toNat with
      | 0 => some (.data 0)
      | 6 => some (.data 1)
      | 4 => some (.data 2)
      | 5 => some (.data 2)
      | 7 => some (.data 3)
      | _ => none
    else
      match attr.toNat with
      | 0 => some (.data 4)
      | 4 => some (.data 6)
      | 6 => some (.data 5)
      | _ => none
  else if op = 2 ∨ op = 3 then
    match attr.toNat with
    | 0 => some (.partialData 4)
    | 5 => some (.partialData 2)
    | _ => none
  else if op = 4 then
    match attr.toNat with
    | 0 => some (.resp 0)
    | 4 => some (.resp 2)
    | 6 => some (.resp 1)
    | _ => none
  else if op = 6 ∧ attr = 0 then some .compAck
  else none

end Verif.Ccix
