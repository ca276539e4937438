import Verif.Base.Bytes

/-!
CCIX messages as 32-bit words: `/repo/tlm-bridges/private/ccix/pkts.h`.

A failing `assert`, an `SC_REPORT_ERROR` (which throws by default), a read
outside the received packet, a write outside the message object and a loop that
does not end are all the outcome `none`.

Simplifications: a received packet is the list of its big-endian words rather
than bytes. `m_pos` is a multiple of four whenever a word is fetched
(`ParseByteEnables` rounds it up, 358) and packets are collected in units of
four bytes (`TLPAssembler::PushBack` 1724-1730), so positions are word indices.
-/
namespace Verif.Cxs

/-- `uint32_t`. -/
abbrev W := BitVec 32

/-- A field of a word: `GEN_FIELD_FUNCS(fname, shift, width)` (49-58). -/
structure Field where
  shift : Nat
  width : Nat
  deriving DecidableEq, Repr

/-- `bitops_mask64(0, width)` cut to 32 bits. -/
def Field.mask (f : Field) : W := BitVec.ofNat 32 (2 ^ f.width - 1)

/-- `get_<field>` (39-42, 50-53). -/
def Field.get (f : Field) (r : W) : W := (r >>> f.shift) &&& f.mask

/-- The value `set_<field>` returns (46, 57). -/
def Field.put (f : Field) (v : W) : W := (v &&& f.mask) <<< f.shift

/-- `set_<field>` (43-47, 54-58), with its assertion. -/
def Field.set (f : Field) (v : W) : Option W :=
  if v &&& ~~~f.mask = 0 then some (f.put v) else none

namespace F
-- common (543-545)
def ext : Field := ⟨31, 1⟩
def msgType : Field := ⟨27, 4⟩
def msgLen : Field := ⟨22, 5⟩
-- extensions (547-564)
def extType : Field := ⟨28, 3⟩
def addr63 : Field := ⟨20, 4⟩
def ext0Tgt : Field := ⟨14, 6⟩
def ext0Src : Field := ⟨8, 6⟩
def addr59 : Field := ⟨0, 8⟩
def addr5 : Field := ⟨0, 6⟩
def user : Field := ⟨0, 28⟩
def respErr : Field := ⟨24, 2⟩
def poison0 : Field := ⟨8, 8⟩
-- requests, responses and snoops (652-665, 853, 887-891, 996-1010)
def txnID : Field := ⟨10, 12⟩
def reqOp : Field := ⟨0, 8⟩
def reqAttr : Field := ⟨24, 8⟩
def addr51 : Field := ⟨0, 20⟩
def addr31 : Field := ⟨6, 26⟩
def ns : Field := ⟨4, 1⟩
def qos : Field := ⟨0, 4⟩
def reqAttrSize : Field := ⟨4, 3⟩
def respAttr : Field := ⟨4, 3⟩
def respOp : Field := ⟨0, 3⟩
def snpCast : Field := ⟨5, 2⟩
def dataRet : Field := ⟨4, 1⟩
def snpOp : Field := ⟨0, 4⟩
-- credit exchange (1100-1108), NOP (1164-1166), credited misc (1210-1213)
def miscOp : Field := ⟨16, 4⟩
def dataCredit : Field := ⟨8, 8⟩
def reqCredit : Field := ⟨0, 8⟩
def miscCredit : Field := ⟨8, 8⟩
def snpCredit : Field := ⟨0, 8⟩
def miscCredit3 : Field := ⟨19, 3⟩
def payload0 : Field := ⟨8, 8⟩
def payload1 : Field := ⟨0, 8⟩
-- TLP headers (76-83, 138-174)
def hMsgCredit : Field := ⟨24, 6⟩
def hTgtID : Field := ⟨14, 6⟩
def hSrcID : Field := ⟨8, 6⟩
def hTc : Field := ⟨20, 3⟩
def oType : Field := ⟨30, 1⟩
def oLength : Field := ⟨0, 7⟩
def cFmt : Field := ⟨29, 3⟩
def cType : Field := ⟨24, 5⟩
def cLength : Field := ⟨0, 10⟩
def cMsgCode : Field := ⟨0, 8⟩
end F

/-- Message types (`/repo/tlm-bridges/ccix.h` 31-40). -/
def tReq : BitVec 8 := 0x1
def tSnpReq : BitVec 8 := 0x2
def tMiscCredited : BitVec 8 := 0x3
def tResp : BitVec 8 := 0x9
def tSnpResp : BitVec 8 := 0xA
def tMiscUnCredited : BitVec 8 := 0xB

/-- Request opcodes used in decisions (`ccix.h` 66-111, 135-146). -/
def opReqChain : BitVec 8 := 0xF0
def opSnpChain : BitVec 8 := 0x7

/-- `ccixattr_extension` (`/repo/tlm-extensions/ccixattr.h` 132-167). The unused
`Ext` flag is left out. -/
structure Attr where
  tgtID : BitVec 8 := 0
  srcID : BitVec 8 := 0
  msgLen : BitVec 8 := 0
  msgCredit : BitVec 8 := 0
  msgType : BitVec 8 := 0
  qos : BitVec 8 := 0
  txnID : BitVec 16 := 0
  reqOp : BitVec 8 := 0
  nonSecure : Bool := true
  reqAttr : BitVec 8 := 0
  snpCast : BitVec 8 := 0
  dataRet : Bool := false
  snpOp : BitVec 8 := 0
  respOp : BitVec 8 := 0
  respAttr : BitVec 8 := 0
  miscOp : BitVec 8 := 0
  dataCredit : W := 0
  reqCredit : W := 0
  miscCredit : W := 0
  snpCredit : W := 0
  payload : List Byte := List.replicate 32 0
  payloadSz : Nat := 0
  user : W := 0
  respErr : BitVec 8 := 0
  poison0 : BitVec 8 := 0
  poison1 : BitVec 8 := 0
  deriving DecidableEq, Repr

/-- A message: the attributes and what matters of the generic payload. `be` is
the byte enable array, `[]` standing for the null pointer; each entry says
whether it equals `TLM_BYTE_ENABLED`. -/
structure Msg where
  attr : Attr
  write : Bool
  addr : BitVec 64
  data : List Byte
  be : List Bool
  deriving DecidableEq, Repr

/-! ### Generating -/

/-- Four bytes into a word, first byte on top (530-536, 615-625). -/
def word4 (a b c d : Byte) : W :=
  (a.setWidth 32 <<< 24) ||| (b.setWidth 32 <<< 16) ||| (c.setWidth 32 <<< 8) ||| d.setWidth 32

/-- `PlaceData` (519-541); a length that is not a multiple of four makes `len`
wrap and the loop run off the buffer. -/
def placeData : List Byte → Option (List W)
  | [] => some []
  | a :: b :: c :: d :: rest => (placeData rest).map (word4 a b c d :: ·)
  | _ => none

/-- A word from its bits: `val |= 1 << bit`, `BE_u32 |= val << shift`
(451-475). -/
def bitsWord (g : Nat → Bool) : W :=
  (List.range 32).foldl (fun w i => if g i then w ||| (1#32 <<< i) else w) 0

/-- Position in a word of enable number `i` of 32: eight per byte, first byte on
top, first enable in bit 0 of its byte (451-475; 330-352). -/
def beIndex (i : Nat) : Nat := 24 - 8 * (i / 8) + i % 8

/-- The enable a bit position of a word belongs to. -/
def beOfBit (k : Nat) : Nat := 8 * (3 - k / 8) + k % 8

/-- `PlaceBE` (436-517): one word per 32 bytes of data. With enables, bits
beyond the length are 0 (460). Without, whole bytes are set until the position
is exactly the length (496-511). -/
def placeBE (be : List Bool) (len : Nat) : List W :=
  (List.range ((len + 31) / 32)).map fun k =>
    if be = [] then
      bitsWord fun b => if len % 8 = 0 then 32 * k + beOfBit b < len else true
    else
      bitsWord fun b =>
        let i := 32 * k + beOfBit b
        i < len && be.getD (i % be.length) false

/-- `HasByteEnables` of requests (829-843). -/
def hasByteEnables (op : BitVec 8) : Bool := op = 0x20 ∨ op = 0x22 ∨ op = 0x24

/-- `IsWrite` (371-388). -/
def isWriteOp (op : BitVec 8) : Bool :=
  op = 0x20 ∨ op = 0x21 ∨ op = 0x22 ∨ op = 0x23 ∨ op = 0x24 ∨ op = 0x25 ∨ op = 0x27 ∨ op = 0x2B ∨
    op = 0x2D

/-- `IsAtomic` (390-394). -/
def isAtomicOp (op : BitVec 8) : Bool := 0x40 ≤ op.toNat ∧ op.toNat ≤ 0xE1

/-- `ExtType1Allowed` (746-767). -/
def extType1Allowed (op : BitVec 8) : Bool := op = 0x00 ∨ op = 0x20 ∨ op = 0x22 ∨ isAtomicOp op

def boolW (b : Bool) : W := if b then 1 else 0

/-- `m_hdr[0] = m_hdr[0] | set_MsgLen(m_hdr.size())` (728). -/
def setLen (h : W) (rest : List W) : Option (List W) := do
  let l ← F.msgLen.set (BitVec.ofNat 32 (rest.length + 1))
  return (h ||| l) :: rest

/-- Bits 63..32 of the address as the field functions get them (`addr >> 32`). -/
def addrHi (a : BitVec 64) : W := (a >>> 32).setWidth 32

/-- `ExtType0_required` (674-675, 1019-1020). -/
def ext0Required (a : BitVec 64) : Bool := F.addr63.get (addrHi a) != 0 || F.addr59.get (addrHi a) != 0

/-- `ExtType1_required` (676). -/
def ext1Required (a : BitVec 64) : Bool := F.addr5.get (a.setWidth 32) != 0

/-- First header word without the length (680-685). -/
def reqHead (m : Msg) : Option W := do
  let e ← F.ext.set (boolW (ext0Required m.addr || ext1Required m.addr))
  let t ← F.msgType.set (m.attr.msgType.setWidth 32)
  let x ← F.txnID.set (m.attr.txnID.setWidth 32)
  let o ← F.reqOp.set (m.attr.reqOp.setWidth 32)
  return e ||| t ||| x ||| o

/-- The extension with address bits 63 to 52 (690-695, 1033-1037). -/
def ext0Words (more : Bool) (a : BitVec 64) : Option (List W) :=
  if ext0Required a then do
    let e ← F.ext.set (boolW more)
    let t ← F.extType.set 0
    let x ← F.addr63.set (addrHi a)
    let y ← F.addr59.set (addrHi a)
    return [e ||| t ||| x ||| y]
  else some []

/-- The extension with address bits 5 to 0 (700-706). -/
def ext1Words (op : BitVec 8) (a : BitVec 64) : Option (List W) :=
  if ext1Required a then
    if extType1Allowed op then do
      let t ← F.extType.set 1
      let x ← F.addr5.set (a.setWidth 32 &&& F.addr5.mask)
      return [t ||| x]
    else none
  else some []

/-- Attribute and address words (708-715). -/
def reqAddrWords (m : Msg) : Option (List W) := do
  let r ← F.reqAttr.set (m.attr.reqAttr.setWidth 32)
  let y ← F.addr51.set (addrHi m.addr)
  let x ← F.addr31.set ((m.addr >>> 6).setWidth 32)
  let n ← F.ns.set (boolW m.attr.nonSecure)
  let q ← F.qos.set (m.attr.qos.setWidth 32)
  return [r ||| y, x ||| n ||| q]

/-- Byte enables and data of a message that carries data (720-725, 907-916). -/
def bodyWords (withBE : Bool) (m : Msg) : Option (List W) :=
  if m.write then
    (placeData m.data).map ((if withBE then placeBE m.be m.data.length else []) ++ ·)
  else some []

/-- `MsgReq(gp)` (670-729). -/
def encodeReq (m : Msg) : Option (List W) := do
  let h ← reqHead m
  let w0 ← ext0Words (ext1Required m.addr) m.addr
  let w1 ← ext1Words m.attr.reqOp m.addr
  let w2 ← reqAddrWords m
  let body ← bodyWords (hasByteEnables m.attr.reqOp) m
  setLen h (w0 ++ w1 ++ w2 ++ body)

/-- `IsSnpRespDataPtl` (938-946). -/
def isSnpRespDataPtl (a : Attr) : Bool := a.msgType = tSnpResp && (a.respOp = 2 || a.respOp = 3)

/-- Header word of a response without the length (900-907). -/
def rspHead (m : Msg) : Option W := do
  let t ← F.msgType.set (m.attr.msgType.setWidth 32)
  let x ← F.txnID.set (m.attr.txnID.setWidth 32)
  let r ← F.respAttr.set (m.attr.respAttr.setWidth 32)
  let o ← F.respOp.set (m.attr.respOp.setWidth 32)
  return t ||| x ||| r ||| o

/-- `MsgRsp(gp)` (896-920). -/
def encodeRsp (m : Msg) : Option (List W) := do
  let h ← rspHead m
  let body ← bodyWords (isSnpRespDataPtl m.attr) m
  setLen h body

/-- First header word of a snoop request without the length (1022-1029). -/
def snpHead (m : Msg) : Option W := do
  let e ← F.ext.set (boolW (ext0Required m.addr))
  let t ← F.msgType.set (m.attr.msgType.setWidth 32)
  let x ← F.txnID.set (m.attr.txnID.setWidth 32)
  let c ← F.snpCast.set (m.attr.snpCast.setWidth 32)
  let d ← F.dataRet.set (boolW m.attr.dataRet)
  let o ← F.snpOp.set (m.attr.snpOp.setWidth 32)
  return e ||| t ||| x ||| c ||| d ||| o

/-- Address words of a snoop request, with the assertion of alignment
(1042-1050). -/
def snpAddrWords (m : Msg) : Option (List W) :=
  if ext1Required m.addr then none else do
    let y ← F.addr51.set (addrHi m.addr)
    let x ← F.addr31.set ((m.addr >>> 6).setWidth 32)
    let n ← F.ns.set (boolW m.attr.nonSecure)
    return [y, x ||| n]

/-- `MsgSnpReq(gp)` (1015-1054). -/
def encodeSnp (m : Msg) : Option (List W) := do
  let h ← snpHead m
  let w0 ← ext0Words false m.addr
  let w2 ← snpAddrWords m
  setLen h (w0 ++ w2)

/-- `MsgCrdEx(gp)` (1113-1131). -/
def encodeCrd (m : Msg) : Option (List W) := do
  let a := m.attr
  let h ← do
    let t ← F.msgType.set (a.msgType.setWidth 32)
    let o ← F.miscOp.set (a.miscOp.setWidth 32)
    let d ← F.dataCredit.set a.dataCredit
    let r ← F.reqCredit.set a.reqCredit
    pure (t ||| o ||| d ||| r)
  let w1 ← do
    let c ← F.miscCredit.set a.miscCredit
    let s ← F.snpCredit.set a.snpCredit
    pure (c ||| s)
  setLen h [w1]

/-- `MsgNOP(gp)` (1171-1183). -/
def encodeNop (m : Msg) : Option (List W) := do
  let t ← F.msgType.set (m.attr.msgType.setWidth 32)
  let o ← F.miscOp.set (m.attr.miscOp.setWidth 32)
  setLen (t ||| o) []

/-- `PlacePayload` (1289-1318): the last word is filled with zeros. -/
def placePayload : List Byte → List W
  | a :: b :: c :: d :: rest => word4 a b c d :: placePayload rest
  | [] => []
  | [a] => [word4 a 0 0 0]
  | [a, b] => [word4 a b 0 0]
  | [a, b, c] => [word4 a b c 0]

/-- `MsgMiscCredited(gp)` (1218-1249). A size above 32 reads outside the
attribute object. -/
def encodeMisc (m : Msg) : Option (List W) := do
  let a := m.attr
  let t ← F.msgType.set (a.msgType.setWidth 32)
  let c ← F.miscCredit3.set a.miscCredit
  let o ← F.miscOp.set (a.miscOp.setWidth 32)
  if a.payloadSz ≤ 32 then
    let h := t ||| c ||| o
    let h := if 0 < a.payloadSz then
        h ||| ((a.payload.getD 0 0).setWidth 32 <<< 8) ||| (a.payload.getD 1 0).setWidth 32
      else h
    setLen h (placePayload ((a.payload.take a.payloadSz).drop 2))
  else none

/-- `TLPFactory::Create` (1954-1996): choice of the message class; without a
class `b_transport_txlink` asserts. -/
def encode (m : Msg) : Option (List W) :=
  if m.attr.msgType = tReq then encodeReq m
  else if m.attr.msgType = tSnpReq then encodeSnp m
  else if m.attr.msgType = tResp ∨ m.attr.msgType = tSnpResp then encodeRsp m
  else if m.attr.msgType = tMiscUnCredited then
    if m.attr.miscOp = 0 then encodeNop m
    else if m.attr.miscOp = 1 ∨ m.attr.miscOp = 2 then encodeCrd m
    else none
  else if m.attr.msgType = tMiscCredited then encodeMisc m
  else none

/-- The two TLP header formats. -/
inductive Hdr where
  | opt | comp
  deriving DecidableEq, Repr

/-- `TLPHdr_Size` in words (67, 121). -/
def Hdr.size : Hdr → Nat
  | .opt => 1
  | .comp => 4

/-- Fields of the header word with the identifiers (90, 95-96; 213-218). -/
def idWord (a : Attr) : Option W := do
  let c ← F.hMsgCredit.set (a.msgCredit.setWidth 32)
  let t ← F.hTgtID.set (a.tgtID.setWidth 32)
  let s ← F.hSrcID.set (a.srcID.setWidth 32)
  return c ||| t ||| s

/-- `TLPHdr_opt(gp, attr, len)` (85-100) and `TLPHdr_comp(gp, attr, len)`
(176-219). -/
def Hdr.words (k : Hdr) (a : Attr) (len : Nat) : Option (List W) := do
  match k with
  | .opt =>
    let i ← idWord a
    let l ← F.oLength.set (BitVec.ofNat 32 len)
    return [F.oType.put 1 ||| F.hTc.put 7 ||| i ||| l]
  | .comp =>
    let l ← F.cLength.set (BitVec.ofNat 32 len)
    let i ← idWord a
    return [F.cFmt.put 3 ||| F.cType.put 0x12 ||| F.hTc.put 7 ||| l, F.cMsgCode.put 0x7F, 0, i]

/-- The words of the packet of a message (`TLP(IMsg*)` 1480-1499). -/
def tlpWords (k : Hdr) (m : Msg) : Option (List W) := do
  let ws ← encode m
  let h ← k.words m.attr ws.length
  return h ++ ws

/-- `TLP::PushBack` (1642-1656): a word as bytes, top byte first. -/
def wordBytes (w : W) : List Byte :=
  [(w >>> 24).setWidth 8, (w >>> 16).setWidth 8, (w >>> 8).setWidth 8, w.setWidth 8]

def wordsBytes (ws : List W) : List Byte := ws.flatMap wordBytes

/-- `m_tlp` of the packet of a message. -/
def tlpBytes (k : Hdr) (m : Msg) : Option (List Byte) := (tlpWords k m).map wordsBytes

/-! ### Parsing -/

/-- Bytes as big-endian words (`get_next_uint32` 615-625, `toMsgHdr`
1919-1923). -/
def beWords : List Byte → List W
  | a :: b :: c :: d :: rest => word4 a b c d :: beWords rest
  | _ => []

/-- `ExtractExtension` (566-610). `Poison1` gets the `Poison0` field (604). -/
def extractExt (w : W) (m : Msg) : Msg :=
  let t := F.extType.get w
  if t = 0 then
    { m with
      addr := m.addr ||| ((F.addr63.get w).setWidth 64 <<< 60) ||| ((F.addr59.get w).setWidth 64 <<< 52)
      attr := { m.attr with tgtID := (F.ext0Tgt.get w).setWidth 8, srcID := (F.ext0Src.get w).setWidth 8 } }
  else if t = 1 then
    { m with addr := m.addr ||| (F.addr5.get w).setWidth 64 }
  else if t = 2 then
    { m with attr := { m.attr with user := F.user.get w } }
  else if t = 6 then
    { m with attr := { m.attr with
        respErr := (F.respErr.get w).setWidth 8
        poison0 := (F.poison0.get w).setWidth 8
        poison1 := (F.poison0.get w).setWidth 8 } }
  else m

/-- `ExtractExtensions` (423-434) without the final advance: last header word,
message, words left. -/
def extensions : W → Msg → List W → Option (W × Msg × List W)
  | h, m, [] => if F.ext.get h = 0 then some (h, m, []) else none
  | h, m, w :: ws => if F.ext.get h = 0 then some (h, m, w :: ws) else extensions w (extractExt w m) ws

/-- Enable number `i` from the words at the parse position (330-352). -/
def beBit (ws : List W) (i : Nat) : Bool := (ws.getD (i / 32) 0).getLsbD (beIndex (i % 32))

/-- Words `ParseByteEnables` moves over (337-340, 358): `n/8 - 1` bytes, rounded
up. -/
def beAdvance (n : Nat) : Nat := (n / 8 - 1 + 3) / 4

/-- `ParseByteEnables` (325-369): the array always has 64 entries. -/
def parseBE (ws : List W) (n : Nat) : Option (List Bool × List W) :=
  if n ≤ 64 ∧ (n + 31) / 32 ≤ ws.length then
    some ((List.range 64).map fun i => decide (i < n) && beBit ws i, ws.drop (beAdvance n))
  else none

/-- `GetTailSize` (396-401) in words: message length less the words consumed.
`none` when it wraps: the callers then copy outside the message object. -/
def tailSize (m : Msg) (total : Nat) (ws : List W) : Option Nat :=
  if total - ws.length ≤ m.attr.msgLen.toNat then some (m.attr.msgLen.toNat - (total - ws.length)) else none

/-- `ParseData` (403-418) of `n` words; the buffer takes 64 bytes. -/
def parseData (m : Msg) (ws : List W) (n : Nat) : Option Msg :=
  if n ≤ 16 ∧ n ≤ ws.length then some { m with data := wordsBytes (ws.take n), write := true } else none

/-- `get_size` of requests (859-880); 128 bytes are refused. -/
def reqSize (a : Attr) : Option Nat :=
  let s := (F.reqAttrSize.get (a.reqAttr.setWidth 32)).toNat
  if s = 7 then none else some (if s = 6 then 64 else if s = 5 then 32 else if s = 4 then 16 else 8)

/-- The base constructor of a received message (262-289). The payload starts as
64 zero bytes, address 0, no command, no enables. -/
def rxMsg (h : W) (tgt src credit : BitVec 8) : Msg :=
  { attr := { tgtID := tgt, srcID := src, msgCredit := credit,
              msgType := (F.msgType.get h).setWidth 8, msgLen := (F.msgLen.get h).setWidth 8 }
    write := false, addr := 0, data := List.replicate 64 0, be := [] }

/-- The two words with attributes and address (784-794). The first of them has
been fetched even for a chained request, which has neither (`ExtractExtensions`
advances, 431-433). -/
def reqAddr (m : Msg) : List W → Option (Msg × List W)
  | [] => none
  | w2 :: ws =>
    if m.attr.reqOp = opReqChain then some (m, ws) else
    match ws with
    | [] => none
    | w3 :: ws => some
      ({ m with
          addr := m.addr ||| ((F.addr51.get w2).setWidth 64 <<< 32) ||| ((F.addr31.get w3).setWidth 64 <<< 6)
          attr := { m.attr with
            reqAttr := (F.reqAttr.get w2).setWidth 8
            nonSecure := F.ns.get w3 != 0
            qos := (F.qos.get w3).setWidth 8 } }, ws)

/-- The byte enables of a request (799-808). -/
def reqBE (m : Msg) (total : Nat) (ws : List W) : Option (Msg × List W) := do
  let chain : Bool := m.attr.reqOp = opReqChain
  let t ← if chain then tailSize m total ws else pure 0
  if hasByteEnables m.attr.reqOp || (chain && decide (16 < t)) then
    let n ← if chain then pure 64 else reqSize m.attr
    let r ← parseBE ws n
    return ({ m with be := r.1 }, r.2)
  else return (m, ws)

/-- The data of a request (810-822). -/
def reqData (m : Msg) (total : Nat) (ws : List W) : Option Msg := do
  let t ← tailSize m total ws
  if t = 0 then return m
  else if isWriteOp m.attr.reqOp || isAtomicOp m.attr.reqOp || m.attr.reqOp = opReqChain then
    parseData m ws t
  else none

/-- `MsgReq::ExtractMessage` (769-823). -/
def decodeReq (h : W) (ws : List W) (total : Nat) (m : Msg) : Option Msg := do
  let m := { m with attr := { m.attr with txnID := (F.txnID.get h).setWidth 16, reqOp := (F.reqOp.get h).setWidth 8 } }
  let (_, m, ws) ← extensions h m ws
  let (m, ws) ← reqAddr m ws
  let (m, ws) ← reqBE m total ws
  reqData m total ws

/-- `MsgRsp::ExtractMessage` (948-988). -/
def decodeRsp (h : W) (ws : List W) (total : Nat) (m : Msg) : Option Msg := do
  let m := { m with attr := { m.attr with
    txnID := (F.txnID.get h).setWidth 16
    respAttr := (F.respAttr.get h).setWidth 8
    respOp := (F.respOp.get h).setWidth 8 } }
  let (_, m, ws) ← extensions h m ws
  let t ← tailSize m total ws
  let (m, ws) ← if 16 < t then do
      let r ← parseBE ws 64
      pure ({ m with be := r.1 }, r.2)
    else pure (m, ws)
  let t ← tailSize m total ws
  if t = 0 then pure m else parseData m ws t

/-- The address words of a snoop request (1081-1091); the first has been fetched
even for a chained one. -/
def snpAddr (m : Msg) : List W → Option Msg
  | [] => none
  | w2 :: ws =>
    if m.attr.snpOp = opSnpChain then some m else
    match ws with
    | [] => none
    | w3 :: _ => some
      { m with
        addr := m.addr ||| ((F.addr51.get w2).setWidth 64 <<< 32) ||| ((F.addr31.get w3).setWidth 64 <<< 6)
        attr := { m.attr with nonSecure := F.ns.get w3 != 0 } }

/-- `MsgSnpReq::ExtractMessage` (1067-1092). The snoop cast is not read. -/
def decodeSnp (h : W) (ws : List W) (m : Msg) : Option Msg := do
  let m := { m with attr := { m.attr with
    txnID := (F.txnID.get h).setWidth 16
    dataRet := F.dataRet.get h != 0
    snpOp := (F.snpOp.get h).setWidth 8 } }
  let (_, m, ws) ← extensions h m ws
  snpAddr m ws

/-- `MsgCrdEx::ExtractMessage` (1144-1157). -/
def decodeCrd (h : W) (ws : List W) (m : Msg) : Option Msg :=
  match ws with
  | [] => none
  | w1 :: _ => some { m with attr := { m.attr with
      miscOp := (F.miscOp.get h).setWidth 8
      dataCredit := F.dataCredit.get h
      reqCredit := F.reqCredit.get h
      miscCredit := F.miscCredit.get w1
      snpCredit := F.snpCredit.get w1 } }

/-- `MsgNOP::ExtractMessage` (1196-1203). -/
def decodeNop (h : W) (m : Msg) : Option Msg :=
  some { m with attr := { m.attr with miscOp := (F.miscOp.get h).setWidth 8 } }

/-- `MsgMiscCredited::ExtractMessage` (1262-1287). The payload array has 32
bytes, two of which are in the header word; the payload size is not set. -/
def decodeMisc (h : W) (ws : List W) (total : Nat) (m : Msg) : Option Msg := do
  let m := { m with attr := { m.attr with
    miscCredit := F.miscCredit3.get h
    miscOp := (F.miscOp.get h).setWidth 8 } }
  let t ← tailSize m total ws
  if 4 * t ≤ 30 ∧ t ≤ ws.length then
    let tail := wordsBytes (ws.take t)
    return { m with attr := { m.attr with
      payload := (F.payload0.get h).setWidth 8 :: (F.payload1.get h).setWidth 8 ::
        (tail ++ List.replicate (30 - tail.length) 0) } }
  else none

/-- `ExtractCCIXMessage` (1783-1848). The `MiscOp` looked at has three bits
(1850-1855). -/
def decode (ws : List W) (tgt src credit : BitVec 8) : Option Msg :=
  match ws with
  | [] => none
  | h :: rest =>
    let m := rxMsg h tgt src credit
    let n := ws.length
    let t := m.attr.msgType
    if t = tReq then decodeReq h rest n m
    else if t = tSnpReq then decodeSnp h rest m
    else if t = tResp ∨ t = tSnpResp then decodeRsp h rest n m
    else if t = tMiscUnCredited then
      let op := (h >>> 16) &&& 7
      if op = 0 then decodeNop h m
      else if op = 1 ∨ op = 2 then decodeCrd h rest m
      else none
    else if t = tMiscCredited then decodeMisc h rest n m
    else none

/-- `LookupPrev`, `SetupReqChain` and `SetupSnpReqChain` (1858-1917): a chained
request takes over the attributes of the latest request that is still waiting,
and the next cache line. -/
def chainUp (m : Msg) (msgs : List Msg) : Option Msg :=
  let chained (t : BitVec 8) : Option Msg :=
    match msgs.reverse.find? fun p => p.attr.msgType = t with
    | none => none
    | some p => some { m with write := p.write, addr := p.addr + 64, attr := p.attr }
  if m.attr.msgType = tReq ∧ m.attr.reqOp = opReqChain then chained tReq
  else if m.attr.msgType = tSnpReq ∧ m.attr.snpOp = opSnpChain then chained tSnpReq
  else some m

/-- `ExtractCCIXMessages` (1732-1769) after the header; `msgs` is `m_ccixMsgs`,
`skip` the words left of the message just taken. A message length of 0 does not
advance: the loop does not end. -/
def extractMsgs (tgt src : BitVec 8) : BitVec 8 → List W → Nat → List Msg → Option (List Msg)
  | _, [], _, msgs => some msgs
  | credit, _ :: rest, skip + 1, msgs => extractMsgs tgt src credit rest skip msgs
  | credit, w :: rest, 0, msgs =>
    match (decode (w :: rest) tgt src credit).bind fun m => chainUp m msgs with
    | none => none
    | some m =>
      if m.attr.msgLen = 0 then none
      else extractMsgs tgt src 0 rest (m.attr.msgLen.toNat - 1) (msgs ++ [m])

/-- `ExtractTLPHeader` (1772-1781). -/
def Hdr.parse (k : Hdr) (ws : List W) : Option (BitVec 8 × BitVec 8 × BitVec 8) :=
  if k.size ≤ ws.length then
    let w := ws.getD (k.size - 1) 0
    some ((F.hTgtID.get w).setWidth 8, (F.hSrcID.get w).setWidth 8, (F.hMsgCredit.get w).setWidth 8)
  else none

/-- `ExtractCCIXMessages` on the bytes of a packet. -/
def extract (k : Hdr) (bytes : List Byte) (msgs : List Msg) : Option (List Msg) := do
  let ws := beWords bytes
  let (t, s, c) ← k.parse ws
  extractMsgs t s c (ws.drop k.size) 0 msgs

end Verif.Cxs
