import Verif.Base.Bytes

/-!
# Remote-port wire protocol: packet encoders and decoders

Models `/repo/libremote-port/remote-port-proto.h` and `remote-port-proto.c`.

A packet on the wire is a `List Byte`.  The encoders return the bytes the C
encoder writes into its (packed) packet structure; the decoders read a complete
packet (`hdr.len + 20` bytes, as `rp_process` reads it) at the fixed structure
offsets.  `none` is the outcome "an `assert` fails or the C code reads outside
the received packet".  The in-place byte swapping of the C decoder is modelled
as a pure function from the received bytes to decoded values; the host is taken
to be little endian.
-/

namespace Verif.RP
open Verif

abbrev U8 := BitVec 8
abbrev U16 := BitVec 16
abbrev U32 := BitVec 32
abbrev U64 := BitVec 64

/-! ## Constants (`remote-port-proto.h` 64-177) -/

/-- `enum rp_cmd` (`remote-port-proto.h` 64-75). -/
def cmdNop : U32 := 0
def cmdHello : U32 := 1
def cmdCfg : U32 := 2
def cmdRead : U32 := 3
def cmdWrite : U32 := 4
def cmdInterrupt : U32 := 5
def cmdSync : U32 := 6
def cmdAtsReq : U32 := 7
def cmdAtsInv : U32 := 8

/-- `RP_PKT_FLAGS_*` (`remote-port-proto.h` 85-97). -/
def flagOptional : U32 := 1
def flagResponse : U32 := 2
def flagPosted : U32 := 4

/-- `RP_BUS_ATTR_EXT_BASE` (`remote-port-proto.h` 158-162). -/
def attrExtBase : U64 := 4

def isResponse (flags : U32) : Bool := flags &&& flagResponse != 0
def isPosted (flags : U32) : Bool := flags &&& flagPosted != 0
def hasExtBase (attr : U64) : Bool := attr &&& attrExtBase != 0

/-! ## Field access -/

/-- Reading a big-endian field at a structure offset. -/
def rd8 (off : Nat) (b : List Byte) : Option U8 := (slice off 1 b).map fun s => BitVec.ofNat 8 (beDec s)
def rd16 (off : Nat) (b : List Byte) : Option U16 := (slice off 2 b).map fun s => BitVec.ofNat 16 (beDec s)
def rd32 (off : Nat) (b : List Byte) : Option U32 := (slice off 4 b).map fun s => BitVec.ofNat 32 (beDec s)
def rd64 (off : Nat) (b : List Byte) : Option U64 := (slice off 8 b).map fun s => BitVec.ofNat 64 (beDec s)
/-- Reading a 64-bit field *without* byte swapping on a little-endian host. -/
def rd64raw (off : Nat) (b : List Byte) : Option U64 :=
  (slice off 8 b).map fun s => BitVec.ofNat 64 (leDec s)

def w8 (x : U8) : List Byte := beEnc 1 x.toNat
def w16 (x : U16) : List Byte := beEnc 2 x.toNat
def w32 (x : U32) : List Byte := beEnc 4 x.toNat
def w64 (x : U64) : List Byte := beEnc 8 x.toNat

/-! ## Header -/

/-- `struct rp_pkt_hdr` (`remote-port-proto.h` 99-105); 20 bytes. -/
structure Hdr where
  cmd : U32
  len : U32
  id : U32
  flags : U32
  dev : U32
  deriving DecidableEq, Repr

/-- `rp_encode_hdr` (`remote-port-proto.c` 215-223). -/
def encHdr (h : Hdr) : List Byte := w32 h.cmd ++ w32 h.len ++ w32 h.id ++ w32 h.flags ++ w32 h.dev

/-- `rp_decode_hdr` (`remote-port-proto.c` 110-121). -/
def decHdr (b : List Byte) : Option Hdr := do
  let cmd ← rd32 0 b
  let len ← rd32 4 b
  let id ← rd32 8 b
  let flags ← rd32 12 b
  let dev ← rd32 16 b
  return { cmd, len, id, flags, dev }

/-! ## Encoders -/

/-- `rp_encode_hello_caps` (`remote-port-proto.c` 225-249) followed by the
capability array, as `rp_say_hello` writes them
(`remote-port-tlm.cc` 458-473): 32 header bytes then 4 bytes per capability.
`reserved` is the uninitialised/zeroed 16-bit field, zero in `rp_say_hello`. -/
def encHello (id dev : U32) (major minor : U16) (caps : List U32) : List Byte :=
  encHdr { cmd := cmdHello, len := BitVec.ofNat 32 (12 + 4 * caps.length), id, flags := 0, dev }
    ++ w16 major ++ w16 minor ++ w32 32 ++ w16 (BitVec.ofNat 16 caps.length) ++ w16 0
    ++ (caps.map w32).flatten

/-- `struct rp_peer_state` capabilities (`remote-port-proto.h` 295-308). -/
structure Caps where
  extBase : Bool := false
  extByteEn : Bool := false
  wirePosted : Bool := false
  ats : Bool := false
  deriving DecidableEq, Repr

/-- `struct rp_encode_busaccess_in` (`remote-port-proto.h` 432-448). -/
structure BusIn where
  cmd : U32
  id : U32
  flags : U32
  dev : U32
  clk : U64
  masterId : U64
  addr : U64
  attr : U64
  size : U32
  width : U32
  streamWidth : U32
  beLen : U32
  deriving DecidableEq, Repr

/-- Number of data bytes that follow the header
(`remote-port-proto.c` 325-333, `hsize`). -/
def busHsize (i : BusIn) : U32 :=
  if i.cmd = cmdWrite ∧ ¬ isResponse i.flags then i.size
  else if i.cmd = cmdRead ∧ isResponse i.flags then i.size
  else 0

/-- `ret_size` (`remote-port-proto.c` 329-332): data bytes that are part of the
same linear buffer as the header. -/
def busRetSize (i : BusIn) : U32 :=
  if i.cmd = cmdRead ∧ isResponse i.flags then i.size else 0

/-- `rp_encode_busaccess_common` (`remote-port-proto.c` 251-263): bytes 20-57. -/
def encBusCommon (clk : U64) (masterId : U16) (addr attr : U64) (size width sw : U32) : List Byte :=
  w64 clk ++ w64 attr ++ w64 addr ++ w32 size ++ w32 width ++ w32 sw ++ w16 masterId

/-- Whether `rp_encode_busaccess` uses the extended layout
(`remote-port-proto.c` 339). -/
def usesExt (c : Caps) (i : BusIn) : Bool := c.extBase || hasExtBase i.attr

/-- `rp_encode_busaccess` (`remote-port-proto.c` 318-369): header bytes (58 or
80) and the returned size.  `none`: the `assert(master_id < UINT16_MAX)` of the
old layout.  All 32-bit size arithmetic is modular. -/
def encBus (c : Caps) (i : BusIn) : Option (List Byte × Nat) :=
  let hsize := busHsize i
  if usesExt c i then
    let hsize' := hsize + i.beLen
    some (encHdr { cmd := i.cmd, len := BitVec.ofNat 32 (60 + hsize'.toNat), id := i.id,
                   flags := i.flags, dev := i.dev }
      ++ encBusCommon i.clk (i.masterId.truncate 16) i.addr (i.attr ||| attrExtBase) i.size i.width
           i.streamWidth
      ++ w16 ((i.masterId >>> 16).truncate 16) ++ w32 ((i.masterId >>> 32).truncate 32)
      ++ w32 80 ++ w32 0 ++ w32 (BitVec.ofNat 32 (80 + hsize.toNat)) ++ w32 i.beLen,
      80 + (busRetSize i).toNat)
  else if i.masterId.toNat < 0xffff then
    some (encHdr { cmd := i.cmd, len := BitVec.ofNat 32 (38 + hsize.toNat), id := i.id,
                   flags := i.flags, dev := i.dev }
      ++ encBusCommon i.clk (i.masterId.truncate 16) i.addr i.attr i.size i.width i.streamWidth,
      58 + (busRetSize i).toNat)
  else none

/-- `rp_encode_interrupt_f` (`remote-port-proto.c` 371-384); 41 bytes. -/
def encInterrupt (id dev : U32) (clk : U64) (line : U32) (vector : U64) (val : U8) (flags : U32) :
    List Byte :=
  encHdr { cmd := cmdInterrupt, len := 21, id, flags, dev } ++ w64 clk ++ w64 vector ++ w32 line ++ w8 val

/-- `rp_encode_ats_common` (`remote-port-proto.c` 394-407); 88 bytes.  The 64-bit
`result` argument is stored in a 32-bit field; the 32 reserved bytes keep the
buffer's content `rsv`. -/
def encAts (cmd id dev : U32) (clk attr addr len result : U64) (flags : U32) (rsv : List Byte) :
    List Byte :=
  encHdr { cmd, len := 68, id, flags, dev } ++ w64 clk ++ w64 attr ++ w64 addr ++ w64 len
    ++ w32 (result.truncate 32) ++ rsv

/-- `rp_encode_sync_common` (`remote-port-proto.c` 429-437); 28 bytes. -/
def encSync (id dev : U32) (clk : U64) (flags : U32) : List Byte :=
  encHdr { cmd := cmdSync, len := 8, id, flags, dev } ++ w64 clk

/-! ## Decoder -/

/-- The extended part of a decoded bus access. -/
structure BusExt where
  dataOffset : U32
  nextOffset : U32
  beOffset : U32
  beLen : U32
  deriving DecidableEq, Repr

/-- The packet body after `rp_decode_payload`. -/
inductive Body
  | hello (major minor : U16) (caps : List U32)
  | bus (ts attr addr : U64) (len width sw : U32) (masterId : U16) (ext : Option BusExt)
  | interrupt (ts vector : U64) (line : U32) (val : U8)
  | sync (ts : U64)
  | ats (tsRaw attr addr len : U64) (result : U32)
  | other
  deriving DecidableEq, Repr

/-- The capability words at `off` (`remote-port-proto.c` 142-153). -/
def rdCaps (off : Nat) : Nat → List Byte → Option (List U32)
  | 0, _ => some []
  | n + 1, b => do
    let c ← rd32 off b
    let cs ← rdCaps (off + 4) n b
    return c :: cs

/-- `case RP_CMD_hello` of `rp_decode_payload` (`remote-port-proto.c` 130-166).
Simplification: a capability array that overlaps the 32-byte structure itself
(`offset < 32`, where the in-place swap would modify the fields it is governed
by) is reported as `none`. -/
def decHello (b : List Byte) (h : Hdr) : Option (Body × Nat) :=
  if h.len.toNat < 4 then none else do
    let major ← rd16 20 b
    let minor ← rd16 22 b
    if h.len.toNat - 4 ≥ 8 then
      let off ← rd32 24 b
      let n ← rd16 28 b
      if n ≠ 0 ∧ off.toNat < 32 then none
      let caps ← rdCaps off.toNat n.toNat b
      return (.hello major minor caps, h.len.toNat)
    else
      return (.hello major minor [], h.len.toNat)

/-- `case RP_CMD_write/RP_CMD_read` (`remote-port-proto.c` 167-196).  The 64-bit
`master_id` assembled from the three fields is stored back into the 16-bit
structure field (line 195). -/
def decBus (b : List Byte) (h : Hdr) : Option (Body × Nat) :=
  if h.len.toNat < 38 then none else do
    let ts ← rd64 20 b
    let attr ← rd64 28 b
    let addr ← rd64 36 b
    let len ← rd32 44 b
    let width ← rd32 48 b
    let sw ← rd32 52 b
    let m0 ← rd16 56 b
    if hasExtBase attr then
      if h.len.toNat < 60 then none
      let m1 ← rd16 58 b
      let m2 ← rd32 60 b
      let dataOffset ← rd32 64 b
      let nextOffset ← rd32 68 b
      let beOffset ← rd32 72 b
      let beLen ← rd32 76 b
      let m : U64 := m0.zeroExtend 64 ||| (m1.zeroExtend 64 <<< 16) ||| (m2.zeroExtend 64 <<< 32)
      return (.bus ts attr addr len width sw (m.truncate 16)
        (some { dataOffset, nextOffset, beOffset, beLen }), 60)
    else
      return (.bus ts attr addr len width sw m0 none, 38)

/-- `rp_decode_payload` (`remote-port-proto.c` 123-213).  Returns the body and
the number of bytes "used". -/
def decPayload (b : List Byte) (h : Hdr) : Option (Body × Nat) :=
  if h.cmd = cmdHello then decHello b h
  else if h.cmd = cmdWrite ∨ h.cmd = cmdRead then decBus b h
  else if h.cmd = cmdInterrupt then do
    let ts ← rd64 20 b
    let vector ← rd64 28 b
    let line ← rd32 36 b
    let val ← rd8 40 b
    return (.interrupt ts vector line val, h.len.toNat)
  else if h.cmd = cmdSync then do
    let ts ← rd64 20 b
    return (.sync ts, h.len.toNat)
  else if h.cmd = cmdAtsReq ∨ h.cmd = cmdAtsInv then do
    let ts ← rd64raw 20 b
    let attr ← rd64 28 b
    let addr ← rd64 36 b
    let len ← rd64 44 b
    let result ← rd32 52 b
    return (.ats ts attr addr len result, 0)
  else some (.other, 0)

/-- A received packet as `rp_process` hands it to the command handlers
(`remote-port-tlm.cc` 531-543): header, decoded body, number of payload bytes
used by headers, and the raw bytes (for the data pointers). -/
structure Pkt where
  hdr : Hdr
  body : Body
  used : Nat
  raw : List Byte
  deriving DecidableEq, Repr

/-- The receive step of `rp_process` (`remote-port-tlm.cc` 530-543): read 20
bytes, decode the header, read `hdr.len` more, decode the payload.  `none` if
the stream ends early (the process exits, `rp_read` 413-424) or decoding fails;
otherwise the packet and the remaining stream. -/
def recv (s : List Byte) : Option (Pkt × List Byte) :=
  match slice 0 20 s with
  | none => none
  | some hb =>
    match decHdr hb with
    | none => none
    | some hdr =>
      match slice 0 (20 + hdr.len.toNat) s with
      | none => none
      | some raw =>
        match decPayload raw hdr with
        | none => none
        | some (body, used) =>
          some ({ hdr, body, used, raw }, s.drop (20 + hdr.len.toNat))

/-- The repeated receive loop until the stream is exhausted
(`remote-port-tlm.cc` 521-602). -/
def recvAll (s : List Byte) : Option (List Pkt) :=
  if s = [] then some []
  else
    match recv s with
    | none => none
    | some (p, rest) =>
      if _hlt : rest.length < s.length then (recvAll rest).map (p :: ·) else none
termination_by s.length

/-- `rp_busaccess_rx_dataptr` (`remote-port-proto.h` 377-389) for `n` bytes. -/
def rxData (p : Pkt) (n : Nat) : Option (List Byte) :=
  match p.body with
  | .bus _ attr _ _ _ _ _ ext =>
    if hasExtBase attr then
      match ext with
      | some e => slice e.dataOffset.toNat n p.raw
      | none => none
    else slice 58 n p.raw
  | _ => none

/-- Outcome of `rp_busaccess_byte_en_ptr` (`remote-port-proto.h` 391-405): outer
`none` an assert failed; `some none` a null pointer; `some (some be)` the
byte-enable bytes. -/
def rxByteEn (p : Pkt) : Option (Option (List Byte)) :=
  match p.body with
  | .bus _ attr _ _ _ _ _ (some e) =>
    if hasExtBase attr ∧ e.beLen ≠ 0 then
      if e.beOffset.toNat < 80 then none
      else if (e.beOffset + e.beLen).toNat > p.hdr.len.toNat + 20 then none
      else (slice e.beOffset.toNat e.beLen.toNat p.raw).map some
    else some none
  | .bus .. => some none
  | _ => none

/-! ## Capabilities -/

/-- The body of the loop of `rp_process_caps` (`remote-port-proto.c` 465-479). -/
def procCap (c : Caps) (cap : U32) : Caps :=
  if cap = 1 then { c with extBase := true }
  else if cap = 2 then { c with extByteEn := true }
  else if cap = 3 then { c with wirePosted := true }
  else if cap = 4 then { c with ats := true }
  else c

/-- `rp_process_caps` (`remote-port-proto.c` 453-480); `none` = the assert on a
repeated negotiation. -/
def processCaps (c : Caps) (caps : List U32) : Option Caps :=
  if c.extBase then none else some (caps.foldl procCap c)

/-- `rp_cmd_hello` (`remote-port-tlm.cc` 439-456).  `none`: version mismatch
(`exit`) or assert. -/
def cmdHelloHandle (c : Caps) (major : U16) (caps : List U32) : Option Caps :=
  if major ≠ 4 then none
  else if caps.length ≠ 0 then processCaps c caps
  else some c

/-- `rp_encode_busaccess_in_rsp_init` (`remote-port-proto.h` 451-466). -/
def rspInit (h : Hdr) (len width sw : U32) (addr : U64) (masterId : U16) : BusIn :=
  { cmd := h.cmd, id := h.id, flags := h.flags ||| flagResponse, dev := h.dev, clk := 0,
    masterId := masterId.zeroExtend 64, addr, attr := 0, size := len, width, streamWidth := sw,
    beLen := 0 }

/-- `rp_get_busaccess_response` (`remote-port-proto.h` 532-536). -/
def getResp (attr : U64) : U64 := (attr &&& 0xf00) >>> 8

end Verif.RP
