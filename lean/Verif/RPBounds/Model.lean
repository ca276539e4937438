import Verif.RP.Model

/-!
# The remote-port receive buffer

Models what `rp_process` (`/repo/libremote-port/remote-port-tlm.cc` 520-605) and
the code it calls touch in the buffer a packet is received into.  Unlike
`Verif.RP.Model`, where a packet is just its bytes, the buffer here is the
allocation of `remoteport_packet` (`remote-port-tlm.cc` 232-250): it never
shrinks, so the bytes of earlier packets lie behind a shorter one.
-/

namespace Verif.RPBounds
open Verif Verif.RP

/-- What happens to a packet. -/
inductive Out (α : Type)
  | val (a : α)
  /-- an `assert` fails -/
  | refused
  /-- memory outside the buffer, or outside the device table, is accessed -/
  | outside
  /-- capability words lie over the packet structure itself, whose fields are
  swapped while they are in use; not modelled -/
  | selfOverlap
  deriving DecidableEq, Repr

/-- `remoteport_packet::alloc` (232-243). -/
def alloc (buf : List Byte) (n : Nat) : List Byte := buf ++ List.replicate (n - buf.length) 0

/-- The buffer `rp_process` starts with (525): 20 + 128 zero bytes. -/
def fresh : List Byte := alloc [] 148

/-- Reading a packet into the buffer (535-543): `raw` is the header and its
`hdr.len` payload bytes. -/
def fill (buf raw : List Byte) : List Byte := raw ++ (alloc buf raw.length).drop raw.length

/-- The asserts of `rp_decode_payload` (`remote-port-proto.c` 131, 169, 184). -/
def asserts (buf : List Byte) (h : Hdr) : Bool :=
  if h.cmd = cmdHello then decide (h.len.toNat < 4)
  else if h.cmd = cmdWrite ∨ h.cmd = cmdRead then
    decide (h.len.toNat < 38) ||
      (match rd64 28 buf with
       | some attr => hasExtBase attr && decide (h.len.toNat < 60)
       | none => false)
  else false

/-- Whether a hello packet's capability words lie over its structure
(`remote-port-proto.c` 138-153). -/
def overlaps (buf : List Byte) (h : Hdr) : Bool :=
  decide (h.cmd = cmdHello ∧ h.len.toNat - 4 ≥ 8) &&
    (match rd32 24 buf, rd16 28 buf with
     | some off, some n => decide (n ≠ 0 ∧ off.toNat < 32)
     | _, _ => false)

/-- `rp_decode_payload` (`remote-port-proto.c` 123-213) reading the buffer. -/
def decode (buf : List Byte) (h : Hdr) : Out (Body × Nat) :=
  if asserts buf h then .refused
  else if overlaps buf h then .selfOverlap
  else
    match decPayload buf h with
    | some r => .val r
    | none => .outside

/-- `RP_MAX_DEVS` (`remote-port-tlm.h` 145). -/
def maxDevs : Nat := 512

/-- Receiving one packet: the device table is indexed with the packet's device
number (545). -/
def process (buf raw : List Byte) (h : Hdr) : Out (Body × Nat) :=
  match decode (fill buf raw) h with
  | .val r => if h.dev.toNat < maxDevs then .val r else .outside
  | o => o

/-- The data handed to the device of a write request (543-544, 581): from behind
the headers used to the end of the packet. -/
def writeData (buf : List Byte) (h : Hdr) (used : Nat) : Out (List Byte) :=
  match slice (20 + used) (h.len.toNat - used) buf with
  | some d => .val d
  | none => .outside

/-- The data a read request takes from its response
(`remote-port-tlm-memory-slave.cc` 162-190 with `rp_busaccess_rx_dataptr`,
`remote-port-proto.h` 377-389): `n` bytes, the length of the request. -/
def readData (buf : List Byte) (b : Body) (n : Nat) : Out (List Byte) :=
  match b with
  | .bus _ attr _ _ _ _ _ ext =>
    let off := match hasExtBase attr, ext with
      | true, some e => e.dataOffset.toNat
      | _, _ => 58
    match slice off n buf with
    | some d => .val d
    | none => .outside
  | _ => .refused

/-- The byte enables of a packet (`rp_busaccess_byte_en_ptr`,
`remote-port-proto.h` 391-405); `none` is a null pointer.  The sum of the two
32-bit fields wraps. -/
def byteEn (buf : List Byte) (h : Hdr) (b : Body) : Out (Option (List Byte)) :=
  match b with
  | .bus _ _ _ _ _ _ _ (some e) =>
    if e.beLen = 0 then .val none
    else if e.beOffset.toNat < 80 then .refused
    else if (e.beOffset + e.beLen).toNat > h.len.toNat + 20 then .refused
    else
      match slice e.beOffset.toNat e.beLen.toNat buf with
      | some d => .val (some d)
      | none => .outside
  | _ => .val none

end Verif.RPBounds
