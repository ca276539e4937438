import Verif.RP.Model
import Verif.RPMem.Model

/-! # Address translation over remote-port

`/repo/libremote-port/remote-port-tlm-ats.cc`: translation requests of a device model
are sent to the peer, invalidations of the peer are handed to the device model.  The
bytes are those of `Verif.RP`; which waiting request a response goes to is
`Verif.RPSlots` (C06).  Time stamps are arbitrary values. -/

namespace Verif.RPAts
open Verif Verif.RP

/-- `atsattr_extension` (`tlm-extensions/atsattr.h` 35-86). -/
structure Ext where
  attributes : U64
  length : U64
  result : U32
deriving DecidableEq, Repr

/-- `is_phys_addr` (76-79). -/
def Ext.isPhys (e : Ext) : Bool := e.attributes &&& 0x100 != 0

/-- Outcome of a call: the payload's address and extension afterwards, its status. -/
structure Out where
  addr : U64
  ext : Option Ext
  status : Status
deriving DecidableEq, Repr

/-- `b_transport` up to the write (remote-port-tlm-ats.cc 102-126): `none` if the call
returns at once with an error, otherwise the bytes sent.  `rsv`: the reserved bytes of
the buffer. -/
def request (c : Caps) (id dev : U32) (clk addr : U64) (ext : Option Ext) (rsv : List Byte) : Option (List Byte) :=
  match ext with
  | some e => if c.ats then some (encAts cmdAtsReq id dev clk e.attributes addr e.length 0 0 rsv) else none
  | none => none

/-- The rest of it (128-141) with the response packet the table gave it; `none`: the
assertion fails. -/
def finish (id : U32) (p : Pkt) : Option Out :=
  if p.hdr.id = id then
    match p.body with
    | .ats _ attr addr len result => some ⟨addr, some ⟨attr, len, result⟩, .ok⟩
    | _ => none
  else none

/-- The whole call: `peer` turns the bytes it gets into the bytes it answers. -/
def translate (c : Caps) (peer : List Byte → List Byte) (id dev : U32) (clk addr : U64) (ext : Option Ext) (rsv : List Byte) : Option Out :=
  match request c id dev clk addr ext rsv with
  | none => some ⟨addr, ext, .generic⟩
  | some w =>
    match recv (peer w) with
    | some (p, _) => finish id p
    | none => none

/-- What the device model is told: command, address, extension. -/
structure Inv where
  cmd : Cmd
  addr : U64
  ext : Ext
deriving DecidableEq, Repr

/-- `cmd_ats_inv_null` with `ats_invalidate` (remote-port-tlm-ats.cc 41-90) for a
received packet: what the device model is given and the bytes answered; `dev` is its
reply, `none` if there is no such device.  `none`: the assertion on its status fails.
The reserved bytes are those received. -/
def invalidate (dev : Option (Inv → Status)) (clk : U64) (p : Pkt) : Option (List Inv × List Byte) :=
  match p.body with
  | .ats _ attr addr len result =>
    let w := encAts cmdAtsInv p.hdr.id p.hdr.dev clk attr addr len (result.zeroExtend 64) (p.hdr.flags ||| flagResponse) (p.raw.drop 56)
    match dev with
    | none => some ([], w)
    | some f =>
      let i : Inv := ⟨.ignore, addr, ⟨attr, len, 0⟩⟩
      if f i = .ok then some ([i], w) else none
  | _ => none

/-- The switch of `rp_process` (remote-port-tlm.cc 550-600) for ATS packets: a response,
an invalidation, or the assertion. -/
inductive Disp where
  | response
  | dropped
  | invalidation
  | abort
deriving DecidableEq, Repr

def dispatch (p : Pkt) : Disp :=
  if isResponse p.hdr.flags then (if isPosted p.hdr.flags then .dropped else .response)
  else if p.hdr.cmd = cmdAtsInv then .invalidation else .abort

end Verif.RPAts
