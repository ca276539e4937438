import Verif.Base.Range
import Verif.Crc32.Model

/-!
# The high-speed crypto block

Model of `/repo/soc/crypto/xilinx/hsc/hsc.{h,cc}`: the register interface with
its indirect key store, and the encryption and decryption streams.

Not modelled: SystemC time, heap bookkeeping (`new[]`/`delete`), the output
socket's answer (the code ignores it), salts and spare inputs (latched, unused).
Undefined behaviour is an outcome of its own.
-/

namespace Verif.Hsc
open Verif

/-- The per-port configuration inputs, as the bits on the wires (hsc.h 60-140;
the encoder-only ones are unused by the decoder).  Salt, SSCI, spare, zlen and the
decoder's ICV/replay inputs have no effect on any output and are left out. -/
structure Sig where
  authOnly : Bool := false
  byp : Bool := false
  suite : BitVec 2 := 0
  conf : BitVec 6 := 0
  mode : BitVec 2 := 0
  sa : BitVec 20 := 0
  extKey : BitVec 256 := 0
  pktNum : BitVec 64 := 0
  an : BitVec 2 := 0
  sci : BitVec 64 := 0
  shortlen : BitVec 8 := 0
  tci : BitVec 6 := 0
deriving DecidableEq

/-- `fixed_common`/`fixed_enc`/`fixed_dec` (hsc.h 172-258): what a port latched. -/
structure Latched where
  byteCount : Nat := 0
  authOnly : Bool := false
  byp : Bool := false
  suite : Int := 0
  conf : Int := 0
  mode : Int := 0
  sa : Int := 0
  extKey : List Byte := List.replicate 32 0
  pn : BitVec 64 := 0
  an : BitVec 8 := 0
  sci : BitVec 64 := 0
  shortlen : BitVec 8 := 0
  tci : BitVec 8 := 0
deriving DecidableEq

/-- The block.  `regs` is the register array (0x7D00/4 words), `enc`/`dec` the two
key stores as flat bytes (`uint32_t [8][1024]`, hsc.h 165-167). -/
structure St where
  regs : Nat → BitVec 32
  enc : Mem
  dec : Mem
  fenc : Nat → Latched
  fdec : Nat → Latched

/-- `reset_thread` body, hsc.cc 212-234: keys and port states cleared, registers
kept. -/
def reset (s : St) : St :=
  { s with enc := fun _ => 0, dec := fun _ => 0,
           fenc := fun p => if p < 4 then {} else s.fenc p,
           fdec := fun p => if p < 4 then {} else s.fdec p }

/-! ### Register interface -/

/-- `XILINX_HSC_MAX_REGS`, hsc.h 30. -/
def maxRegs : Nat := 0x7D00 / 4

/-- Word numbers of the indirect-access registers, hsc.cc 99, 106. -/
def ctrlReg (tx : Bool) : Nat := if tx then 0x4000 / 4 else 0x6000 / 4
/-- hsc.cc 100, 107 -/
def wdataReg (tx : Bool) (n : Nat) : Nat := (if tx then 0x4800 / 4 else 0x6800 / 4) + n
/-- hsc.cc 101, 108 -/
def rdataReg (tx : Bool) (n : Nat) : Nat := (if tx then 0x4C00 / 4 else 0x6C00 / 4) + n

/-- Store one register word. -/
def setReg (f : Nat → BitVec 32) (i : Nat) (v : BitVec 32) : Nat → BitVec 32 :=
  fun j => if j = i then v else f j

/-- The memory image of `n` consecutive registers (little-endian host). -/
def regBytes (f : Nat → BitVec 32) (i : Nat) : Nat → List Byte
  | 0 => []
  | n + 1 => leEnc 4 (f i).toNat ++ regBytes f (i + 1) n

/-- `memset(&regs[i], 0, 4 * n)`. -/
def clearRegs (f : Nat → BitVec 32) (i n : Nat) : Nat → BitVec 32 :=
  fun j => if i ≤ j ∧ j < i + n then 0 else f j

/-- `&encoder_keys[0][num]` as a byte offset into the store, hsc.cc 261-263: the
array is `[8][1024]` words, so the address of key `num` is `num` *words* in. -/
def keyAddr (num : Nat) : Nat := 4 * num

/-- Field `ena` of the control word, hsc.cc 240. -/
def ena (v : BitVec 32) : Bool := v.getLsbD 0
/-- Field `wr`, hsc.cc 242. -/
def wr (v : BitVec 32) : Bool := v.getLsbD 1
/-- Field `grp`, hsc.cc 249. -/
def grp (v : BitVec 32) : Nat := (v.extractLsb' 2 2).toNat
/-- Field `num`, hsc.cc 254. -/
def num (v : BitVec 32) : Nat := (v.extractLsb' 8 10).toNat

/-- The key store of one direction. -/
def St.keys (s : St) (tx : Bool) : Mem := if tx then s.enc else s.dec

/-- Replace it. -/
def St.setKeys (s : St) (tx : Bool) (m : Mem) : St :=
  if tx then { s with enc := m } else { s with dec := m }

/-- `reg_indirect_access`, hsc.cc 236-310.  Warnings are not modelled. -/
def indirect (s : St) (tx : Bool) : St :=
  let v := s.regs (ctrlReg tx)
  if ena v = false then s
  else
    let s := { s with regs := setReg s.regs (ctrlReg tx) (v &&& 0xFFFFFFFE) }
    if grp v = 0 then
      if wr v then
        s.setKeys tx ((s.keys tx).store (keyAddr (num v)) (regBytes s.regs (wdataReg tx 0) 8))
      else
        { s with regs := setReg (clearRegs s.regs (rdataReg tx 0) 8) (rdataReg tx 0)
                           (Crc32.crc32 0 ((s.keys tx).range (keyAddr (num v)) 32)) }
    else s

/-- Outcome of a register access. -/
inductive UOut
  | ok (data : List Byte)
  | err
  | ub
deriving DecidableEq

/-- An access to the register interface (`be`: a byte-enable pointer is given). -/
structure Acc where
  cmd : Cmd
  addr : Nat
  data : List Byte
  be : Bool := false
  sw : Nat := 4
deriving DecidableEq

/-- The word a register access writes: `memcpy(&v, data, len)` over a zeroed
`uint32_t`, hsc.cc 783, 803. -/
def word (d : List Byte) : BitVec 32 := BitVec.ofNat 32 (leDec d)

/-- The read-only registers, hsc.cc 805-811. -/
def readOnly (i : Nat) : Bool :=
  decide (i = 0) || (decide (rdataReg true 0 ≤ i) && decide (i ≤ rdataReg true 7))
    || (decide (rdataReg false 0 ≤ i) && decide (i ≤ rdataReg false 7))

/-- `user_if_b_transport`, hsc.cc 773-837.  The register number equal to
`XILINX_HSC_MAX_REGS` passes the check and indexes the array one past its end. -/
def userIf (s : St) (a : Acc) : St × UOut :=
  if a.be ∨ 4 < a.data.length ∨ a.sw < a.data.length then (s, .err)
  else
    let i := a.addr / 4
    if maxRegs < i then (s, .err)
    else match a.cmd with
      | .read =>
        if i = maxRegs then (s, .ub)
        else
          let v : BitVec 32 := if i = 0 then 1 else s.regs i
          (s, .ok ((leEnc 4 v.toNat).take a.data.length))
      | .write =>
        let v := word a.data
        if readOnly i then (s, .ok a.data)
        else if i = ctrlReg true then
          (indirect { s with regs := setReg s.regs i v } true, .ok a.data)
        else if i = ctrlReg false then
          (indirect { s with regs := setReg s.regs i v } false, .ok a.data)
        else if i = maxRegs then (s, .ub)
        else ({ s with regs := setReg s.regs i v }, .ok a.data)
      | .ignore => (s, .err)

/-- A sequence of register accesses. -/
def userRun (s : St) : List Acc → St × List UOut
  | [] => (s, [])
  | a :: as =>
    let r := userIf s a
    let q := userRun r.1 as
    (q.1, r.2 :: q.2)

/-! ### Streams -/

/-- A buffer fresh from `new uint8_t[n]`: bytes not yet written are unknown. -/
abbrev Buf := List (Option Byte)

/-- `memcpy(buf + dst, src + so, n)`; `none` if it leaves either buffer. -/
def copyIn (buf : Buf) (dst : Nat) (src : List Byte) (so n : Nat) : Option Buf :=
  if so + n ≤ src.length ∧ dst + n ≤ buf.length then
    some (buf.take dst ++ ((src.drop so).take n).map some ++ buf.drop (dst + n))
  else none

/-- The exclusive-or loop, hsc.cc 521-526 and 738-743: `n` steps from data index
`i`, output index `o`. -/
def maskLoop (key : List Byte) (ks : Nat) (data : List Byte) : Nat → Nat → Nat → Buf → Option Buf
  | 0, _, _, buf => some buf
  | n + 1, i, o, buf =>
    if i < data.length ∧ o < buf.length then
      maskLoop key ks data n (i + 1) (o + 1)
        (buf.set o (some (data.getD i 0 ^^^ key.getD (i % ks) 0)))
    else none

/-- `int` from a `size_t` expression. -/
def toInt32 (x : Int) : Int := (BitVec.ofInt 32 x).toInt

/-- The signal values latched at the start of a packet, hsc.cc 350-386, 600-624.
`sc_int` inputs are signed: they are sign-extended when read. -/
def latch (g : Sig) (l : Latched) : Latched :=
  { l with
    authOnly := g.authOnly, byp := g.byp, suite := g.suite.toInt, conf := g.conf.toInt,
    mode := g.mode.toInt, sa := g.sa.toInt,
    extKey := (List.range 32).map fun i => g.extKey.extractLsb' (8 * i) 8,
    pn := g.pktNum, an := g.an.signExtend 8, sci := g.sci, shortlen := g.shortlen,
    tci := g.tci.signExtend 8 }

/-- The key in use, hsc.cc 497-507, 713-723; `none`: an index before the store. -/
def keyOf (keys : Mem) (l : Latched) : Option (List Byte) :=
  if 1024 ≤ l.sa then some l.extKey
  else if l.sa < 0 then none
  else some (keys.range (keyAddr l.sa.toNat) 32)

/-- `keysize`, hsc.cc 509-518, 725-734. -/
def keySize (l : Latched) : Nat := if l.suite = 0 ∨ l.suite = 2 then 16 else 32

/-- `tci_an` of the inserted SecTAG, hsc.cc 442-445. -/
def tciAn (l : Latched) : BitVec 8 := (l.tci <<< 2) ||| l.an

/-- The SecTAG in memory, hsc.cc 416-452 (packed bit-fields, little-endian host). -/
def tag (l : Latched) : List Byte :=
  leEnc 2 0xE588 ++ [tciAn l, if l.shortlen ≠ 0 then 1 else 0] ++
    leEnc 4 (l.pn &&& 0xFFFFFFFF).toNat ++ leEnc 8 l.sci.toNat

/-- `tci_an | 0x20 ? 16 : 8`, hsc.cc 456-457, 672. -/
def tagLen (t : BitVec 8) : Nat := if t ||| 0x20 ≠ 0 then 16 else 8

/-- Bytes left unencrypted, hsc.cc 473-482, 690-699. -/
def clearLen (l : Latched) (len offset : Nat) : Int :=
  if l.byp ∨ l.authOnly then toInt32 ((len : Int) - offset)
  else if l.conf = 30 ∨ l.conf = 50 then toInt32 (l.conf - l.byteCount + 12)
  else 0

/-- Clear copy followed by the masking loop up to data index `stop`, hsc.cc 484-527
and 701-745.  Answers the buffer and the final output index. -/
def clearThenMask (l : Latched) (keys : Mem) (data : List Byte) (off o stop : Nat) (buf : Buf) :
    Option (Buf × Nat) :=
  let u := clearLen l data.length off
  if u < 0 then none
  else
    match copyIn buf o data off u.toNat with
    | none => none
    | some buf =>
      let off := off + u.toNat
      let o := o + u.toNat
      if off < data.length then
        match keyOf keys l with
        | none => none
        | some key =>
          match maskLoop key (keySize l) data (stop - off) off o buf with
          | none => none
          | some buf => some (buf, o + (stop - off))
      else some (buf, o)

/-- A stream transaction; `eop = none`: no attribute extension attached. -/
structure Txn where
  cmd : Cmd := .write
  addr : Nat := 0
  data : List Byte
  be : Bool := false
  eop : Option Bool := some true
deriving DecidableEq

/-- Outcome of a stream transaction: the bytes forwarded (unknown ones are
uninitialised memory) with the end-of-packet mark; an error response; a reported
error (`SC_REPORT_ERROR`, the transaction is not answered); undefined behaviour. -/
inductive Res
  | ok (out : Buf) (eop : Bool)
  | err
  | report
  | ub
deriving DecidableEq

/-- The encoder's MACsec case, hsc.cc 389-532. -/
def encMacsec (l : Latched) (keys : Mem) (data : List Byte) (eop : Bool) : Res :=
  let cl := data.length + (if l.byteCount < 14 then 16 else 0) + (if eop then 16 else 0)
  let buf : Buf := List.replicate cl none
  if l.byteCount = 0 then
    if data.length < 14 then .report
    else
      match copyIn buf 0 data 0 12 with
      | none => .ub
      | some buf =>
        match copyIn buf 12 (tag l) 0 (tagLen (tciAn l)) with
        | none => .ub
        | some buf =>
          match clearThenMask l keys data 12 (12 + tagLen (tciAn l)) data.length buf with
          | none => .ub
          | some r => .ok r.1 eop
  else
    match clearThenMask l keys data 0 0 data.length buf with
    | none => .ub
    | some r => .ok r.1 eop

/-- One port's latched state replaced. -/
def setPort (f : Nat → Latched) (p : Nat) (l : Latched) : Nat → Latched :=
  fun q => if q = p then l else f q

/-- `plain_input_stream_b_transport`, hsc.cc 312-557, for `port < 4`. -/
def encrypt (s : St) (port : Nat) (g : Sig) (t : Txn) : St × Res :=
  if t.be ∨ t.cmd ≠ .write ∨ t.addr ≠ 0 then (s, .err)
  else if port = 0 ∧ s.regs (0x1000 / 4) = 2 then (s, .report)
  else
    let l := if (s.fenc port).byteCount = 0 then latch g (s.fenc port) else s.fenc port
    let s := { s with fenc := setPort s.fenc port l }
    if l.mode = 0 then
      match t.eop with
      | none => (s, .ub)
      | some e => (s, encMacsec l s.enc t.data e)
    else (s, .err)

/-- The decoder's MACsec case, hsc.cc 627-747.  The branch for a
non-zero byte count is never reached (`counts_stay_zero`); there `len - 16` wraps
below 16, taken as undefined behaviour throughout. -/
def decMacsec (l : Latched) (keys : Mem) (data : List Byte) (eop : Bool) : Res :=
  let buf : Buf := List.replicate data.length none
  if l.byteCount = 0 then
    if data.length < 14 then .report
    else if data.length < 15 then .ub
    else
      match copyIn buf 0 data 0 12 with
      | none => .ub
      | some buf =>
        let off := 12 + tagLen (data.getD 14 0)
        match clearThenMask l keys data off 12 (data.length - 16) buf with
        | none => .ub
        | some r => .ok (r.1.take r.2) eop
  else if data.length < 16 then .ub
  else
    match clearThenMask l keys data 0 0 (data.length - 16) buf with
    | none => .ub
    | some r => .ok (r.1.take r.2) eop

/-- `encrypted_input_stream_b_transport`, hsc.cc 559-771, for `port < 4`. -/
def decrypt (s : St) (port : Nat) (g : Sig) (t : Txn) : St × Res :=
  if t.be ∨ t.cmd ≠ .write ∨ t.addr ≠ 0 then (s, .err)
  else if port = 0 ∧ s.regs (0x1004 / 4) = 2 then (s, .report)
  else
    let l := if (s.fdec port).byteCount = 0 then latch g (s.fdec port) else s.fdec port
    let s := { s with fdec := setPort s.fdec port l }
    if l.mode = 0 then
      match t.eop with
      | none => (s, .ub)
      | some e => (s, decMacsec l s.dec t.data e)
    else (s, .err)

end Verif.Hsc
