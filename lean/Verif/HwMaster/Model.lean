import Verif.Aligner.Model
import Verif.AxiResp.Model
import Verif.Bitops.Model

/-! # TLM accesses carried out by the PCIe hardware bridge as AXI bursts

`rtl-bridges/pcie-host/axi/tlm/tlm2axi-hw-bridge.h` and the device accesses of
`tlm-hw-bridge-base.h`.  An access goes through the aligner, is copied into the
buffers of the hardware, described in a descriptor and handed over.  What the
hardware does with a descriptor is specified in `Spec`.  Not modelled: the
interrupt and ownership polling (the call returns when the descriptor is done),
descriptors other than 0 (never used), wire processing after the access. -/

namespace Verif.HwMaster
open Verif

/-- What `bridge_probe` finds out (tlm-hw-bridge-base.h 244-290) and the
constructor's `base_offset`: bytes of the data bus, whether the bridge is AXI-Lite
(`is_axilite_master`, 152-156), and the longest burst in beats that
`configure_aligner` (158-186) allows (1, 15 or 255). -/
structure Cfg where
  db : Nat
  lite : Bool
  maxBeats : Nat
  baseOff : Nat
deriving DecidableEq, Repr

/-- The aligner in front of the bridge: constructor (131-134), then
`set_bus_width` and `set_max_len` (184-185). -/
def Cfg.aligner (c : Cfg) : Aligner.Cfg :=
  { busWidth := c.db * 8, maxLen := c.maxBeats * c.db, boundary := 4 * 1024, natural := true, validator := none }

/-- The aligner before the first reset: as constructed (131-134). -/
def alignerEarly : Aligner.Cfg :=
  { busWidth := 128, maxLen := 256 * 16, boundary := 4 * 1024, natural := true, validator := none }

/-- The buffers of the hardware: write data, strobes, read data, from the offsets
`DRAM_OFFSET_{WRITE,WSTRB,READ}_MASTER`. -/
structure Bufs where
  wdata : Nat → Byte
  wstrb : Nat → Byte
  rdata : Nat → Byte

/-- `dev_access` with a write command of `d` at `off` (base.h 418-423). -/
def copyTo (f : Nat → Byte) (off : Nat) (d : List Byte) : Nat → Byte := fun i =>
  if off ≤ i ∧ i < off + d.length then d.getD (i - off) 0 else f i

/-- `dev_write32`: a 32-bit little-endian store at `a`. -/
def write32 (f : Nat → Byte) (a : Nat) (v : BitVec 32) : Nat → Byte := fun i =>
  if a ≤ i ∧ i < a + 4 then v.extractLsb' ((i - a) * 8) 8 else f i

/-- `dev_read32`. -/
def read32 (f : Nat → Byte) (a : Nat) : BitVec 32 := f (a + 3) ++ f (a + 2) ++ f (a + 1) ++ f a

/-- The inner loop over the caller's byte enables (266-284): lanes `j`, `j + 1`, …
`3` of the word at `bit`; `be` is not empty. -/
def beWord (off size : Nat) (be : List Bool) (bit : Nat) : Nat → Nat → BitVec 32 → BitVec 32
  | 0, _, v => v
  | k + 1, j, v =>
    if bit + j < off then beWord off size be bit k (j + 1) v
    else if bit + j ≥ off + size then v
    else beWord off size be bit k (j + 1)
      (if be.getD ((bit + j - off) % be.length) false then v ||| ((0xff : BitVec 32) <<< (j * 8)) else v)

/-- The strobe word at byte `bit` of the buffer (249-284). -/
def strbWord (off size : Nat) (be : List Bool) (bit : Nat) : BitVec 32 :=
  if be ≠ [] then beWord off size be bit 4 0 0
  else if bit ≤ off then (Bitops.mask64 ((off - bit) * 8) (min size 4 * 8)).setWidth 32
  else if size > bit - off then (Bitops.mask64 0 ((size - (bit - off)) * 8)).setWidth 32
  else 0

/-- The words written one after the other (246-291), `k` of them from number `w`. -/
def putWords (off size : Nat) (be : List Bool) : Nat → Nat → (Nat → Byte) → Nat → Byte
  | 0, _, f => f
  | k + 1, w, f => putWords off size be k (w + 1) (write32 f (4 * w) (strbWord off size be (4 * w)))

/-- Beats of an access (243, 340). -/
def nrBeats (db off size : Nat) : Nat := (off + size + db - 1) / db

/-- `desc_setup_wstrb` (225-293). -/
def setupWstrb (c : Cfg) (addr size : Nat) (be : List Bool) (f : Nat → Byte) : Nat → Byte :=
  putWords (addr % c.db) size be (nrBeats c.db (addr % c.db) size * ((c.db + 3) / 4)) 0 f

/-- `map_size_to_axsize` (tlm-bridges/amba.h 72-96); `none` is −1. -/
def axsizeOf : Nat → Option Nat
  | 1 => some 0
  | 2 => some 1
  | 4 => some 2
  | 8 => some 3
  | 16 => some 4
  | 32 => some 5
  | 64 => some 6
  | 128 => some 7
  | _ => none

/-- `map_size_to_nearest_axsize` (amba.h 106-126); `none`: the assertion fails.
A size of zero gives 2 there as well. -/
def nearestAxsize (n : Nat) : Option Nat :=
  if n = 1 then some 0
  else if n = 2 then some 1
  else if n ≤ 4 then some 2
  else if n ≤ 8 then some 3
  else if n ≤ 16 then some 4
  else if n ≤ 32 then some 5
  else if n ≤ 64 then some 6
  else if n ≤ 128 then some 7
  else none

/-- What the attributes contribute (`genattr_extension`). -/
structure Attr where
  secure : Bool
  exclusive : Bool
  qos : Nat
  region : Nat
deriving DecidableEq, Repr

/-- `compute_attr` (295-323); `u8` fields. `locked` stays 0. -/
def computeAttr (a : Option Attr) : BitVec 32 :=
  match a with
  | none => 0
  | some a => ((if a.secure then (1 : BitVec 32) else 0) <<< 9) ||| ((BitVec.ofNat 8 a.qos).setWidth 32 <<< 11) |||
      ((BitVec.ofNat 8 a.region).setWidth 32 <<< 15)

/-- The descriptor handed to the hardware (387-415). -/
structure Desc where
  addr : Nat
  size : Nat
  axsize : Nat
  isWrite : Bool
  strbs : Bool
  attr : BitVec 32
deriving DecidableEq, Repr

/-- The `axsize` before the rounding (354-359): only for accesses of at most one
bus word and not on AXI-Lite. -/
def exactAxsize (c : Cfg) (size : Nat) : Option Nat :=
  if size ≤ c.db ∧ c.lite = false then axsizeOf size else none

/-- The `axsize` of the descriptor (371-385); `none`: an assertion fails. -/
def descAxsize (c : Cfg) (addr size : Nat) : Option Nat :=
  if c.lite then axsizeOf c.db
  else match exactAxsize c size with
    | some x => some x
    | none =>
      if addr % c.db + size ≥ c.db then nearestAxsize c.db else nearestAxsize (addr % c.db + size)

/-- Whether the strobe buffer is set up (364-368). -/
def needStrb (c : Cfg) (size : Nat) (isWrite : Bool) (be : List Bool) : Bool :=
  ((exactAxsize c size).isNone || !be.isEmpty) && isWrite

/-- `desc_access` up to the hand-over (325-415). -/
def descOf (c : Cfg) (addr size : Nat) (isWrite : Bool) (be : List Bool) (attr : Option Attr) : Option Desc :=
  (descAxsize c addr size).map fun x =>
    { addr := addr, size := nrBeats c.db (addr % c.db) size * c.db, axsize := x, isWrite := isWrite,
      strbs := needStrb c size isWrite be, attr := computeAttr attr ||| 1 }

/-- The bytes of one word that `dev_copy_from` hands out (445-454): `n` bytes from
position `pos` of the caller's buffer `buf`. -/
def copyWord (be : List Bool) : Nat → Nat → BitVec 32 → List Byte → List Byte
  | 0, _, _, buf => buf
  | n + 1, pos, v, buf =>
    copyWord be n (pos + 1) (v >>> 8)
      (if be.getD (pos % be.length) false then buf.set pos (v.setWidth 8) else buf)

/-- The loop of `dev_copy_from` (439-461) for `len` bytes: `i` of them are done,
the next word is at `a` and its first `wo < 4` bytes are skipped. -/
def copyLoop (f : Nat → Byte) (be : List Bool) (len a wo i : Nat) (buf : List Byte) : List Byte :=
  if i < len ∧ wo < 4 then
    copyLoop f be len (a + 4) 0 (i + min (len - i) (4 - wo))
      (copyWord be (min (len - i) (4 - wo)) i (read32 f a >>> (wo * 8)) buf)
  else buf
termination_by len - i
decreasing_by
  omega

/-- `dev_copy_from` (425-462).  The offset of the read buffer is a multiple of 4. -/
def copyFrom (f : Nat → Byte) (off : Nat) (be : List Bool) (buf : List Byte) : List Byte :=
  if be = [] then (List.range buf.length).map fun i => f (off + i)
  else copyLoop f be buf.length (off - off % 4) (off % 4) 0 buf

/-- The hardware carries out a descriptor: new state of everything behind the
bridge, the read buffer, and the two response bits. -/
abbrev Hw (σ : Type) := Desc → Bufs → σ → σ × (Nat → Byte) × AxiResp.Resp

/-- `b_transport` (427-485) for a probed bridge.  On a failed assertion nothing
happens and the status is left incomplete: the caller never sees it. -/
def bridge {σ : Type} (c : Cfg) (hw : Hw σ) (attr : Option Attr) : Aligner.Target (σ × Bufs) := fun g s =>
  if g.sw ≠ 0 ∧ g.sw < g.len then (s, g.data, .burst)
  else
    let addr := (g.addr + c.baseOff) % 2 ^ 64
    let isWrite := decide (g.cmd ≠ .read)
    let b := if isWrite then { s.2 with wdata := copyTo s.2.wdata (addr % c.db) g.data } else s.2
    match descOf c addr g.len isWrite g.be attr with
    | none => (s, g.data, .incomplete)
    | some d =>
      let b := if d.strbs then { b with wstrb := setupWstrb c addr g.len g.be b.wstrb } else b
      let r := hw d b s.1
      let b := { b with rdata := r.2.1 }
      let data := if isWrite = false ∧ (r.2.2 = .okay ∨ r.2.2 = .exokay) then
          copyFrom b.rdata (addr % c.db) g.be g.data else g.data
      ((r.1, b), data, (AxiResp.setAxiResp none r.2.2).1)

/-- The socket of the bridge: `b_transport_proxy` through the aligner
(constructor, 130-141). `none`: an assertion fails. -/
def transport {σ : Type} (c : Cfg) (hw : Hw σ) (attr : Option Attr) (g : Gp) (s : σ × Bufs) (st : Status) :
    Option ((σ × Bufs) × List Byte × Status) :=
  Aligner.transport c.aligner (bridge c hw attr) g s st

/-- `configure_aligner` in the reset thread (158-186, 200): `none` is the
dereference of the null pointer `aligner` when the bridge was constructed with
`aligner_enable = false` (the member of that name is never consulted). -/
def resetAligner (enable : Bool) (c : Cfg) : Option Aligner.Cfg :=
  if enable then some c.aligner else none

end Verif.HwMaster
