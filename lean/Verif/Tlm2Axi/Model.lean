import Verif.Axi.Spec

/-! # TLM to AXI bridge: bursts

`tlm-bridges/tlm2axi-bridge.h`.  Addresses are natural numbers: the bridge's
64-bit additions wrap only for a transaction that runs past the end of the
address space.  Lane contents are functions from lane number; `sc_bv` words of
64 bits at a time (lines 875-903, 1300-1308) are modelled byte by byte.
`DATA_WIDTH / 8` is `db`.  ACE mode is not modelled here. -/

namespace Verif.Tlm2Axi
open Verif Verif.Axi

/-- The parts of the payload the burst machinery reads; `be` empty means no byte
enables. -/
structure Gp where
  addr : Nat
  len : Nat
  sw : Nat
  data : Nat → Byte
  be : List Bool
  wrap : Bool
  burstWidth : Nat

/-- A `Transaction` after construction. -/
structure Tr where
  gp : Gp
  burst : Burst
  bw : Nat
  numBeats : Nat

/-- `GetBurstWidth` (354-363) for an attribute value `g`. -/
def burstWidthOf (db g : Nat) : Nat := if g = 0 then db else g

/-- `SetupBurstType` (299-330): the burst type and the burst-width attribute
afterwards; `none` is the reported error. -/
def setupBurstType (db : Nat) (p : Gp) : Option (Burst × Nat) :=
  if p.sw = p.len ∧ p.wrap = true then some (.wrap, p.burstWidth)
  else if p.sw ≥ p.len then some (.incr, p.burstWidth)
  else if p.sw = db then some (.fixed, p.burstWidth)
  else if p.sw < db ∧ p.burstWidth ≥ p.sw then some (.fixed, p.burstWidth)
  else if p.sw < db ∧ p.burstWidth = 0 then
    some (.fixed, if p.sw > 1 then p.sw / 2 * 2 else p.sw)
  else none

/-- `SetupNumBeats` (332-350), in 32-bit arithmetic. -/
def setupNumBeats (addr len bw : Nat) (b : Burst) : Nat :=
  let alignment := addr - addr / bw * bw
  if b = .fixed then ((len + (bw - alignment) + (2 ^ 32 - 1)) % 2 ^ 32) / (bw - alignment)
  else ((len + alignment + bw + (2 ^ 32 - 1)) % 2 ^ 32) / bw

/-- The `Transaction` constructor (278-297). -/
def mkTr (db : Nat) (p : Gp) : Option Tr :=
  match setupBurstType db p with
  | none => none
  | some (b, g) =>
    let bw := burstWidthOf db g
    some { gp := p, burst := b, bw := bw, numBeats := setupNumBeats p.addr p.len bw b }

/-- `ValidateBurstWidth` (729-744). -/
def validWidth (bw : Nat) : Bool := [1, 2, 4, 8, 16, 32, 64, 128].contains bw

/-- `Validate` (573-601) for reads and writes. -/
def validate (maxBurst : Nat) (t : Tr) : Bool :=
  if t.gp.len = 0 then false
  else if t.gp.sw = 0 then false
  else if !validWidth t.bw then false
  else if t.numBeats > maxBurst then false
  else true

/-- What is announced on the address channel (642-651, 694-703).  `AxSIZE` is
the logarithm of the burst width, which `validate` has checked. -/
def Tr.ax (t : Tr) : Ax := { addr := t.gp.addr, nb := t.bw, beats := t.numBeats, burst := t.burst }

/-- Byte enable lookup (1280-1293, 881-889). -/
def enabled (be : List Bool) (i : Nat) : Bool := if be = [] then true else be.getD (i % be.length) false

/-- The number of bytes in a write beat (1255-1278): `beat` counts from 1. -/
def wlen (db : Nat) (t : Tr) (beat offset pos : Nat) : Nat :=
  let addr := t.gp.addr + offset % t.gp.sw
  let len := t.gp.len - pos
  let boff := addr % db
  let maxlen := db - boff
  let maxlen := if maxlen > t.gp.sw - offset % t.gp.sw then t.gp.sw - offset % t.gp.sw else maxlen
  let w := if len ≤ maxlen then len else maxlen
  let w := if w ≤ t.bw then w else t.bw
  if t.burst = .fixed ∨ beat = 1 then
    let q := t.bw - addr % t.bw
    if w > q then q else w
  else w

/-- `prepare_wbeat` (1243-1323) and the `wlast` line (969): strobes are set from
bit 0 and rotated to the lane of the address. -/
def wbeat (db : Nat) (t : Tr) (beat offset pos : Nat) : WBeat :=
  let w := wlen db t beat offset pos
  let boff := (t.gp.addr + offset % t.gp.sw) % db
  let strb := fun i => decide (i < w) && enabled t.gp.be (i + offset)
  { data := fun l => if boff ≤ l ∧ l < boff + w then t.gp.data (pos + (l - boff)) else 0
    strb := fun l => strb ((l + db - boff) % db)
    last := decide (beat = t.numBeats) }

/-- The loop of `write_data_phase` (961-981); every beat is accepted sooner or
later.  `fuel` bounds the loop. -/
def wbeats (db : Nat) (t : Tr) : Nat → Nat → Nat → Nat → List WBeat
  | 0, _, _, _ => []
  | fuel + 1, beat, addrPos, pos =>
    if pos < t.gp.len then
      let d := wlen db t beat addrPos pos
      wbeat db t beat addrPos pos ::
        wbeats db t fuel (beat + 1) (if t.burst = .fixed then addrPos else addrPos + d) (pos + d)
    else []

/-- The beats of an accepted write; each carries at least one byte, so `len`
iterations are enough. -/
def writeBeats (db : Nat) (t : Tr) : List WBeat := wbeats db t (t.gp.len + 1) 1 0 0

/-- A beat of read data. -/
structure RBeat where
  data : Nat → Byte
  id : Nat
  resp : Nat
  last : Bool

/-- Number of bytes taken from a read beat (842-856).  `IncBeat` is never called
on reads, so the first-beat rule applies to every beat. -/
def readlen (db : Nat) (t : Tr) (addrPos len : Nat) : Nat :=
  let addr := t.gp.addr + addrPos % t.gp.sw
  let boff := addr % db
  let r := db - boff
  let r := if r ≤ len then r else len
  let r := if r ≤ t.bw then r else t.bw
  let q := t.bw - addr % t.bw
  if r > q then q else r

/-- Copying `n` bytes of a beat into the buffer (858-903). -/
def copyBeat (be : List Bool) (buf : Nat → Byte) (pos n : Nat) (lane : Nat → Byte) : Nat → Byte :=
  fun i => if pos ≤ i ∧ i < pos + n ∧ enabled be i = true then lane (i - pos) else buf i

/-- The collection loop of `read_resp_phase` (802-909) once the transaction has
been looked up: the buffer and the last response, or `none` for the error on a
premature `rlast` or when more beats are needed. -/
def readLoop (db : Nat) (t : Tr) : List RBeat → Nat → Nat → Nat → (Nat → Byte) → Option ((Nat → Byte) × Nat × List RBeat)
  | [], _, _, _, _ => none
  | b :: bs, addrPos, pos, len, buf =>
    let boff := (t.gp.addr + addrPos % t.gp.sw) % db
    let r := readlen db t addrPos len
    let buf := copyBeat t.gp.be buf pos r (fun k => b.data (boff + k))
    let len := len - r
    if b.last ∧ len ≠ 0 then none
    else if len = 0 then some (buf, b.resp, bs)
    else readLoop db t bs (if t.burst = .fixed then addrPos else addrPos + r) (pos + r) len buf

def readBeats (db : Nat) (t : Tr) (bs : List RBeat) : Option ((Nat → Byte) × Nat × List RBeat) :=
  readLoop db t bs 0 0 t.gp.len t.gp.data

end Verif.Tlm2Axi
