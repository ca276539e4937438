import Verif.Base.Range
import Verif.Aligner.Model
import Verif.AxiResp.Model

/-!
# The AXI4-Lite bridges: what is on the wires

`tlm-bridges/tlm2axilite-bridge.h` and `tlm-bridges/axilite2tlm-bridge.h`.

`bw` is the width of the data bus in bytes, `aw` the width of the address bus in bits.  The wires of a
data bus are a function from byte lanes to bytes (lanes `bw` and above do not exist and are ignored).
-/

namespace Verif.AxiLite
open Verif

/-- What the bridge drives on the AW and W channels for a write. -/
structure WBeat where
  addr : Nat
  data : Nat → Byte
  strb : Nat → Bool

/-! ## TLM to AXI4-Lite -/

/-- The checks before anything is driven: `Validate` (tlm2axilite-bridge.h 221-241).  `b_transport`
(265-276) replaces the status `Validate` has set by a generic error. -/
def refused (bw : Nat) (g : Gp) : Bool := g.len == 0 || bw < g.len

/-- `bitoffset / 8` (500 and 379); the bus width divides 2^64, so the 64-bit product does not matter. -/
def offset (bw addr : Nat) : Nat := addr % bw

/-- `wlen` (500-505). -/
def wlen (bw : Nat) (g : Gp) : Nat := min g.len (min (bw - offset bw g.addr) g.sw)

/-- The strobes before they are rotated (509-522). -/
def strb0 (bw : Nat) (g : Gp) (i : Nat) : Bool := decide (i < wlen bw g) && beEnabled g.be i

/-- `strb.lrotate(bitoffset / 8)` (523): bit `i` goes to bit `i + off` modulo the width. -/
def strb (bw : Nat) (g : Gp) (l : Nat) : Bool :=
  decide (l < bw) && strb0 bw g ((l + (bw - offset bw g.addr)) % bw)

/-- The loop that moves the data, eight bytes at a time (525-533). -/
def fill (data : List Byte) (off wl : Nat) : Nat → Nat → Mem → Mem
  | 0, _, d => d
  | fuel + 1, i, d =>
    if i < wl then
      let copylen := min (wl - i) 8
      fill data off wl fuel (i + 8) (d.store (off + i) ((data.drop i).take copylen))
    else d

/-- `prepare_wbeat` and `write_address_phase` (485-543, 300-313).  `none`: the assertion on the
streaming width (498) fails.  The sign of the address lines is `ADDR_WIDTH` bits. -/
def wbeat (aw bw : Nat) (g : Gp) : Option WBeat :=
  if g.sw = 0 then none
  else some { addr := g.addr % 2 ^ aw, strb := strb bw g,
              data := fill g.data (offset bw g.addr) (wlen bw g) (wlen bw g) 0 (fun _ => 0) }

/-- The bytes of one round of the inner loop (386-410): `copylen` bytes from lane `off + w` on, where
enabled. -/
def takeLanes (rdata : Nat → Byte) (be : List Bool) (off w : Nat) : Nat → Nat → List Byte → List Byte
  | _, 0, buf => buf
  | i, n + 1, buf =>
    takeLanes rdata be off w (i + 1) n
      (if beEnabled be (w + i) then buf.set (w + i) (rdata (off + w + i)) else buf)

/-- The inner loop (385-418), eight bytes at a time. -/
def takeBeat (rdata : Nat → Byte) (be : List Bool) (off rl : Nat) : Nat → Nat → List Byte → List Byte
  | 0, _, buf => buf
  | fuel + 1, w, buf =>
    if w < rl then
      takeBeat rdata be off rl fuel (w + 8) (takeLanes rdata be off w 0 (min (rl - w) 8) buf)
    else buf

/-- `read_resp_phase` (335-455) for one word on the bus: the initiator's buffer.  `none`: the access
does not fit in the word, and the loop waits for a second response that nobody will send
(350, 362: there is one transaction at a time, because of the mutex). -/
def rbeat (bw : Nat) (g : Gp) (rdata : Nat → Byte) : Option (List Byte) :=
  let off := offset bw g.addr
  let rl := min (bw - off) g.len
  if g.len ≤ rl then some (takeBeat rdata g.be off rl rl 0 g.data) else none

/-- The status for a response code (424-440, 466-480).  `none`: `SC_REPORT_ERROR`, which throws. -/
def status : AxiResp.Resp → Option Status
  | .okay => some .ok
  | .decerr => some .address
  | .slverr => some .generic
  | .exokay => none

/-- The validator given to the aligner (193-209). -/
def validate (bw : Nat) (_addr len sw : Nat) : Bool := !(decide (bw < len)) && !(decide (sw < len))

/-- The aligner in front of the bridge (129-137). -/
def alignerCfg (bw : Nat) : Aligner.Cfg :=
  { busWidth := 8 * bw, maxLen := bw, boundary := 4096, natural := true, validator := some (validate bw) }

/-! ## AXI4-Lite to TLM -/

/-- The payload for a write (axilite2tlm-bridge.h 134-177, 202-224, 248-271).  `junk` is what was in the
fresh buffer. -/
def writeGp (bw : Nat) (junk : Nat → Byte) (b : WBeat) : Gp :=
  let be := (List.range bw).map b.strb
  { cmd := .write, addr := b.addr / bw * bw,
    data := (List.range bw).map fun i => if b.strb i then b.data i else junk i,
    be := if be.all id then [] else be, sw := bw }

/-- The payload for a read. -/
def readGp (bw : Nat) (junk : Nat → Byte) (addr : Nat) : Gp :=
  { cmd := .read, addr := addr / bw * bw, data := (List.range bw).map junk, sw := bw }

/-- `GetData` (226-238). -/
def lanes (d : List Byte) : Nat → Byte := fun l => d.getD l 0

end Verif.AxiLite
