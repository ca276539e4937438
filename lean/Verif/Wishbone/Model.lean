import Verif.Base.Tlm
/-
The Wishbone bridges: `/repo/tlm-bridges/tlm2wishbone-bridge.h` 91-154 and
`/repo/tlm-bridges/wishbone2tlm-bridge.h` 94-196.

`bw` is the bus width in bytes, 4 or 8 (asserted by both constructors).
-/
namespace Verif.Wishbone
open Verif

/-! ## TLM to Wishbone -/

/-- The signals driven during one bus cycle. -/
structure Beat where
  adr : Nat
  we : Bool
  sel : Nat
  dat : Nat
  deriving DecidableEq, Repr

/-- The signals of the cycle for the bytes from `pos` on (110-127). `tlen` is
`min(bus_width, len)`, not what is left. The select bits are not shifted to the
addressed lanes (the shifted mask is computed and not used). `none`: the
buffer is left. -/
def beatAt (aw bw : Nat) (g : Gp) (pos : Nat) : Option Beat :=
  let tlen := min bw g.len
  match slice pos tlen g.data with
  | none => none
  | some bs =>
    let wr := decide (g.cmd ≠ .read)
    some
      { adr := (g.addr + pos) % 2 ^ aw
        we := wr
        sel := (2 ^ tlen - 1) % 2 ^ bw
        dat := if wr then (leDec bs <<< (8 * ((g.addr + pos) % bw))) % 2 ^ 64 % 2 ^ (8 * bw) else 0 }

/-- The loop (109-144). At most `fuel` rounds; the call uses one more than the
length, which is enough. -/
def beatsFrom (aw bw : Nat) (g : Gp) : Nat → Nat → Option (List Beat)
  | 0, _ => some []
  | fuel + 1, pos =>
    match beatAt aw bw g pos with
    | none => none
    | some b =>
      if pos + min bw g.len < g.len then
        (beatsFrom aw bw g fuel (pos + min bw g.len)).map (b :: ·)
      else some [b]

def beats (aw bw : Nat) (g : Gp) : Option (List Beat) := beatsFrom aw bw g (g.len + 1) 0

/-- The bytes a read stores for one cycle (137-141): the word on the bus shifted by
the offset of the first address. -/
def readBytes (bw : Nat) (g : Gp) (w : Nat) : List Byte :=
  leEnc (min bw g.len) (w >>> (8 * (g.addr % bw)))

/-- A rising clock edge: the master's signals (`none`: no strobe) and the slave's
answer. -/
structure Sample where
  ack : Bool
  dat : Nat
  deriving DecidableEq, Repr

/-- The inner loop (129-135) for a list of cycles: the edges seen, the words taken.
The whole access is the composition of `beats`, this and `readBytes`; the code
does the three interleaved. -/
def handshake : List Beat → List Sample → List (Beat × Sample) × List Nat
  | [], _ => ([], [])
  | _, [] => ([], [])
  | b :: bs, s :: ss =>
    if s.ack then
      let r := handshake bs ss
      ((b, s) :: r.1, s.dat :: r.2)
    else
      let r := handshake (b :: bs) ss
      ((b, s) :: r.1, r.2)

/-! ## Wishbone to TLM -/

/-- The payload handed to the target: `beLen` is the byte enable length, set to 0
once and never again (104), also when byte enables are given (138). -/
structure WGp where
  cmd : Cmd
  addr : Nat
  data : List Byte
  be : List Bool
  beLen : Nat
  deriving DecidableEq, Repr

/-- The word as bytes in memory order: `htoxe` and the copy (132-133); `big`:
the bridge is configured big-endian on a little-endian host. -/
def laneBytes (bw : Nat) (big : Bool) (w : Nat) : List Byte :=
  if big then (leEnc bw w).reverse else leEnc bw w

/-- The payload for a strobe (124-150). For a read the buffer holds what was left
in it, given as `old`. -/
def toGp (bw : Nat) (big : Bool) (old : List Byte) (b : Beat) : WGp :=
  if b.we then
    ⟨.write, b.adr, laneBytes bw big b.dat, (List.range bw).map (fun i => b.sel.testBit i), 0⟩
  else ⟨.read, b.adr, old, [], 0⟩

/-- A memory that, like the library's own memories, repeats the byte enables over
their length and takes a length of 0 for "all enabled". -/
def WGp.run (w : WGp) (m : Mem) : Mem × List Byte :=
  Gp.run ⟨w.cmd, w.addr, w.data, w.be.take w.beLen, w.data.length⟩ m

/-- One strobe served by that memory: the memory and the word driven (157-161). -/
def serve (bw : Nat) (big : Bool) (m : Mem) (b : Beat) : Mem × Nat :=
  let r := (toGp bw big (List.replicate bw 0#8) b).run m
  (r.1, if b.we then 0 else if big then leDec r.2.reverse else leDec r.2)

/-! ## Both bridges clocked together -/

/-- The two bridges back to back on one clock. `left`: cycles of the master still
to be acknowledged, the first one on the bus; `got`: words read so far; `ack`,
`dat`: the slave's outputs; `served`: the strobes the slave has answered. -/
structure Link where
  left : List Beat
  got : List Nat
  ack : Bool
  dat : Nat
  mem : Mem
  served : List Beat

/-- A rising edge: the master looks at `ack` (129-135), the slave either takes back
its acknowledgement (164-167) or looks for a strobe (117-119). Both see the
outputs of before the edge. The target answers without consuming time. -/
def Link.edge (bw : Nat) (big : Bool) (l : Link) : Link :=
  match l.left with
  | [] => { l with ack := false }
  | b :: bs =>
    if l.ack then
      { l with left := bs, got := l.got ++ [l.dat], ack := false }
    else
      { l with ack := true, dat := (serve bw big l.mem b).2, mem := (serve bw big l.mem b).1,
               served := l.served ++ [b] }

def Link.run (bw : Nat) (big : Bool) (l : Link) : Nat → Link
  | 0 => l
  | n + 1 => Link.run bw big (l.edge bw big) n

end Verif.Wishbone
