import Verif.Base.Bytes

/-! # What an AXI burst means

A small independent specification of AXI bursts, after the byte-lane and address
equations of the AMBA AXI specification (A3.4.1).  Nothing here is taken from the
modelled code. -/

namespace Verif.Axi
open Verif

inductive Burst
  | fixed | incr | wrap
deriving DecidableEq, Repr

/-- What the address channel announces: start address, bytes per beat
(`2 ^ AxSIZE`), number of beats (`AxLEN + 1`) and burst type. -/
structure Ax where
  addr : Nat
  nb : Nat
  beats : Nat
  burst : Burst
deriving DecidableEq, Repr

/-- Start address of beat `n`, counted from 0. -/
def Ax.beatAddr (a : Ax) (n : Nat) : Nat :=
  match a.burst with
  | .fixed => a.addr
  | .incr => if n = 0 then a.addr else a.addr / a.nb * a.nb + n * a.nb
  | .wrap =>
    let total := a.nb * a.beats
    let lo := a.addr / total * total
    let x := a.addr / a.nb * a.nb + n * a.nb
    if x < lo + total then x else x - total

/-- Lowest byte lane used by beat `n` on a bus of `db` bytes. -/
def Ax.lower (db : Nat) (a : Ax) (n : Nat) : Nat := a.beatAddr n % db

/-- Highest byte lane used by beat `n`. -/
def Ax.upper (db : Nat) (a : Ax) (n : Nat) : Nat :=
  a.beatAddr n / a.nb * a.nb + (a.nb - 1) - a.beatAddr n / db * db

def Ax.laneOk (db : Nat) (a : Ax) (n l : Nat) : Prop := a.lower db n ≤ l ∧ l ≤ a.upper db n

instance (db : Nat) (a : Ax) (n l : Nat) : Decidable (a.laneOk db n l) := by unfold Ax.laneOk; infer_instance

/-- Memory address of lane `l` in beat `n`. -/
def Ax.laneAddr (db : Nat) (a : Ax) (n l : Nat) : Nat := a.beatAddr n / db * db + l

/-- One beat of write data: what each lane carries and whether its strobe is set. -/
structure WBeat where
  data : Nat → Byte
  strb : Nat → Bool
  last : Bool

/-- Bytes that beat `n` writes, with their addresses, in lane order. -/
def Ax.beatWrites (db : Nat) (a : Ax) (n : Nat) (b : WBeat) : List (Nat × Byte) :=
  (List.range db).filterMap fun l => if b.strb l then some (a.laneAddr db n l, b.data l) else none

/-- A beat obeys the protocol: strobes only on the lanes of its addresses, and
`WLAST` exactly on the last beat. -/
def Ax.beatOk (db : Nat) (a : Ax) (n : Nat) (b : WBeat) : Prop :=
  (∀ l, l < db → b.strb l = true → a.laneOk db n l) ∧ b.last = decide (n + 1 = a.beats)

instance (db : Nat) (a : Ax) (n : Nat) (b : WBeat) : Decidable (a.beatOk db n b) := by unfold Ax.beatOk; infer_instance

/-- What a slave does with the beats from number `n` on; `none` is a protocol
violation (illegal strobe, misplaced `WLAST`, wrong number of beats). -/
def Ax.slaveFrom (db : Nat) (a : Ax) : Nat → List WBeat → Option (List (Nat × Byte))
  | n, [] => if n = a.beats then some [] else none
  | n, b :: bs => if a.beatOk db n b then (Ax.slaveFrom db a (n + 1) bs).map (a.beatWrites db n b ++ ·) else none

/-- The byte writes a whole write burst performs, in order. -/
def Ax.slaveWrite (db : Nat) (a : Ax) (bs : List WBeat) : Option (List (Nat × Byte)) := a.slaveFrom db 0 bs

/-- The data beats a slave with memory `mem` may answer a read burst with: every
lane of the beat's addresses carries the byte at its address, other lanes carry
anything. -/
def Ax.readBeatOk (db : Nat) (a : Ax) (mem : Nat → Byte) (n : Nat) (d : Nat → Byte) : Prop :=
  ∀ l, l < db → a.laneOk db n l → d l = mem (a.laneAddr db n l)

end Verif.Axi
