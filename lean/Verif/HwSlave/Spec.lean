import Verif.HwSlave.Model

/-! # What the bridge has to do with a burst

The hardware's side of the contract and the AXI rules for a burst, without
reference to the code. -/

namespace Verif.HwSlave
open Verif Verif.Axi

/-- A burst the AXI specification allows on a bus of `db` bytes (A3.4.1): beats of
a power of two not wider than the bus, up to 256 of them for incrementing bursts
(which stay inside a 4 KB page) and 16 otherwise; wrapping bursts are aligned and
have 2, 4, 8 or 16 beats. -/
structure Legal (db : Nat) (a : Ax) : Prop where
  size : ∃ s, a.nb = 2 ^ s
  narrow : a.nb ∣ db
  some_beat : 0 < a.beats
  max : a.beats ≤ if a.burst = .incr then 256 else 16
  page : a.burst = .incr → a.addr / a.nb * a.nb + a.beats * a.nb ≤ (a.addr / 4096 + 1) * 4096
  wrap : a.burst = .wrap → a.addr % a.nb = 0 ∧ (a.beats = 2 ∨ a.beats = 4 ∨ a.beats = 8 ∨ a.beats = 16)

/-- A data bus: a power of two of bytes, at most 1024 bits. -/
def Bus (db : Nat) : Prop := ∃ t, t ≤ 7 ∧ db = 2 ^ t

/-- What the hardware leaves in the buffers for the beats `bs` of a write: byte
lane `l` of beat `n` at `n * db + l`; beyond the burst, leftovers `old`. -/
def hwBuf (db : Nat) (bs : List WBeat) (old : Buf) : Buf := fun i =>
  match bs[i / db]? with
  | some w => (w.data (i % db), w.strb (i % db))
  | none => old i

/-- The descriptor the hardware fills in for a write. -/
def hwWrite (db : Nat) (a : Ax) (bs : List WBeat) : Desc :=
  ⟨a, a.beats * db, true, bs.any fun w => (List.range db).any fun l => !w.strb l⟩

/-- The descriptor the hardware fills in for a read. -/
def hwRead (db : Nat) (a : Ax) : Desc := ⟨a, a.beats * db, false, false⟩

/-- The data the hardware sends back in beat `n` of a read. -/
def hwBeat (db : Nat) (f : Buf) (n : Nat) : Nat → Byte := fun l => (f (n * db + l)).1

/-- Memory after byte writes done in order. -/
def applyWrites (m : Mem) : List (Nat × Byte) → Mem
  | [] => m
  | w :: ws => applyWrites (m.set w.1 w.2) ws

end Verif.HwSlave
