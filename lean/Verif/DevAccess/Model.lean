import Verif.Base.Tlm
/-
I/O copy helpers: `/repo/utils/dev-access.h` 34-101.
-/
namespace Verif.DevAccess
open Verif

/-- An access made to the I/O space: a single load or store of `n` bytes, or a
call of `memcpy`, whose access widths the language leaves open. -/
inductive Acc
  | single (addr n : Nat)
  | bulk (addr n : Nat)
  deriving DecidableEq, Repr

/-- Byte order of the host. -/
inductive Host | little | big
  deriving DecidableEq, Repr

/-- The host's value of `n` bytes in memory. -/
def load (h : Host) (bs : List Byte) : Nat :=
  match h with
  | .little => leDec bs
  | .big => beDec bs

/-- The host's memory representation of a value in `n` bytes. -/
def rep (h : Host) (n v : Nat) : List Byte :=
  match h with
  | .little => leEnc n v
  | .big => beEnc n v

/-- `n` bytes of the I/O space. -/
def bytesAt (io : Mem) (a n : Nat) : List Byte := (List.range n).map fun i => io (a + i)

/-- `memcpy_from_io` (35-65): the bytes stored to the caller's buffer, the
accesses made. -/
def fromIo (h : Host) (io : Mem) (addr len : Nat) : List Byte × List Acc :=
  if len = 1 then (bytesAt io addr 1, [.single addr 1])
  else if len = 2 ∧ addr % 2 = 0 then
    ((rep h 8 (load h (bytesAt io addr 2))).take len, [.single addr 2])
  else if len = 4 ∧ addr % 4 = 0 then
    ((rep h 8 (load h (bytesAt io addr 4))).take len, [.single addr 4])
  else if len = 8 ∧ addr % 8 = 0 then
    ((rep h 8 (load h (bytesAt io addr 8))).take len, [.single addr 8])
  else (bytesAt io addr len, [.bulk addr len])

/-- Bytes stored from address `a` on. -/
def storeAt (io : Mem) (a : Nat) (d : List Byte) : Mem := fun x =>
  if a ≤ x ∧ x < a + d.length then d.getD (x - a) 0#8 else io x

/-- `memcpy_to_io` (67-101): the new I/O space, the accesses made. The value goes
through a union, so the stored bytes are the caller's first `len` bytes on any
host. -/
def toIo (io : Mem) (addr : Nat) (buf : List Byte) : Mem × List Acc :=
  let len := buf.length
  if len = 1 then (storeAt io addr buf, [.single addr 1])
  else if len = 2 ∧ addr % 2 = 0 then (storeAt io addr ((buf.take 8).take 2), [.single addr 2])
  else if len = 4 ∧ addr % 4 = 0 then (storeAt io addr ((buf.take 8).take 4), [.single addr 4])
  else if len = 8 ∧ addr % 8 = 0 then (storeAt io addr ((buf.take 8).take 8), [.single addr 8])
  else (storeAt io addr buf, [.bulk addr len])

end Verif.DevAccess
