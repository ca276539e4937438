import Verif.Base.Tlm
/-
The native-memory bridge: `/repo/tlm-bridges/tlm2native-bridge.h` 71-148.
-/
namespace Verif.Native
open Verif

/-- `fatal`: `SC_REPORT_FATAL`; `ub`: access outside the memory handed to the
bridge. -/
inductive Out
  | ok (m : Mem) (buf : List Byte)
  | fatal
  | ub
  deriving Inhabited

/-- The slow path (93-109): byte `pos` onwards. Addresses are 64-bit. `cap` is the
number of bytes really behind the pointer. Every command that is not a read
writes. -/
def slow (cap : Nat) (cmd : Cmd) (addr sw : Nat) (be : List Bool) (m : Mem) (pos : Nat) :
    List Byte → Option (Mem × List Byte)
  | [] => some (m, [])
  | b :: bs =>
    let doAccess := if be.length ≠ 0 then be.getD (pos % be.length) false else true
    let a := (addr + pos % sw) % 2 ^ 64
    if doAccess then
      if a < cap then
        if cmd = .read then
          (slow cap cmd addr sw be m (pos + 1) bs).map fun r => (r.1, m a :: r.2)
        else
          (slow cap cmd addr sw be (m.set a b) (pos + 1) bs).map fun r => (r.1, b :: r.2)
      else none
    else (slow cap cmd addr sw be m (pos + 1) bs).map fun r => (r.1, b :: r.2)

/-- `b_transport` (71-122). The fast path (110-115) is only taken with no byte
enables and a streaming width of 0, that is for a length of 0, where it copies
nothing. The latency is left out. -/
def transport (size cap : Nat) (m : Mem) (g : Gp) : Out :=
  let sw := if g.sw = 0 then g.len else g.sw
  if (g.addr + min g.len sw) % 2 ^ 64 > size ∧ size > 0 then .fatal
  else if g.be.length ≠ 0 ∨ sw ≠ 0 then
    match slow cap g.cmd g.addr sw g.be m 0 g.data with
    | none => .ub
    | some (m', buf) => .ok m' buf
  else .ok m g.data

/-- `get_direct_mem_ptr` (124-139): granted range; the pointer is that of the
memory, for address 0. -/
def dmi (size : Nat) : Nat × Nat := (0, if size > 0 then size - 1 else 2 ^ 64 - 1)

/-- A history of accesses; stops at the first that is not performed. -/
def exec (size cap : Nat) (m : Mem) : List Gp → Option Mem
  | [] => some m
  | g :: gs =>
    match transport size cap m g with
    | .ok m' _ => exec size cap m' gs
    | _ => none

end Verif.Native
