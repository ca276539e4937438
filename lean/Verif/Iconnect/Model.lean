/-!
# `iconnect`, the memory-mapped interconnect

Models `/repo/soc/interconnect/iconnect.h`.  Addresses are naturals below 2^64;
64-bit additions are written with an explicit `% 2^64`.
-/

namespace Verif.Iconnect

def M : Nat := 2 ^ 64

/-- `struct memmap_entry` (38-43). -/
structure Entry where
  addr : Nat
  size : Nat
  absolute : Bool
  sk : Nat
  deriving DecidableEq, Repr

/-- An element of `map[N_TARGETS * 4]`; `none` is an element the constructor
leaves uninitialised. -/
abbrev Slot := Option Entry

/-- The constructor (91-117) only initialises `size` of the first `N_TARGETS`
elements. -/
def init (nTargets : Nat) : List Slot :=
  List.replicate nTargets (some { addr := 0, size := 0, absolute := false, sk := 0 }) ++
    List.replicate (nTargets * 3) none

/-- `memmap` (128-154): first element with size zero.  `idx = none` is the
argument -1.  Result: the map and the element's number; `none`: the map is full
(`abort`) or an uninitialised element is read. -/
def memmapFrom (addr size : Nat) (absolute : Bool) (idx : Option Nat) : Nat → List Slot → Option (List Slot × Nat)
  | _, [] => none
  | _, none :: _ => none
  | i, some e :: rest =>
    if e.size = 0 then
      some (some { addr, size, absolute, sk := idx.getD i } :: rest, i)
    else (memmapFrom addr size absolute idx (i + 1) rest).map fun r => (some e :: r.1, r.2)

def memmap (map : List Slot) (addr size : Nat) (absolute : Bool) (idx : Option Nat) : Option (List Slot × Nat) :=
  memmapFrom addr size absolute idx 0 map

/-- Result of `map_address`. -/
inductive Lookup
  | hit (sk offset : Nat)
  /-- "DECODE ERROR": returns target 0 and leaves the offset variable
  uninitialised. -/
  | miss
  /-- an uninitialised map element was read -/
  | undefined
  deriving DecidableEq, Repr

/-- `map_address` (157-178). -/
def mapAddress : List Slot → Nat → Lookup
  | [], _ => .miss
  | none :: _, _ => .undefined
  | some e :: rest, a =>
    if e.size ≠ 0 ∧ e.addr ≤ a ∧ a ≤ (e.addr + e.size) % M then
      .hit e.sk (if e.absolute then a else a - e.addr)
    else mapAddress rest a

/-- What happens to an access on the way: which target is called with which
address (`none`: an uninitialised value), and the address in the payload
afterwards. -/
structure Routed where
  target : Nat
  offset : Option Nat
  addrAfter : Nat
  deriving DecidableEq, Repr

/-- `b_transport` (204-224) of initiator with offset `toff`; `transport_dbg`
(256-277) routes in the same way. -/
def bTransport (map : List Slot) (toff a : Nat) : Option Routed :=
  let addr := (a + toff) % M
  match mapAddress map addr with
  | .hit sk o => some { target := sk, offset := some o, addrAfter := addr }
  | .miss => some { target := 0, offset := none, addrAfter := addr }
  | .undefined => none

/-- `transport_dbg` returns this whatever the target returned (276). -/
def dbgCount (_targetCount : Nat) : Nat := 0

/-- `unmap_offset` (181-201); `none`: a fatal report or an uninitialised or
out-of-range element. -/
def unmapOffset (nTargets : Nat) (map : List Slot) (target offset : Nat) : Option Nat :=
  if target ≥ nTargets then none
  else
    match map[target]? with
    | some (some e) =>
      if e.absolute then some offset
      else if offset ≥ e.size then none
      else some ((e.addr + offset) % M)
    | _ => none

/-- `get_direct_mem_ptr` (227-253): `dmi` is what the target answers for the
address it is given (start, end, granted).  Result: start, end, granted as
returned to the initiator. -/
def getDmi (nTargets : Nat) (map : List Slot) (toff a : Nat) (dmi : Nat → Nat → Nat × Nat × Bool) :
    Option (Nat × Nat × Bool) :=
  match mapAddress map ((a + toff) % M) with
  | .hit sk o =>
    let r := dmi sk o
    match unmapOffset nTargets map sk r.1 with
    | none => none
    | some s =>
      match unmapOffset nTargets map sk r.2.1 with
      | none => none
      | some e => some (s, e, r.2.2)
  | _ => none

/-- `invalidate_direct_mem_ptr` (280-297) from target `id`: the range sent to
every initiator.  `toffs` are the initiators' offsets; the code indexes them by
the *target* number. -/
def invalidate (nTargets : Nat) (map : List Slot) (toffs : List Nat) (id s e : Nat) : Option (Nat × Nat) :=
  match unmapOffset nTargets map id s, unmapOffset nTargets map id e, toffs[id]? with
  | some s', some e', some t => some ((s' + M - t) % M, (e' + M - t) % M)
  | _, _, _ => none

end Verif.Iconnect
