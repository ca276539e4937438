import Verif.Base.Tlm

/-!
# `tlm_exclusive_monitor`

Models `/repo/tlm-modules/tlm-exmon.h`.  Address ranges are assumed not to wrap
around the 64-bit address space.
-/

namespace Verif.Exmon
open Verif

/-- An access as the monitor sees it.  `resp` is what the target would answer if
the access were forwarded. -/
structure Acc where
  cmd : Cmd
  excl : Bool := false
  id : BitVec 32 := 0
  addr : Nat
  len : Nat
  resp : Status := .ok
  deriving DecidableEq, Repr

/-- A monitored `Transaction` (58-120): masked id, address, length. -/
structure Entry where
  mid : BitVec 32
  addr : Nat
  len : Nat
  deriving DecidableEq, Repr

/-- `get_masked_id` (111-114) of the transaction `monitor_location` would create. -/
def entryOf (mask : BitVec 32) (a : Acc) : Entry := { mid := a.id &&& mask, addr := a.addr, len := a.len }

/-- `is_monitored_location` (145-157): `has_masked_id` and `has_same_location`. -/
def monitored (mask : BitVec 32) (mon : List Entry) (a : Acc) : Bool :=
  mon.any fun t => t.mid == a.id &&& mask && t.addr == a.addr && t.len == a.len

/-- `has_location` (75-82). -/
def Entry.hasLocation (t : Entry) (a : Acc) : Bool := t.addr ≤ a.addr && a.addr < t.addr + t.len

/-- `monitor_clear_locations` (159-172). -/
def clearLocations (mon : List Entry) (a : Acc) : List Entry := mon.filter fun t => !t.hasLocation a

/-- `monitor_location` (188-196) with `monitor_clear_id` (174-186), which removes
the first entry with that id. -/
def monitorLocation (mask : BitVec 32) (mon : List Entry) (a : Acc) : List Entry :=
  mon.eraseP (fun t => t.mid == a.id &&& mask) ++ [entryOf mask a]

/-- The outcome of one access: was it forwarded to the target, the response the
initiator sees, and the value the monitor stored in the initiator's
"exclusive handled" attribute (`none`: not touched). -/
structure Out where
  acc : Acc
  forwarded : Bool
  status : Status
  handled : Option Bool
  deriving DecidableEq, Repr

/-- What `genattr->set_exclusive_handled()` without argument stores: the default
argument of the generated setter (`tlm-extensions/genattr.h` 33-36 and 211) is
`false`. -/
def setHandledDefault : Bool := false

/-- `b_transport` (213-255). -/
def step (mask : BitVec 32) (mon : List Entry) (a : Acc) : List Entry × Out :=
  match a.cmd with
  | .write =>
    if a.excl then
      if monitored mask mon a then
        (clearLocations mon a, { acc := a, forwarded := true, status := a.resp, handled := some setHandledDefault })
      else (mon, { acc := a, forwarded := false, status := .ok, handled := some setHandledDefault })
    else (clearLocations mon a, { acc := a, forwarded := true, status := a.resp, handled := none })
  | .read =>
    if a.excl ∧ a.resp = .ok then
      (monitorLocation mask mon a, { acc := a, forwarded := true, status := a.resp, handled := some setHandledDefault })
    else (mon, { acc := a, forwarded := true, status := a.resp, handled := none })
  | .ignore => (mon, { acc := a, forwarded := true, status := a.resp, handled := none })

/-- A history of accesses from all masters, newest last: monitor and outcomes. -/
def run (mask : BitVec 32) : List Entry → List Acc → List Entry × List Out
  | mon, [] => (mon, [])
  | mon, a :: as =>
    let r := step mask mon a
    let q := run mask r.1 as
    (q.1, r.2 :: q.2)

end Verif.Exmon
