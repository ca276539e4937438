import Verif.Base.Bytes

/-!
# Remote-port outstanding-response table

Models `remoteport_tlm_dev::response_lookup`, `response_wait`, `response_done`
(`/repo/libremote-port/remote-port-tlm.cc` 335-395), the response branch of
`rp_process` (550-574) and the id allocation `rp_pkt_id++`
(`remote-port-tlm-memory-slave.cc` 120 and the wires/ATS devices).

Scheduling: the three operations below are the atomic sections between
`wait`s; a history is any interleaving of them.  Blocked callers are
represented by their local variables only (`waiting`: packet id to slot index).
One device; each device has its own table.  Simulation events and the recursive
packet processing of the adaptor thread are dropped: they only decide *when*
operations happen.
-/

namespace Verif.RPSlots
open Verif

/-- `RP_MAX_OUTSTANDING_TRANSACTIONS` (`remote-port-tlm.h` 55). -/
def N : Nat := 256

/-- A received response packet: its id and everything else. -/
structure Resp where
  id : BitVec 32
  body : List Byte
  deriving DecidableEq, Repr

/-- One element of `resp[]` (`remote-port-tlm.h` 63-69). -/
structure Slot where
  pkt : Resp
  id : BitVec 32
  used : Bool
  valid : Bool
  deriving DecidableEq, Repr

structure State where
  slots : Nat → Slot
  /-- local variable `i` of the `response_wait` call blocked on an id -/
  waiting : BitVec 32 → Option Nat
  /-- `rp_pkt_id` -/
  next : BitVec 32

/-- Constructor (`remote-port-tlm.h` 71-79). -/
def init (next : BitVec 32) : State :=
  { slots := fun _ => { pkt := ⟨0, []⟩, id := 0, used := false, valid := false },
    waiting := fun _ => none, next }

inductive Op
  /-- a caller allocates an id, sends its request and enters `response_wait` -/
  | issue
  /-- `rp_process` receives a response packet; `posted` is the flag bit -/
  | arrive (posted : Bool) (p : Resp)
  /-- the caller blocked on `id` is scheduled -/
  | poll (id : BitVec 32)
  deriving DecidableEq, Repr

inductive Out
  | issued (id : BitVec 32)
  | nothing
  | got (p : Resp)
  deriving DecidableEq, Repr

def upd {α β : Type} [DecidableEq α] (f : α → β) (a : α) (b : β) : α → β := fun x => if x = a then b else f x

/-- `response_lookup` (335-348): first used slot with this id. -/
def lookup (s : State) (id : BitVec 32) : Option Nat :=
  (List.range N).find? fun i => (s.slots i).used && (s.slots i).id == id

/-- First free slot (354-358). -/
def free (s : State) : Option Nat := (List.range N).find? fun i => !(s.slots i).used

/-- One atomic step; `none` is an assertion failure (table overrun, line 365;
unhandled response, line 566; id mismatch, `remote-port-tlm-memory-slave.cc`
148). -/
def step (s : State) : Op → Option (State × Out)
  | .issue =>
    match free s with
    | none => none
    | some i =>
      some ({ slots := upd s.slots i { s.slots i with id := s.next, used := true },
              waiting := upd s.waiting s.next (some i), next := s.next + 1 }, .issued s.next)
  | .arrive posted p =>
    if posted then some (s, .nothing)
    else
      match lookup s p.id with
      | none => none
      | some i => some ({ s with slots := upd s.slots i { s.slots i with pkt := p, valid := true } }, .nothing)
  | .poll id =>
    match s.waiting id with
    | none => some (s, .nothing)
    | some i =>
      if (s.slots i).valid then
        if (s.slots i).pkt.id = id then
          some ({ s with slots := upd s.slots i { s.slots i with used := false, valid := false },
                         waiting := upd s.waiting id none }, .got (s.slots i).pkt)
        else none
      else some (s, .nothing)

/-- Outputs of a whole history. -/
def run (s : State) : List Op → Option (List Out)
  | [] => some []
  | o :: os =>
    match step s o with
    | none => none
    | some (s', out) => (run s' os).map (out :: ·)

end Verif.RPSlots
