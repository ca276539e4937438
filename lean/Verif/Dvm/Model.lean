/-!
# DVM syncs of the ACE interconnect: model

A master sends a DVM Sync, the interconnect sends it on to the other masters which
take part, each of these answers with a DVM Complete of its own, and when all have
done so the interconnect sends the initiator a DVM Complete.

File: `/repo/tlm-modules/iconnect-ace.h` 1071-1137 (`PortDVMCompleteTracker`),
1139-1256 (`DVMCompleteHandler`), 1348-1371 (`snoop_engine_thread`), 1444-1471
(`exec_dvm_complete`, `handle_dvm_complete`).

Simplifications: a port is its number; which ports take part does not change; the
snoop which brings the Sync to the other masters is not modelled, only that they
know of it; `m_running` is always false (1076, 1088, 1125), so that the assertion
of 1158 always holds and is left out; a call of `snoop_master` (1448) has sent
what it is to send and returns at some later event.
-/

namespace Verif.Dvm

/-- The number of masters, and which take part (`GetForwardDVM`). -/
structure Conf where
  n : Nat
  part : Nat → Bool

structure State where
  /-- `m_list`: the ports of the trackers -/
  list : List Nat
  /-- `!m_port_done[id]` of the tracker of a port -/
  wait : Nat → Nat → Bool
  /-- the threads of `exec_dvm_complete` in `snoop_master`, by the port of the tracker -/
  execs : List Nat
  /-- what `snoop_master` was called for: the ports which were sent a Complete -/
  sent : List Nat
  /-- the assertion of 1201 failed -/
  failed : Bool

/-- 1079-1090, 1142-1152. -/
def start : State := { list := [], wait := fun _ _ => false, execs := [], sent := [], failed := false }

inductive Ev where
  /-- the engine takes a DVM Sync of a port; a DVM Complete of a port -/
  | sync (p : Nat)
  | complete (q : Nat)
  /-- the `k`th of the threads in `snoop_master` returns -/
  | finish (k : Nat)
  deriving DecidableEq, Repr

/-- `StartCollectingFor`, 1154-1177. -/
def sync (c : Conf) (s : State) (p : Nat) : State :=
  { s with
    wait := fun x q => if x = p ∧ q < c.n ∧ c.part q = true ∧ p ≠ q then true else s.wait x q
    list := s.list ++ [p] }

/-- `Done`, 1112-1123. -/
def done (c : Conf) (w : Nat → Bool) : Bool := (List.range c.n).all fun i => !w i

/-- `ReceivedFrom` (1185-1202, with `PortDone`, 1097-1110) and `handle_dvm_complete`
(1453-1471) with `GetDone` (1204-1217). -/
def complete (c : Conf) (s : State) (q : Nat) : State :=
  match s.list.find? fun p => s.wait p q with
  | none => { s with failed := true }
  | some p =>
    let w : Nat → Nat → Bool := fun x y => if x = p ∧ y = q then false else s.wait x y
    match s.list.find? fun x => done c (w x) with
    | none => { s with wait := w }
    | some x => { s with wait := w, execs := s.execs ++ [x], sent := s.sent ++ [x] }

/-- 1450: `SnoopDone`, 1219-1224. -/
def finish (s : State) (k : Nat) : State :=
  match s.execs[k]? with
  | none => s
  | some x => { s with list := s.list.filter fun y => y != x, execs := s.execs.eraseIdx k }

/-- Nothing goes on after a failed assertion. -/
def step (c : Conf) (s : State) (e : Ev) : State :=
  if s.failed then s
  else match e with
    | .sync p => sync c s p
    | .complete q => complete c s q
    | .finish k => finish s k

end Verif.Dvm
