import Verif.RP.Model

/-!
# Remote-port wires

Models `remoteport_tlm_wires` (`/repo/libremote-port/remote-port-tlm-wires.cc`).
One step of the sender is one SystemC delta cycle in which the input signals
take new values.
-/

namespace Verif.RPWires
open Verif Verif.RP

/-- Constructor configuration (wires.cc 48-61) and whether the peer announced
`CAP_WIRE_POSTED_UPDATES`. -/
structure Cfg where
  postedUpdates : Bool := true
  peerCap : Bool := false
  dev : U32 := 0

/-- An interrupt message, before encoding. -/
structure WMsg where
  id : U32
  line : Nat
  val : Bool
  flags : U32
  deriving DecidableEq, Repr

/-- Sender state: the input signals' values, the id whose acknowledgement the
thread is blocked on (`response_wait`, 157-162), the adaptor's packet id counter
and the packets written so far. -/
structure St where
  cur : List Bool
  waiting : Option U32 := none
  nextId : U32 := 0
  out : List WMsg := []
  deriving DecidableEq

/-- `wires_in[i].event()`: the value changed in this delta. -/
def countEvents : List Bool → List Bool → Nat
  | a :: as, b :: bs => (if a ≠ b then 1 else 0) + countEvents as bs
  | _, _ => 0

/-- The loop of `wire_update` (136-154), from wire `i` with `nr` events left;
`flags` is the local of line 120.  Result: messages, next id, last id, final
flags. -/
def emit (posted : Bool) : List Bool → List Bool → Nat → Nat → U32 → U32 → U32 → List WMsg × U32 × U32 × U32
  | a :: as, b :: bs, i, nr, nid, lid, flags =>
    if a ≠ b then
      let flags' := if nr - 1 = 0 ∧ ¬ posted then 0 else flags
      let r := emit posted as bs (i + 1) (nr - 1) (nid + 1) nid flags'
      ({ id := nid, line := i, val := b, flags := flags' } :: r.1, r.2)
    else emit posted as bs (i + 1) nr nid lid flags
  | _, _, _, _, nid, lid, flags => ([], nid, lid, flags)

/-- One delta cycle of `wire_update` (117-164): the signals become `new`; `ack`
says whether the awaited response is delivered in this delta.  While the thread
is blocked in `response_wait` it is not sensitive to the wires; when released it
goes back to `wait()`, so only later changes wake it. -/
def step (c : Cfg) (s : St) (new : List Bool) (ack : Bool) : St :=
  match s.waiting with
  | some w => { s with cur := new, waiting := if ack then none else some w }
  | none =>
    let nr := countEvents s.cur new
    if nr = 0 then { s with cur := new }
    else
      let r := emit c.postedUpdates s.cur new 0 nr s.nextId 0 flagPosted
      { cur := new, nextId := r.2.1, out := s.out ++ r.1,
        waiting := if c.peerCap ∧ ¬ isPosted r.2.2.2 then some r.2.2.1 else none }

/-- A whole history of deltas. -/
def run (c : Cfg) (s : St) : List (List Bool × Bool) → St
  | [] => s
  | (v, a) :: h => run c (step c s v a) h

/-- The bytes of a message (150-153); `clk` is the same for all messages of a
delta, here a function of the message. -/
def WMsg.bytes (c : Cfg) (clk : WMsg → U64) (m : WMsg) : List Byte :=
  encInterrupt m.id c.dev (clk m) (BitVec.ofNat 32 m.line) 0 (if m.val then 1 else 0) m.flags

/-- `interrupt_action` (103-109): `none` when an assert fails. -/
def interruptAction (dev : U32) (wires : List Bool) (p : Pkt) : Option (List Bool) :=
  match p.body with
  | .interrupt _ _ line val =>
    if p.hdr.dev = dev ∧ line.toNat < wires.length then some (wires.set line.toNat (val != 0)) else none
  | _ => none

/-- `cmd_interrupt_null` (73-101) with a device: new wires and the response, if
one is sent.  `cap`: the receiver's peer announced posted updates. -/
def cmdInterrupt (cap : Bool) (dev : U32) (clk : U64) (wires : List Bool) (p : Pkt) :
    Option (List Bool × Option (List Byte)) :=
  match p.body with
  | .interrupt _ _ line val =>
    (interruptAction dev wires p).map fun w =>
      (w, if cap ∧ ¬ isPosted p.hdr.flags then
            some (encInterrupt p.hdr.id p.hdr.dev clk line 0 val (p.hdr.flags ||| flagResponse))
          else none)
  | _ => none

/-- The receiver over a whole list of packets. -/
def receive (cap : Bool) (dev : U32) (clk : U64) : List Bool → List Pkt → Option (List Bool)
  | w, [] => some w
  | w, p :: ps =>
    match cmdInterrupt cap dev clk w p with
    | none => none
    | some (w', _) => receive cap dev clk w' ps

end Verif.RPWires
