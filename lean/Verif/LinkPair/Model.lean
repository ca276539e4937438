/-!
# Both directions of a CXS link: model

Two bridges are wired back to back.  Each has a `PortState` which raises and
lowers the request of the direction it sends on and the acknowledge of the
direction it receives on, and takes its own direction down when the other one is
taken down.  `Cxs/Link.lean` has one direction with all it carries; here are
both, with their credits.

Files: `/repo/tlm-bridges/private/ccix/portstate.h` (`state_thread`, `SetState`),
`txlink.h` (`tx_thread`), `rxlink.h` (`rx_thread`, `Deactivated`).  The
`state_thread` of `/repo/tlm-bridges/private/chi/common.h` 467-531 has the same
text but for the names.

Simplifications: both bridges have one clock; a signal written at an edge is seen
at the next; of flits and returned credits only the credit is modelled, so that
`txvalid` and `txcrdrtn` are one wire; whether there is something to send is a
choice at each edge; no reset; `SetState` is called with Run or Stop.  The order
of `PortState` and `rx_thread` at an edge is a choice too, as they share the
count of credits.
-/

namespace Verif.LinkPair

inductive LinkState where
  | stop | activate | run | deactivate
  deriving DecidableEq, Repr

/-- `portstate.h` 73-83. -/
def linkState : Bool → Bool → LinkState
  | true, true => .run
  | true, false => .activate
  | false, true => .deactivate
  | false, false => .stop

/-- `rxlink.h` 55. -/
def maxCredits : Nat := 15

/-- One direction. -/
structure Dir where
  /-- the request and acknowledge signals -/
  req : Bool
  ack : Bool
  /-- a credit granted, or coming back, on the wire -/
  gnt : Bool
  back : Bool
  /-- `m_credits` of the sender and of the receiver -/
  tx : Nat
  rx : Nat
  /-- `m_state == Run` and `deactivateTx` at the sending end -/
  want : Bool
  deact : Bool
  deriving DecidableEq, Repr

def Dir.state (d : Dir) : LinkState := linkState d.req d.ack

/-- What is left open at an edge: there is something to send; the `PortState` of
the receiving end runs after its `rx_thread`. -/
structure Choice where
  send : Bool
  last : Bool
  deriving DecidableEq, Repr

/-- `tx_thread`, `txlink.h` 89-153: the wire and the credits. -/
def txTick (d : Dir) (send : Bool) : Bool × Nat :=
  let tx := if d.gnt then d.tx + 1 else d.tx
  match d.state with
  | .stop => (d.back, d.tx)
  | .activate => (false, tx)
  | .run => if 0 < tx ∧ send then (true, tx - 1) else (false, tx)
  | .deactivate => if 0 < tx then (true, tx - 1) else (false, tx)

/-- `rx_thread`, `rxlink.h` 108-155: the grant and the credits. -/
def rxTick (d : Dir) : Bool × Nat :=
  let rx := if d.back then d.rx + 1 else d.rx
  match d.state with
  | .stop => (false, d.rx)
  | .deactivate => (false, rx)
  | _ => if 0 < rx then (true, rx - 1) else (false, rx)

/-- The acknowledge: `portstate.h` 108-118 at the receiving end; `Deactivated`
is `rxlink.h` 104. -/
def ackTick (d : Dir) (last : Bool) : Bool :=
  match d.state with
  | .activate => true
  | .deactivate => if (if last then (rxTick d).2 else d.rx) = maxCredits then false else d.ack
  | _ => d.ack

/-- The request and `deactivateTx`: `portstate.h` 120-124 and 133-158 at the sending end.
`down`: its receiving direction is in Deactivate. -/
def reqTick (d : Dir) (down : Bool) : Bool × Bool :=
  match d.state with
  | .stop => (if d.want then true else d.req, d.deact)
  | .run => if d.deact || down || !d.want then (false, false) else (d.req, d.deact)
  | .activate => (d.req, d.deact || down)
  | .deactivate => (d.req, d.deact)

/-- One clock edge for one direction. -/
def dirTick (d : Dir) (down : Bool) (c : Choice) : Dir :=
  { req := (reqTick d down).1
    ack := ackTick d c.last
    gnt := (rxTick d).1
    back := (txTick d c.send).1
    tx := (txTick d c.send).2
    rx := (rxTick d).2
    want := d.want
    deact := (reqTick d down).2 }

/-- The direction from A to B and the one from B to A. -/
structure Pair where
  a : Dir
  b : Dir
  deriving DecidableEq, Repr

/-- `portstate.h` 52-65, `txlink.h` 75, `rxlink.h` 78. -/
def Dir.start : Dir :=
  { req := false, ack := false, gnt := false, back := false, tx := 0, rx := maxCredits, want := true, deact := false }

def Pair.start : Pair := ⟨.start, .start⟩

inductive Op where
  /-- `SetState` (67-70) of A or B with Run or Stop -/
  | setA (run : Bool)
  | setB (run : Bool)
  | tick (a b : Choice)
  deriving DecidableEq, Repr

def step (p : Pair) : Op → Pair
  | .setA w => { p with a := { p.a with want := w } }
  | .setB w => { p with b := { p.b with want := w } }
  | .tick a b => ⟨dirTick p.a (p.b.state == .deactivate) a, dirTick p.b (p.a.state == .deactivate) b⟩

def run (p : Pair) : List Op → Pair
  | [] => p
  | o :: t => run (step p o) t

end Verif.LinkPair
