/-
One CHI channel: `TxChannel`, `RxChannel` and `PortState` of
`/repo/tlm-bridges/private/chi/common.h`, connected back to back
(`txlinkactivereq`/`txlinkactiveack`, `flitv`/`flit` and `lcrdv` wired to the
peer's receive side).

One `tick` is one rising clock edge. Signals written at an edge are seen at the
next one (`sc_signal` semantics), so the order in which the processes of one
edge run matters only where they share a variable: `PortState` reads the credit
count of the receive channel (`Deactivated`, 297); both orders are modelled.
`flitpend` carries no information (the receiver ignores it, 303-305) and is left
out. Several channels share one link: the other channels of the port appear as
the input `others`. `m_credits` is an `unsigned int`; the counts proved below
stay at 15 or less, so it is a natural number here.
-/
namespace Verif.ChiLink

/-- What a flit is: one of a packet, or the link-credit-return flit
(`CreateLCreditReturnFlit` 180-188). -/
inductive Wire (F : Type) where
  | data (f : F)
  | creditReturn
  deriving DecidableEq, Repr

inductive LinkState where
  | stop | activate | run | deactivate
  deriving DecidableEq, Repr

/-- `GetLinkState` (190-200). -/
def linkState (req ack : Bool) : LinkState :=
  match req, ack with
  | true, true => .run
  | true, false => .activate
  | false, true => .deactivate
  | false, false => .stop

/-- `MAX_CREDITS` (251). -/
def maxCredits : Nat := 15

structure St (F : Type) where
  /-- signals -/
  req : Bool
  ack : Bool
  wire : Option (Wire F)      -- `flitv` and `flit`
  lcrdv : Bool
  /-- transmitter's `PortState`: `m_state == Run` and `deactivateTx` -/
  want : Bool
  deact : Bool
  /-- `TxChannel`: credits and `m_txList`; a packet is its flits still to be
  sent, `[]` meaning `Done()` -/
  txCred : Nat
  queue : List (List F)
  /-- `RxChannel`: credits and everything ever put on `m_txList` -/
  rxCred : Nat
  received : List (Wire F)
  /-- history, not state of the program: flits put on the wire, credit pulses
  given, packets whose sender was notified -/
  sent : List (Wire F)
  granted : Nat
  completed : Nat

/-- After construction (92, 273, 426): the receiver owns all credits, the port
wants to run. -/
def St.init {F : Type} : St F :=
  { req := false, ack := false, wire := none, lcrdv := false, want := true, deact := false,
    txCred := 0, queue := [], rxCred := maxCredits, received := [], sent := [], granted := 0,
    completed := 0 }

def St.state {F : Type} (s : St F) : LinkState := linkState s.req s.ack

/-- Choices of the environment at one clock edge. -/
structure In where
  /-- `PortState` runs after `rx_thread` at this edge -/
  portLast : Bool
  /-- the other channels of the port are deactivated (`RxChnlsDeactivated`) -/
  others : Bool
  /-- the opposite direction asks for deactivation (490-494) -/
  fwd : Bool
  deriving DecidableEq, Repr

/-- What the transmit thread leaves behind. -/
structure TxOut (F : Type) where
  wire : Option (Wire F)
  cred : Nat
  queue : List (List F)
  popped : Nat

/-- Removing a finished packet (146-152). -/
def popDone {F : Type} (queue : List (List F)) : List (List F) × Nat :=
  match queue with
  | [] :: rest => (rest, 1)
  | q => (q, 0)

/-- Setting up the next flit (157-176); `cred` includes the credit of this
cycle. -/
def sendNext {F : Type} (deactivating : Bool) (cred : Nat) (queue : List (List F)) : TxOut F :=
  match cred with
  | 0 => ⟨none, 0, queue, 0⟩
  | cred + 1 =>
    match queue with
    | (f :: fs) :: rest => ⟨some (.data f), cred, fs :: rest, 0⟩
    | q => if deactivating then ⟨some .creditReturn, cred, q, 0⟩ else ⟨none, cred + 1, q, 0⟩

/-- `tx_thread` at a clock edge (106-178). -/
def txTick {F : Type} (s : St F) : TxOut F :=
  match s.state with
  | .stop => ⟨s.wire, s.txCred, s.queue, 0⟩
  | .activate => ⟨none, s.txCred + s.lcrdv.toNat, s.queue, 0⟩
  | st =>
    let q := popDone s.queue
    let out := sendNext (st == .deactivate) (s.txCred + s.lcrdv.toNat) q.1
    { out with popped := q.2 }

/-- `rx_thread` at a clock edge (301-352): new credit count, credit pulse,
flits received. -/
def rxTick {F : Type} (s : St F) : Nat × Bool × List (Wire F) :=
  match s.state with
  | .stop => (s.rxCred, false, [])
  | st =>
    let cred := s.rxCred + s.wire.toList.length
    if st = .deactivate then (cred, false, s.wire.toList)
    else match cred with
      | 0 => (0, false, s.wire.toList)
      | c + 1 => (c, true, s.wire.toList)

/-- `PortState::state_thread` of the receiving end (476-496): the acknowledge. -/
def ackTick {F : Type} (s : St F) (i : In) (rxCredAfter : Nat) : Bool :=
  match s.state with
  | .activate => true
  | .deactivate =>
    if i.others && (if i.portLast then rxCredAfter else s.rxCred) == maxCredits then false
    else s.ack
  | _ => s.ack

/-- `PortState::state_thread` of the transmitting end (490-494 and 503-527):
request and `deactivateTx`. -/
def reqTick {F : Type} (s : St F) (i : In) : Bool × Bool :=
  match s.state with
  | .stop => (if s.want then true else s.req, s.deact)
  | .run => if s.deact || i.fwd || !s.want then (false, false) else (s.req, false)
  | .activate => (s.req, s.deact || i.fwd)
  | .deactivate => (s.req, s.deact)

inductive Op (F : Type) where
  | submit (f : F) (fs : List F)   -- `Process` (98-103) with a packet of at least one flit
  | setState (run : Bool)          -- `SetState` (432-435)
  | tick (i : In)
  | reset                          -- `resetn` falls and rises again

/-- One step. On reset (111-115, 222-229, 310-314, 384-391, 470-474) the signals fall and
the packet lists are cleared; neither channel resets its credits. -/
def step {F : Type} (s : St F) : Op F → St F
  | .submit f fs => { s with queue := s.queue ++ [f :: fs] }
  | .setState b => { s with want := b }
  | .tick i =>
    let tx := txTick s
    let rx := rxTick s
    let r := reqTick s i
    { req := r.1, ack := ackTick s i rx.1, wire := tx.wire, lcrdv := rx.2.1,
      want := s.want, deact := r.2,
      txCred := tx.cred, queue := tx.queue,
      rxCred := rx.1, received := s.received ++ rx.2.2,
      sent := match s.state with
        | .stop => s.sent
        | _ => s.sent ++ tx.wire.toList
      granted := s.granted + rx.2.1.toNat,
      completed := s.completed + tx.popped }
  | .reset =>
    { s with req := false, ack := false, wire := none, lcrdv := false, queue := [] }

def run {F : Type} (s : St F) (ops : List (Op F)) : St F := ops.foldl step s

end Verif.ChiLink
