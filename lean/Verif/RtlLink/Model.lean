import Verif.RtlTx.Model

/-!
The link state machine of the CHI and CXS RTL bridges:
`/repo/rtl-bridges/pcie-host/chi/rtl/common/chi_channel_if.v` 202-308 and
`/repo/rtl-bridges/pcie-host/cxs/rtl/common/cxs_channel_if.v` 141-265.

One step is one rising clock edge.  Reset is the state at the start.  Whether
all credits came back or went out is an input here.
-/

namespace Verif.RtlLink

open Verif.RtlTx (Kind)

/-- The state of one direction of a link, `chi_channel_if.v` 131-134. -/
inductive L where
  | stop
  | act
  | deact
  | run
  deriving DecidableEq, Repr

/-- The registers: the states, the request and acknowledgement driven, the
acknowledgement and request of the other side as last sampled, and the hint of
CXS as last sampled.  The hint CXS drives is left out. -/
structure Regs where
  tx : L
  rx : L
  req : Bool
  ack : Bool
  ackIn : Bool
  reqIn : Bool
  hint : Bool
  deriving DecidableEq, Repr

/-- The reset leaves `m_chi_txlinkactiveack_i` and `m_chi_rxlinkactivereq_i` as
they were; the wires of the other side are low then. -/
def reset : Regs := ⟨.stop, .stop, false, false, false, false, false⟩

/-- What comes in: `configure_bridge`, `go_to_lp`, the acknowledgement and the
request of the other side, `CXS_DEACT_HINT_TX`, `all_rx_credits_received` and
`all_tx_credits_sent`. -/
structure In where
  conf : Bool
  lp : Bool
  ack : Bool
  req : Bool
  hint : Bool
  rxAll : Bool
  txAll : Bool
  deriving DecidableEq, Repr

/-- May the transmit link be brought up: `chi_channel_if.v` 224, 233,
`cxs_channel_if.v` 169, 179. -/
def begin? (k : Kind) (s : Regs) (i : In) : Bool :=
  match k with
  | .chi => i.conf && !i.lp
  | .cxs => i.conf && !s.hint

/-- Is the transmit link to be taken down: `chi_channel_if.v` 267, 276,
`cxs_channel_if.v` 216, 226. -/
def end? (k : Kind) (s : Regs) (i : In) : Bool :=
  match k with
  | .chi => i.conf && i.lp
  | .cxs => s.hint || i.lp

/-- The states, the request and the acknowledgement: `chi_channel_if.v`
213-299, `cxs_channel_if.v` 156-251. -/
def move (k : Kind) (s : Regs) (i : In) : L × L × Bool × Bool :=
  match s.tx, s.rx with
  | .stop, .stop =>
    (if begin? k s i then .act else .stop,
     if i.conf && !i.lp && s.reqIn then .act else .stop,
     begin? k s i, false)
  | .stop, .act => (if begin? k s i then .act else .stop, .act, begin? k s i, false)
  | .act, .stop => (.act, if s.reqIn && i.conf then .act else .stop, true, false)
  | .act, .act => (if s.ackIn then .run else .act, .run, true, true)
  | .run, .act => (.run, .run, true, true)
  | .act, .run => (if s.ackIn then .run else .act, .run, true, true)
  | .run, .run =>
    (if end? k s i then .deact else .run, if !s.reqIn then .deact else .run, !end? k s i, true)
  | .run, .deact => (if end? k s i then .deact else .run, .deact, !end? k s i, true)
  | .deact, .run => (.deact, if !s.reqIn then .deact else .run, false, true)
  | .deact, .deact =>
    (if !s.ackIn then .stop else .deact, if i.rxAll then .stop else .deact, false,
     match k with
     | .chi => false
     | .cxs => s.ack && !i.rxAll)
  | .stop, .deact =>
    (.stop, if i.rxAll then .stop else .deact, false,
     match k with
     | .chi => false
     | .cxs => s.ack && !i.rxAll)
  | .deact, .stop => (if !s.ackIn && i.txAll then .stop else .deact, .stop, false, false)
  | tx, rx => (tx, rx, s.req, s.ack)

/-- One cycle. -/
def step (k : Kind) (s : Regs) (i : In) : Regs where
  tx := (move k s i).1
  rx := (move k s i).2.1
  req := (move k s i).2.2.1
  ack := (move k s i).2.2.2
  ackIn := i.ack
  reqIn := i.req
  hint := i.hint

end Verif.RtlLink
