import Verif.Cxs.Flit
import Verif.ChiLink.Model

/-!
Two CXS bridges back to back, one direction: `TxLink` (`txlink.h`), `RxLink`
(`rxlink.h`) and `PortState` (`portstate.h`) of `/repo/tlm-bridges/private/ccix`,
and the two threads of `/repo/tlm-bridges/tlm2cxs-bridge.h`.

As in `ChiLink/Model.lean`, one `tick` is one rising clock edge, signals written
at an edge are seen at the next one, and both orders of `PortState` and
`rx_thread` are modelled. Credits are natural numbers; they stay at 15 or less.
`none` stands for a failed assertion or undefined behaviour. Deletion of objects
is not modelled.
-/
namespace Verif.Cxs
open ChiLink (LinkState linkState In)

structure Link where
  /-- signals -/
  req : Bool := false
  ack : Bool := false
  valid : Bool := false
  data : List Byte
  cntl : BitVec 64 := 0
  gnt : Bool := false
  rtn : Bool := false
  /-- `PortState` of the transmitter: `m_state == Run`, `deactivateTx` -/
  want : Bool := true
  deact : Bool := false
  /-- `TxLink`: `m_credits`, `m_tlpList` -/
  txCred : Nat := 0
  queue : List Tlp := []
  /-- `RxLink`: `m_credits`, `m_assemblers`, `m_ccixMsgs` -/
  rxCred : Nat := 15
  asms : List Asm := []
  msgs : List Msg := []
  /-- messages handed to the socket `rxlink_init_socket`, in order -/
  delivered : List Msg := []
  /-- senders answered (`NotifyDone`) -/
  completed : Nat := 0

/-- After construction. -/
def Link.init (c : Cfg) : Link := { data := List.replicate (4 * c.words) 0 }

def Link.state (l : Link) : LinkState := linkState l.req l.ack

/-- Outputs and new state of the transmit thread. -/
structure TxOut where
  valid : Bool
  data : List Byte
  cntl : BitVec 64
  rtn : Bool
  cred : Nat
  queue : List Tlp
  popped : Nat

/-- Removing a finished packet (`txlink.h` 116-122). -/
def popDone (q : List Tlp) : List Tlp × Nat :=
  match q with
  | t :: rest => if t.done then (rest, 1) else (t :: rest, 0)
  | [] => ([], 0)

/-- Setting up the next flit (`txlink.h` 127-145). -/
def sendNext (c : Cfg) (data : List Byte) (cntl : BitVec 64) (deactivating : Bool) (cred : Nat) (q : List Tlp)
    (popped : Nat) : Option TxOut :=
  match cred with
  | 0 => some ⟨false, data, cntl, false, 0, q, popped⟩
  | cred + 1 =>
    match q with
    | t :: rest =>
      (fill data 0 t {}).bind fun r => (r.2.2.toWord c).map fun w => ⟨true, r.1, w, false, cred, r.2.1 :: rest, popped⟩
    | [] =>
      if deactivating then some ⟨false, data, cntl, true, cred, [], popped⟩
      else some ⟨false, data, cntl, false, cred + 1, [], popped⟩

/-- `tx_thread` at a clock edge (`txlink.h` 86-147). -/
def txTick (c : Cfg) (l : Link) : Option TxOut :=
  match l.state with
  | .stop => some ⟨l.valid, l.data, l.cntl, l.rtn, l.txCred, l.queue, 0⟩
  | .activate => some ⟨false, l.data, l.cntl, false, l.txCred + l.gnt.toNat, l.queue, 0⟩
  | st =>
    sendNext c l.data l.cntl (st == .deactivate) (l.txCred + l.gnt.toNat) (popDone l.queue).1 (popDone l.queue).2

/-- New state of the receive thread. -/
structure RxOut where
  gnt : Bool
  cred : Nat
  asms : List Asm
  msgs : List Msg

/-- The credit pulse (`rxlink.h` 143-153). -/
def giveCredit (deactivating : Bool) (cred : Nat) : Nat × Bool :=
  if deactivating then (cred, false)
  else match cred with
    | 0 => (0, false)
    | n + 1 => (n, true)

/-- `rx_thread` at a clock edge (`rxlink.h` 108-155). -/
def rxTick (c : Cfg) (k : Hdr) (l : Link) : Option RxOut :=
  match l.state with
  | .stop => some ⟨false, l.rxCred, l.asms, l.msgs⟩
  | st =>
    let cred := l.rxCred + (l.valid || l.rtn).toNat
    let g := giveCredit (st == .deactivate) cred
    if l.valid then
      (rxFlit c k l.data l.cntl l.asms l.msgs).map fun r => ⟨g.2, g.1, r.1, r.2⟩
    else some ⟨g.2, g.1, l.asms, l.msgs⟩

/-- Receiving side of `state_thread` (`portstate.h` 108-131). -/
def ackTick (l : Link) (i : In) (rxCredAfter : Nat) : Bool :=
  match l.state with
  | .activate => true
  | .deactivate => if (if i.portLast then rxCredAfter else l.rxCred) == 15 then false else l.ack
  | _ => l.ack

/-- Transmitting side of `state_thread` (`portstate.h` 120-124, 133-159);
`i.fwd`: the port's receive link is being deactivated. -/
def reqTick (l : Link) (i : In) : Bool × Bool :=
  match l.state with
  | .stop => (if l.want then true else l.req, l.deact)
  | .run => if l.deact || i.fwd || !l.want then (false, false) else (l.req, false)
  | .activate => (l.req, l.deact || i.fwd)
  | .deactivate => (l.req, l.deact)

/-- Signals and state after the edge. -/
def Link.after (l : Link) (i : In) (tx : TxOut) (rx : RxOut) : Link :=
  { req := (reqTick l i).1, ack := ackTick l i rx.cred, valid := tx.valid, data := tx.data, cntl := tx.cntl,
    gnt := rx.gnt, rtn := tx.rtn, want := l.want, deact := (reqTick l i).2, txCred := tx.cred,
    queue := tx.queue, rxCred := rx.cred, asms := rx.asms, msgs := rx.msgs, delivered := l.delivered,
    completed := l.completed + tx.popped }

inductive LinkOp where
  | submit (m : Msg)      -- `b_transport` on `txlink_tgt_socket`
  | setState (run : Bool) -- `SetPortState`
  | tick (i : In)
  | deliver               -- `rx_thread` of the bridge takes the next message
  | reset                 -- `resetn` falls and rises again

/-- `GetNext` (`rxlink.h` 88-102) and the transport call (`tlm2cxs-bridge.h`
216-229). Nothing happens while there is no message. -/
def Link.deliver (l : Link) : Link :=
  match l.msgs with
  | [] => l
  | m :: ms => { l with msgs := ms, delivered := l.delivered ++ [m] }

/-- One step. On reset (`txlink.h` 89-93 and 183-190, `rxlink.h` 116-120 and
315-323, `portstate.h` 101-106) `txvalid`, the credit pulse, request and
acknowledge fall and the lists are cleared. `txcrdrtn`, `deactivateTx` and both
credit counts are kept. -/
def Link.step (c : Cfg) (k : Hdr) (l : Link) : LinkOp → Option Link
  | .submit m => (tlpBytes k m).map fun b => { l with queue := l.queue ++ [{ bytes := b }] }
  | .setState b => some { l with want := b }
  | .tick i => (txTick c l).bind fun tx => (rxTick c k l).map fun rx => l.after i tx rx
  | .deliver => some l.deliver
  | .reset => some { l with req := false, ack := false, valid := false, gnt := false, queue := [], asms := [],
                            msgs := [], completed := l.completed + l.queue.length }

def Link.run (c : Cfg) (k : Hdr) (l : Link) : List LinkOp → Option Link
  | [] => some l
  | o :: os => (l.step c k o).bind fun l => Link.run c k l os

end Verif.Cxs
