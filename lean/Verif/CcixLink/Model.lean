import Verif.Base.Tlm

/-! Credits and identifiers of the link between two chips
(`/repo/tlm-modules/private/ccix/ccixport.h`, `LinkCredits`, `CCIXMisc`, `CCIXLink`,
2455-2845), one direction: requests and snoops from one port to the other, credits
back. -/
namespace Verif.CcixLink

/-- Requests as far as credits are concerned: without data, writes, atomics. -/
inductive Kind
  | plain
  | write
  | atomic
  deriving DecidableEq, Repr

/-- How many of each. -/
structure Count where
  plain : Nat := 0
  write : Nat := 0
  atomic : Nat := 0
  deriving DecidableEq, Repr

def Count.get (c : Count) : Kind → Nat
  | .plain => c.plain
  | .write => c.write
  | .atomic => c.atomic

def Count.inc (c : Count) : Kind → Count
  | .plain => { c with plain := c.plain + 1 }
  | .write => { c with write := c.write + 1 }
  | .atomic => { c with atomic := c.atomic + 1 }

def Count.dec (c : Count) : Kind → Count
  | .plain => { c with plain := c.plain - 1 }
  | .write => { c with write := c.write - 1 }
  | .atomic => { c with atomic := c.atomic - 1 }

def Count.all (c : Count) : Nat := c.plain + c.write + c.atomic

/-- `LinkCredits` (2455-2493): 32-bit counters. Credits for miscellaneous messages are
left out: the port sends none that need them. -/
structure Credits where
  req : Nat
  data : Nat
  snp : Nat
  deriving DecidableEq, Repr

/-- `Dec…`: wraps. -/
def dec32 (n : Nat) : Nat := if n = 0 then 2 ^ 32 - 1 else n - 1

/-- `Inc…`: wraps. -/
def inc32 (n k : Nat) : Nat := if n + k < 2 ^ 32 then n + k else n + k - 2 ^ 32

/-- The sending port's credits (`m_rxCredits`); a thread waiting in `Transmit` of a
snoop; requests and snoops on the way; those the other port has taken and not
finished; the credits it has not yet given (`m_txCredits`); credits on the way. -/
structure St where
  have_ : Credits
  waits : Bool
  wire : Count
  wireSnp : Nat
  held : Count
  heldSnp : Nat
  give : Credits
  flight : List Credits
  deriving DecidableEq, Repr

/-- `m_txCredits(TxnIDs::NumIDs)`, `m_rxCredits(0)` (2586-2587). -/
def St.init : St :=
  ⟨⟨0, 0, 0⟩, false, {}, 0, {}, 0, ⟨256, 256, 256⟩, []⟩

/-- What happens. `credit` is the arrival of the oldest credit message. -/
inductive Move
  | sendReq (k : Kind)
  | sendSnp
  | recvReq (k : Kind)
  | recvSnp
  | doneReq (k : Kind)
  | doneSnp
  | grant
  | credit
  deriving DecidableEq, Repr

/-- `SetupCredits` (2526-2558): at most 255 of each. -/
def atMost (n : Nat) : Nat := if n > 255 then 255 else n

/-- One step.

`sendReq`: `Transmit(CCIXReq*)` and `WaitForCredits` (2608-2618, 2739-2763): only
writes wait for and take a data credit.

`sendSnp`: `Transmit(CCIXSnpReq*)` (2620-2629): without a credit the thread waits for
*one* credit message, of whatever credits, and then takes a credit.

`recvReq`, `recvSnp`: `Receive_CCIXReq`, `Receive_CCIXSnpReq` (2860-2874, 2972-2985).
`doneReq`: `CCIXReq_Done_HN` (3219-3224), with a data credit for writes and atomics
(3402, 3609, 3651); `doneSnp`: `CCIXSnpReq_Done_RN` (3226-3231).

`grant`: `tx_thread` (2777-2796). `credit`: `UpdateRxCredits` (2666-2673). -/
def St.move (s : St) : Move → Option St
  | .sendReq k =>
    if s.have_.req > 0 ∧ (k = .write → s.have_.data > 0) then
      some { s with have_ := { s.have_ with req := dec32 s.have_.req,
                                            data := if k = .write then dec32 s.have_.data else s.have_.data },
                    wire := s.wire.inc k }
    else none
  | .sendSnp =>
    if s.waits then none
    else if s.have_.snp = 0 then some { s with waits := true }
    else some { s with have_ := { s.have_ with snp := dec32 s.have_.snp }, wireSnp := s.wireSnp + 1 }
  | .recvReq k => if s.wire.get k = 0 then none else some { s with wire := s.wire.dec k, held := s.held.inc k }
  | .recvSnp => if s.wireSnp = 0 then none else some { s with wireSnp := s.wireSnp - 1, heldSnp := s.heldSnp + 1 }
  | .doneReq k =>
    if s.held.get k = 0 then none
    else some { s with held := s.held.dec k,
                       give := { s.give with req := inc32 s.give.req 1,
                                             data := if k = .plain then s.give.data else inc32 s.give.data 1 } }
  | .doneSnp =>
    if s.heldSnp = 0 then none
    else some { s with heldSnp := s.heldSnp - 1, give := { s.give with snp := inc32 s.give.snp 1 } }
  | .grant =>
    if s.give.req = 0 ∧ s.give.data = 0 ∧ s.give.snp = 0 then none
    else
      let g : Credits := ⟨atMost s.give.req, atMost s.give.data, atMost s.give.snp⟩
      some { s with give := ⟨s.give.req - g.req, s.give.data - g.data, s.give.snp - g.snp⟩, flight := s.flight ++ [g] }
  | .credit =>
    match s.flight with
    | [] => none
    | g :: gs =>
      let h : Credits := ⟨inc32 s.have_.req g.req, inc32 s.have_.data g.data, inc32 s.have_.snp g.snp⟩
      if s.waits then
        some { s with have_ := { h with snp := dec32 h.snp }, wireSnp := s.wireSnp + 1, waits := false, flight := gs }
      else some { s with have_ := h, flight := gs }

/-- The states the two ports can get into. -/
inductive Reach : St → Prop
  | init : Reach .init
  | step {s s' : St} (m : Move) : Reach s → s.move m = some s' → Reach s'

/-- A sequence of steps. -/
def St.runs (s : St) : List Move → Option St
  | [] => some s
  | m :: ms => (s.move m).bind fun s' => s'.runs ms

/-! ### Credits carried by other messages -/

/-- `ExtractReq`, `ExtractData`, `ExtractSnoop` (2719-2737). -/
def piggyback (b : BitVec 8) : Credits :=
  ⟨b.toNat % 4, b.toNat / 4 % 4, b.toNat / 4 % 4⟩

/-! ### Writes that enter the port -/

/-- A write or atomic store from a request node of the chip, after `ProcessReq`
(3294-3346): whether it waits for an acknowledgement, whether that has come, whether
its data has been sent on, whether it and its identifier are in use, and how many
times it was sent on. -/
structure Entry where
  unique : Bool
  waiting : Bool
  acked : Bool := false
  sent : Bool := false
  live : Bool := true
  copies : Nat := 0
  deriving DecidableEq, Repr

/-- `SetWaitingForCompAck` (3337-3339). -/
def Entry.of (unique exp : Bool) : Entry := { unique, waiting := unique && exp }

/-- Messages of the request node for it: its data, the data with the acknowledgement
in it, the acknowledgement. -/
inductive Msg
  | data
  | dataAck
  | ack
  deriving DecidableEq, Repr

/-- `ProcessDat` (3439-3475) and the acknowledgement of `ProcessResp` (3505-3532).
`none`: an assertion fails. -/
def Entry.take (e : Entry) : Msg → Option Entry
  | .data | .dataAck =>
    if e.live then
      if ¬ e.waiting ∨ (e.unique ∧ e.acked) then some { e with copies := e.copies + 1, live := false }
      else if e.unique then some { e with copies := e.copies + 1, sent := true }
      else some { e with copies := e.copies + 1 }
    else none
  | .ack =>
    if e.live ∧ e.unique then
      if e.sent then some { e with live := false } else some { e with acked := true }
    else none

def Entry.run (e : Entry) : List Msg → Option Entry
  | [] => some e
  | m :: ms => (e.take m).bind fun e' => e'.run ms

end Verif.CcixLink
