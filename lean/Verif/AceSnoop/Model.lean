import Verif.Base.Tlm

/-!
# ACE snoop channels

Model of `/repo/tlm-bridges/private/ace/snoop-channels.h`: the slave side
(`ACESnoopChannels_S`, used by `ace2tlm-bridge.h`) turns TLM snoops into AC, CR and CD
transfers, the master side (`ACESnoopChannels_M`, used by `tlm2ace-bridge.h`) turns them
back.  Here the two are connected to each other; a handshake on a channel is one step,
taken when one side offers and the other accepts.  The threads run in any order.  Reset
is in `Reset.lean`, the wait for other transactions on the line in `Order.lean`.
-/

namespace Verif.AceSnoop
open Verif

/-- Template parameters: `ADDR_WIDTH`, bytes per CD beat (`CD_DATA_WIDTH/8`),
`CACHELINE_SZ`. -/
structure Cfg where
  aw : Nat
  bw : Nat
  line : Nat

/-- The five response attributes of a snoop (`genattr_extension`). -/
structure Flags where
  dt : Bool := false
  err : Bool := false
  dirty : Bool := false
  shared : Bool := false
  unique : Bool := false
deriving DecidableEq, Repr

/-- A snoop at the slave side's TLM socket: identity of the call, address, snoop type,
security, length of the caller's buffer, response attributes as passed in. -/
structure Req where
  id : Nat
  addr : Nat
  snoop : Nat
  ns : Bool
  len : Nat
  flags : Flags := {}
deriving DecidableEq, Repr

/-- What is on the AC channel. -/
structure AcBeat where
  addr : Nat
  snoop : Nat
  prot : BitVec 3
deriving DecidableEq, Repr

/-- A snoop at the master side's TLM socket (`ACETransaction` constructor, 136-166). -/
structure MTr where
  addr : Nat
  snoop : Nat
  ns : Bool
deriving DecidableEq, Repr

/-- The target's answer: the buffer, and the response attributes. -/
structure Ans where
  data : List Byte
  flags : Flags
deriving DecidableEq, Repr

/-- `ac_thread` of the slave side, 781-783, with `GetAxProt` (608-616): `AXI_PROT_NS` is
bit 1; the signals are `ADDR_WIDTH` and 4 bits wide. -/
def sendAc (c : Cfg) (r : Req) : AcBeat :=
  { addr := r.addr % 2 ^ c.aw, snoop := r.snoop % 16, prot := if r.ns then 2#3 else 0#3 }

/-- `ac_thread` of the master side, 237-241, with the constructor 145-148. -/
def recvAc (b : AcBeat) : MTr := { addr := b.addr, snoop := b.snoop, ns := decide (b.prot &&& 2#3 = 2#3) }

/-- `GetCrResp`, 186-207. -/
def crResp (f : Flags) : BitVec 5 :=
  (if f.dt then 1#5 <<< 0 else 0) ||| (if f.err then 1#5 <<< 1 else 0) |||
  (if f.shared then 1#5 <<< 3 else 0) ||| (if f.dirty then 1#5 <<< 2 else 0) |||
  (if f.unique then 1#5 <<< 4 else 0)

/-- `SetCrResp`, 622-645: attributes are set, never cleared. -/
def setCrResp (f : Flags) (resp : BitVec 5) : Flags :=
  { dt := f.dt || decide ((resp >>> 0) &&& 1#5 = 1#5)
    err := f.err || decide ((resp >>> 1) &&& 1#5 = 1#5)
    dirty := f.dirty || decide ((resp >>> 2) &&& 1#5 = 1#5)
    shared := f.shared || decide ((resp >>> 3) &&& 1#5 = 1#5)
    unique := f.unique || decide ((resp >>> 4) &&& 1#5 = 1#5) }

/-- One CD beat of the master side from position `pos` of the buffer, 339-350: byte lanes
past the end stay zero. -/
def cdBeat (bw : Nat) (data : List Byte) (pos : Nat) : List Byte :=
  (List.range bw).map fun i => data.getD (pos + i) 0

/-- How the slave side ends a snoop: status, what it stored in the caller's buffer (from
its start), attributes. -/
structure Result where
  status : Status
  data : List Byte
  flags : Flags
deriving DecidableEq, Repr

/-- Both sides. -/
structure St where
  /-- slave: snoops waiting for the AC channel (`acFifo`) -/
  acq : List Req := []
  /-- slave: waiting for CR (`crFifo`) -/
  sCr : List Req := []
  /-- slave: waiting for data (`cdFifo`) and the bytes the first one has -/
  sCd : List (Req × Flags) := []
  sBuf : List Byte := []
  /-- master: accepted (`m_crList`) -/
  mList : List MTr := []
  /-- master: answered by the target, on the CR channel -/
  offered : Option Flags := none
  /-- master: lines to send (`m_cdFifo`), position in the first -/
  mCd : List (List Byte) := []
  mPos : Nat := 0
  /-- master: `m_numACE` -/
  num : Nat := 0
  /-- what happened: snoops in the order submitted and sent, calls of the target with its
  answers, results -/
  submitted : List Req := []
  sent : List Req := []
  log : List (MTr × Ans) := []
  done : List (Req × Result) := []

/-- One step. -/
inductive Move
  | submit (r : Req)
  | ac
  | target (a : Ans)
  | cr
  | cd

/-- The step, if it can be taken. -/
def St.move (c : Cfg) (s : St) : Move → Option St
  -- b_transport of the slave side, 764
  | .submit r => some { s with acq := s.acq ++ [r], submitted := s.submitted ++ [r] }
  -- AC handshake: 777-796 and 221-246 (`acready` only below 16 transactions)
  | .ac =>
    match s.acq with
    | [] => none
    | r :: rest =>
      if s.num < 16 then
        some { s with
          acq := rest, sCr := s.sCr ++ [r], sent := s.sent ++ [r],
          mList := s.mList ++ [recvAc (sendAc c r)], num := s.num + 1 }
      else none
  -- run_tlm and what follows it: 261, 273-279
  | .target a =>
    match s.offered, s.mList with
    | none, t :: rest =>
      some { s with
        mList := rest, offered := some a.flags, log := s.log ++ [(t, a)],
        mCd := if a.flags.dt then s.mCd ++ [a.data] else s.mCd }
    | _, _ => none
  -- CR handshake: 281-291 and 803-827
  | .cr =>
    match s.offered, s.sCr with
    | some f, r :: rest =>
      let s' := { s with offered := none, sCr := rest, num := if f.dt then s.num else s.num - 1 }
      let g := setCrResp r.flags (crResp f)
      if g.err then some { s' with done := s.done ++ [(r, ⟨.generic, [], g⟩)] }
      else if g.dt then some { s' with sCd := s.sCd ++ [(r, g)] }
      else some { s' with done := s.done ++ [(r, ⟨.ok, [], g⟩)] }
    | _, _ => none
  -- CD handshake: 336-361 and 844-876
  | .cd =>
    match s.mCd, s.sCd with
    | d :: ds, (r, g) :: rs =>
      let beat := cdBeat c.bw d s.mPos
      let pos := min (s.mPos + c.bw) d.length
      let buf := s.sBuf ++ beat.take (r.len - s.sBuf.length)
      let s' := if d.length ≤ pos then { s with mCd := ds, mPos := 0, num := s.num - 1 }
        else { s with mPos := pos }
      if r.len ≤ buf.length then
        some { s' with sCd := rs, sBuf := [], done := s.done ++ [(r, ⟨.ok, buf, g⟩)] }
      else some { s' with sBuf := buf }
    | _, _ => none

end Verif.AceSnoop
