import Verif.Ccix.Model

/-! Snoops between two chips, at the home that sends them and at the chip that
answers them. Models the parts of `/repo/tlm-modules/iconnect-chi.h`
(`PointOfCoherence`, `SnoopFilter`, `PacketRouter::RouteSnpReq`) and of
`/repo/tlm-modules/private/ccix/ccixport.h` that are involved.

One line of memory, and one request for it at a time: overlapping requests wait
(`RequestOrderer`, iconnect-chi.h 1818-1900; C28 and C50 have more of it). -/
namespace Verif.CcixSnoop

/-- What a request leaves of the line with the requester, as far as the filter is
concerned (`SnoopFilter::Update(ReqTxn*)`, iconnect-chi.h 1733-1779). -/
inductive After
  | copy
  | same
  | nothing
  deriving DecidableEq, Repr

/-- `SnoopFilter::Update(ReqTxn*)` by opcode. -/
def after (op : BitVec 8) : After :=
  match op.toNat with
  | 0x02 => .copy
  | 0x26 => .copy
  | 0x01 => .copy
  | 0x07 => .copy
  | 0x0B => .copy
  | 0x0C => .copy
  | 0x08 => .same
  | 0x27 => .same
  | 0x17 => .same
  | _ => .nothing

/-- What a request asks of the other caches (`IsSnoopingReq`, iconnect-chi.h
472-505, and `SnpMsg::GetOpcode` 1453-1560 for ports that are not forwarded to):
a look, a shared copy at most, the line clean, or no copy. Stashing requests are
left out: they do not cross (C61). -/
inductive Ask
  | look
  | share
  | clean
  | give
  deriving DecidableEq, Repr

/-- See `Ask`. -/
def ask (op : BitVec 8) : Option Ask :=
  match op.toNat with
  | 0x03 => some .look
  | 0x01 => some .share
  | 0x02 => some .share
  | 0x26 => some .share
  | 0x08 => some .clean
  | 0x27 => some .clean
  | 0x24 => some .give
  | 0x25 => some .give
  | 0x07 => some .give
  | 0x0B => some .give
  | 0x0C => some .give
  | 0x09 => some .give
  | 0x0A => some .give
  | 0x18 => some .give
  | 0x19 => some .give
  | n => if 0x28 ≤ n ∧ n ≤ 0x39 then some .give else none

/-- The caches of the system as the home sees them: those on ports of its own, and
those behind CCIX ports, each with the port it is behind. -/
structure Cfg where
  agents : List Nat
  ccix : Nat → Option Nat

/-- The request being served: opcode, requester, the snoop transactions it waits for
(`SnpTxnTracker`: one for each of the home's own ports, one for each CCIX port), and
the caches that were sent a snoop and have not answered. -/
structure Cur where
  op : BitVec 8
  src : Nat
  own : List Nat
  ports : List Nat
  out : List Nat
  deriving DecidableEq, Repr

/-- Filter (`SnoopFilter::m_allocated`, one per cache), the copies that exist, the
request, and whether an assertion has failed. -/
structure St where
  dir : Nat → Bool
  holds : Nat → Bool
  cur : Option Cur
  abort : Bool

def upd (f : Nat → Bool) (a : Nat) (b : Bool) : Nat → Bool := fun x => if x = a then b else f x

/-- Caches on the home's own ports to be snooped (`FillPortsToSnoop`, iconnect-chi.h
2911-2929). -/
def ownTargets (c : Cfg) (s : St) (src : Nat) (me : Bool) : List Nat :=
  c.agents.filter fun b => (c.ccix b).isNone && (b != src || me) && s.dir b

/-- `CCIXPort::NeedsSnoop` (ccixport.h 3680-3701): the ports with a cache, other than
the requester, that may have the line. -/
def portTargets (c : Cfg) (s : St) (src : Nat) (me : Bool) : List Nat :=
  (c.agents.filterMap fun b => if (b != src || me) && s.dir b then c.ccix b else none).eraseDups

/-- `CCIXPort::Transmit` (ccixport.h 3703-3721): a snoop to every cache behind the
port that may have the line, with the port's transaction identifier. The requester
is not left out. -/
def sent (c : Cfg) (s : St) (ps : List Nat) : List Nat :=
  c.agents.filter fun b => s.dir b && (match c.ccix b with | some p => ps.contains p | none => false)

/-- What happens: a request starts (`me`: an atomic with `SnoopMe`), a cache answers its snoop, the request is done, a
cache drops its copy without telling. -/
inductive Move
  | start (op : BitVec 8) (src : Nat) (me : Bool)
  | answer (b : Nat)
  | done
  | drop (b : Nat)
  deriving DecidableEq, Repr

/-- Whether the cache has a copy after the snoop. -/
def keeps (k : Ask) (had : Bool) : Bool :=
  match k with
  | .give => false
  | _ => had

/-- One step.

`start`: `RouteInternal` and `PointOfCoherence::ProcessReq` (iconnect-chi.h 3297-3322,
2826-2890).

`answer`: the snoop's effect on the cache and `PointOfCoherence::ProcessResp`/`ProcessDat`
(2941-3064): the filter of the cache that answered is updated if it is on a port of
the home's own; behind a CCIX port it is the filter of the *requester*, if that is
behind the same port (`UpdateSnoopFilter(msg, req)`, ccixport.h 3740-3753). The
transaction is done; if it was done before, its identifier leads nowhere and an
assertion fails (2946-2948).

`done`: when all transactions are done, `ProcessSnpdReq` and the requester's
acknowledgement, with `UpdatePortRNFSnoopFilter` (2751-2764).

Left out: data, and the state of the copies beyond there being one. -/
def St.move (c : Cfg) (s : St) : Move → Option St
  | .start op src me =>
    match s.cur with
    | some _ => none
    | none =>
      if s.abort ∨ ¬ src ∈ c.agents ∨ (me = true ∧ op.toNat < 0x28) then none
      else match ask op with
        | none => some { s with cur := some ⟨op, src, [], [], []⟩ }
        | some _ =>
          let own := ownTargets c s src me
          let ps := portTargets c s src me
          some { s with cur := some ⟨op, src, own, ps, own ++ sent c s ps⟩ }
  | .answer b =>
    match s.cur with
    | none => none
    | some r =>
      if s.abort ∨ ¬ b ∈ r.out then none
      else match ask r.op with
        | none => none
        | some k =>
          let h := keeps k (s.holds b)
          let s' := { s with holds := upd s.holds b h }
          match c.ccix b with
          | none =>
            if r.own.contains b then
              some { s' with dir := upd s.dir b (s.dir b && h),
                             cur := some { r with own := r.own.erase b, out := r.out.erase b } }
            else some { s' with abort := true }
          | some p =>
            if r.ports.contains p then
              some { s' with dir := if ¬ h ∧ c.ccix r.src = some p then upd s.dir r.src false else s.dir,
                             cur := some { r with ports := r.ports.erase p, out := r.out.erase b } }
            else some { s' with abort := true }
  | .done =>
    match s.cur with
    | none => none
    | some r =>
      if s.abort ∨ ¬ (r.own = [] ∧ r.ports = []) then none
      else match after r.op with
        | .copy => some { s with dir := upd s.dir r.src true, holds := upd s.holds r.src true, cur := none }
        | .same => some { s with cur := none }
        | .nothing => some { s with dir := upd s.dir r.src false, holds := upd s.holds r.src false, cur := none }
  | .drop b => some { s with holds := upd s.holds b false }

/-- Nothing cached yet. -/
def St.init : St := ⟨fun _ => false, fun _ => false, none, false⟩

/-- The states a system can get into. -/
inductive Reach (c : Cfg) : St → Prop
  | init : Reach c .init
  | step {s s' : St} (m : Move) : Reach c s → s.move c m = some s' → Reach c s'

/-- A sequence of steps. -/
def St.runs (c : Cfg) (s : St) : List Move → Option St
  | [] => some s
  | m :: ms => (s.move c m).bind fun s' => s'.runs c ms

/-! ### The chip that answers -/

/-- A snoop that came in over the link (`Receive_CCIXSnpReq`, ccixport.h 2972-2985) has
been sent to every request node of the chip (`RouteSnpReq`, iconnect-chi.h 3395-3400).
The nodes' answers arrive in the given order. The first is sent back and ends the
snoop (`ProcessDat`, `ProcessResp`, ccixport.h 3477-3500, 3653-3676); any later one
finds no snoop and fails an assertion. Result: the answers sent back, and whether an
assertion failed. -/
def collect : List Ccix.SnpAns → List Ccix.SnpAns × Bool :=
  go true
where
  /-- `live`: the snoop is in `m_ccix_RN_SnpReq`. -/
  go (live : Bool) : List Ccix.SnpAns → List Ccix.SnpAns × Bool
    | [] => ([], false)
    | a :: as => if live then let r := go false as; (a :: r.1, r.2) else ([], true)

end Verif.CcixSnoop
