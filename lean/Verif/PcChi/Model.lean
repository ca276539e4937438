import Verif.Base.Bytes

/-! # The CHI protocol checker

checkers/checker-chi.h with the flits of checkers/flits-chi.h and the codes of tlm-bridges/amba-chi.h (40-230).  Flits
are given by their fields (how fields are cut out of a flit is the subject of `Verif.ChiFlit`; the masks are the same
here, flits-chi.h 337-350); everything happens at the granularity of flits, the flits of a clock cycle in the order in which
the checks look at the channels.  The texts of the messages are not modelled. -/

namespace Verif.PcChi

/-- A request flit (flits-chi.h 269-314), numbers of their widths. -/
structure Req where
  op : Nat
  txn : Nat := 0
  tgt : Nat := 0
  src : Nat := 0
  retNid : Nat := 0
  stashValid : Bool := false
  retTxn : Nat := 0
  size : Nat := 0
  addr : Nat := 0
  ns : Bool := false
  likely : Bool := false
  retry : Bool := true
  order : Nat := 0
  pcrd : Nat := 0
  alloc : Bool := false
  cacheable : Bool := false
  device : Bool := false
  ewa : Bool := false
  snpAttr : Bool := false
  lpid : Nat := 0
  excl : Bool := false
  ack : Bool := false
  deriving DecidableEq, Repr

/-- A response flit (flits-chi.h 527-546); `pull` is the lowest bit of `FwdState`/`DataPull`. -/
structure Rsp where
  op : Nat
  txn : Nat := 0
  tgt : Nat := 0
  src : Nat := 0
  dbid : Nat := 0
  pcrd : Nat := 0
  pull : Bool := false
  deriving DecidableEq, Repr

/-- A data flit (flits-chi.h 917-956), without the data. -/
structure Dat where
  op : Nat
  txn : Nat := 0
  tgt : Nat := 0
  src : Nat := 0
  home : Nat := 0
  dbid : Nat := 0
  pull : Bool := false
  deriving DecidableEq, Repr

/-- A snoop flit (flits-chi.h 699-716). -/
structure Snp where
  op : Nat
  txn : Nat := 0
  fwdNid : Nat := 0
  fwdTxn : Nat := 0
  ns : Bool := false
  noSd : Bool := false
  ret : Bool := false
  deriving DecidableEq, Repr

/-! ## Link credits -/

/-- `LCrdMonitor::Run` (76-96): a flit and a credit seen in one cycle; `false` is an error.  The `int` of the code is an
integer here. -/
def lcrdStep (n : Int) (flit lcrd : Bool) : Int × Bool :=
  let n1 := if flit then n - 1 else n
  let n2 := if lcrd then n1 + 1 else n1
  (n2, decide (0 ≤ n2 ∧ n2 ≤ 15))

/-- Whether an error is reported in a run, cycles without reset. -/
def lcrdRun : Int → List (Bool × Bool) → Bool
  | _, [] => true
  | n, x :: xs => (lcrdStep n x.1 x.2).2 && lcrdRun (lcrdStep n x.1 x.2).1 xs

/-! ## Requests -/

inductive QErr
  | opcode | ack | snpAttr | order | orderOp | retryPrefetch | retryCredit | retryReturn | addrCompare | addrAtomic
  | sizeReserved | sizeCompare | sizeAtomic | dvm | excl
  deriving DecidableEq, Repr

def err {α : Type} (ok : Bool) (e : α) : List α := if ok then [] else [e]

/-- `IsAtomicCompare`, `IsAtomic` (flits-chi.h 237-246). -/
def Req.isCompare (r : Req) : Bool := r.op == 0x39
def Req.isAtomic (r : Req) : Bool := decide (0x28 ≤ r.op ∧ r.op ≤ 0x39)

/-- `CheckOpcode` (162-222). -/
def checkOpcode (r : Req) : Bool :=
  [0, 1, 2, 3, 4, 5, 7, 8, 9, 0xa, 0xb, 0xc, 0xd, 0x14, 0x15, 0x17, 0x18, 0x19, 0x1a, 0x1b, 0x1c, 0x1d, 0x20, 0x21, 0x22, 0x23,
   0x24, 0x25, 0x26, 0x27, 0x3a].contains r.op || r.isAtomic

/-- `CheckExpCompAck` (224-278). -/
def checkAck (r : Req) : Bool :=
  if [2, 0x26, 1, 7, 0xb, 0xc].contains r.op then r.ack
  else if [8, 0x27, 9, 0xa, 0x1a, 0x1b, 0x17, 0x28, 0x30, 0x38, 0x39, 0x22, 0x23, 0xd, 0x15, 0x1c, 0x1d].contains r.op then !r.ack
  else true

/-- `CheckSnpAttr` (280-335). -/
def checkSnpAttr (r : Req) : Bool :=
  if [3, 0x24, 0x25, 2, 0x26, 1, 7, 0xb, 0xc, 0x22, 0x23, 0x1a, 0x1b, 0x17, 0x15, 0x18, 0x19, 0x20, 0x21, 0xd].contains r.op then r.snpAttr
  else if [0x1c, 0x1d, 4, 0x11].contains r.op then !r.snpAttr
  else true

/-- `CheckOrder` (337-385). -/
def checkOrder (r : Req) : List QErr :=
  err (r.order != 1) .order ++
  err (r.order == 0 || [4, 3, 0x24, 0x25, 0x18, 0x19, 0x28, 0x30, 0x38, 0x39].contains r.op) .orderOp

/-- `CheckAllowRetry` (387-434). -/
def checkRetry (r : Req) : List QErr :=
  if r.retry then err (r.op != 0x3a) .retryPrefetch ++ err (r.pcrd == 0) .retryCredit ++ err (r.op != 5) .retryReturn else []

/-- `CheckAddress` (436-474): `1 << req.GetSize() / 2` shifts by half the size. -/
def checkAddr (r : Req) : List QErr :=
  if r.isCompare then err (decide (r.addr / 2 ^ (r.size / 2) * 2 ^ (r.size / 2) = r.addr)) .addrCompare
  else if r.isAtomic then err (decide (r.addr / 2 ^ r.size * 2 ^ r.size = r.addr)) .addrAtomic
  else []

/-- `CheckSize` (481-525). -/
def checkSize (r : Req) : List QErr :=
  err (r.size != 7) .sizeReserved ++
  (if r.isCompare then err (decide (r.size ≤ 5)) .sizeCompare else []) ++
  (if r.isAtomic then err (decide (r.size ≤ 3)) .sizeAtomic else [])

/-- `CheckDVM` (527-591). -/
def checkDvm (r : Req) : Bool :=
  if r.op == 0x14 then
    r.retNid == 0 && !r.stashValid && r.retTxn == 0 && decide (r.size ≤ 3) && !r.ns && !r.likely && r.order == 0 &&
    !(r.alloc || r.cacheable || r.device || r.ewa) && !r.snpAttr && !r.excl
  else true

/-- `CheckExcl` (593-634). -/
def checkExcl (r : Req) : Bool :=
  if r.excl then [2, 0x26, 1, 0xb, 0x1c, 0x1d, 4].contains r.op || r.isAtomic else true

/-- `CheckRequest` (636-658). -/
def checkReq (r : Req) : List QErr :=
  err (checkOpcode r) .opcode ++ err (checkAck r) .ack ++ err (checkSnpAttr r) .snpAttr ++ checkOrder r ++ checkRetry r ++
  checkAddr r ++ checkSize r ++ err (checkDvm r) .dvm ++ err (checkExcl r) .excl

/-! ## Other flits -/

/-- `CheckOpcode` of data (689-719), snoops (758-797) and responses (889-920). -/
def checkDatOp (op : Nat) : Bool := [0, 1, 2, 3, 4, 5, 6, 7, 0xb, 0xc].contains op
def checkSnpOp (op : Nat) : Bool :=
  [0, 1, 2, 3, 4, 5, 6, 7, 8, 9, 0xa, 0xb, 0xc, 0xd, 0x11, 0x12, 0x13, 0x14, 0x17].contains op
def checkRspOp (op : Nat) : Bool := [0, 1, 2, 3, 4, 5, 6, 7, 8, 9, 0xb].contains op

/-- `CheckDVM` of snoops (799-848), `true` if nothing is reported. -/
def checkSnpDvm (s : Snp) : Bool :=
  if s.op == 0xd then s.fwdNid == 0 && !s.ns && !s.noSd && !s.ret else true

/-! ## Transactions -/

/-- What kind of transaction a request starts: `IsRead`, `IsDataless`, `IsWrite`, `IsAtomicStore`, `IsDVMOp`, `IsAtomic`
(flits-chi.h 174-256) in the order of `SampleRequest` (2117-2142). -/
inductive Kind
  | read | dataless | write | atomic
  deriving DecidableEq, Repr

def kindOf (op : Nat) : Option Kind :=
  if [4, 3, 0x24, 0x25, 2, 0x26, 1, 7].contains op then some .read
  else if [0xb, 0xc, 0xd, 0x22, 0x23, 8, 0x27, 9, 0xa].contains op then some .dataless
  else if [0x1c, 0x1d, 0x18, 0x19, 0x21, 0x20, 0x1a, 0x1b, 0x15, 0x17].contains op || decide (0x28 ≤ op ∧ op < 0x30) || op == 0x14 then
    some .write
  else if decide (0x28 ≤ op ∧ op ≤ 0x39) then some .atomic
  else none

/-- The flags of `ReadTxn` (1160-1165), `DatalessTxn` (1220-1222), `AtomicTxn` (1289-1292), `WriteTxn` (1399-1403). -/
inductive Flags
  | read (sep rsp dat rcpt ack : Bool)
  | dataless (comp ack : Bool)
  | atomic (dbid data tx : Bool)
  | write (dbid comp ack tx : Bool)
  deriving DecidableEq, Repr

/-- `ITxn` (971-1018); `ids` is `m_HomeNID` and `m_DBID` if `m_HomeNIDValid`. -/
structure Txn where
  req : Req
  f : Flags
  ids : Option (Nat × Nat) := none
  deriving DecidableEq, Repr

/-- The constructors (1023-1057, 1171-1179, 1228-1233, 1298-1308). -/
def mkTxn (r : Req) : Kind → Txn
  | .read => ⟨r, .read (!(!r.ack && r.order / 2 % 2 == 1)) false false (!(r.order / 2 % 2 == 1)) (!r.ack), none⟩
  | .dataless => ⟨r, .dataless false (!r.ack), none⟩
  | .atomic => ⟨r, .atomic false false false, none⟩
  | .write => ⟨r, .write false false (!r.ack) false, none⟩

/-- `Done` (1152-1158, 1215-1218, 1282-1287, 1391-1397). -/
def Txn.done (t : Txn) : Bool :=
  match t.f with
  | .read _ rsp dat rcpt ack => rsp && dat && rcpt && ack
  | .dataless comp ack => comp && ack
  | .atomic dbid data tx => dbid && data && tx
  | .write dbid comp ack tx => dbid && comp && ack && tx

/-- `HandleRxDat` (1059-1095, 1183, 1248-1259, 1331); `none` if the flit is not handled. -/
def Txn.rxDat (t : Txn) (d : Dat) : Option Txn :=
  match t.f with
  | .read sep rsp dat rcpt ack =>
    if sep && !dat && d.op == 0xb then some { t with f := .read sep rsp true rcpt ack, ids := some (d.src, d.dbid) }
    else if !rsp && !dat && d.op == 4 then some { t with f := .read sep true true rcpt ack, ids := some (d.home, d.dbid) }
    else none
  | .atomic dbid data tx => if !data && d.op == 4 then some { t with f := .atomic dbid true tx } else none
  | _ => none

/-- `HandleRxRsp` (1097-1131, 1185-1201, 1261-1278, 1333-1377). -/
def Txn.rxRsp (t : Txn) (p : Rsp) : Option Txn :=
  match t.f with
  | .read sep rsp dat rcpt ack =>
    if sep && !rsp && p.op == 0xb then some { t with f := .read sep true dat true ack, ids := some (p.src, p.dbid) }
    else if !rcpt && p.op == 8 then some { t with f := .read sep rsp dat true ack }
    else none
  | .dataless comp ack =>
    if !comp && p.op == 4 then some { t with f := .dataless true ack, ids := some (p.src, p.dbid) } else none
  | .atomic dbid data tx =>
    if !dbid && p.op == 6 then some { t with f := .atomic true data tx, ids := some (p.src, p.dbid) } else none
  | .write dbid comp ack tx =>
    if !comp && p.op == 4 then some { t with f := .write dbid true ack tx, ids := some (p.src, p.dbid) }
    else if !dbid && p.op == 6 then some { t with f := .write true comp ack tx, ids := some (p.src, p.dbid) }
    else if !comp && !dbid && p.op == 5 then some { t with f := .write true true ack tx, ids := some (p.src, p.dbid) }
    else none

/-- `HandleTxDat` (1134, 1182, 1235-1246, 1310-1328). -/
def Txn.txDat (t : Txn) (d : Dat) : Option Txn :=
  match t.f with
  | .atomic dbid data tx => if !tx && d.op == 3 then some { t with f := .atomic dbid data true } else none
  | .write dbid comp ack _ =>
    if d.op == 2 || d.op == 3 then some { t with f := .write dbid comp ack true }
    else if d.op == 0xc then some { t with f := .write dbid comp true true }
    else none
  | _ => none

/-- `HandleTxRsp` (1136-1150, 1203-1213, 1280, 1379-1389). -/
def Txn.txRsp (t : Txn) (p : Rsp) : Option Txn :=
  match t.f with
  | .read sep rsp dat rcpt ack => if !ack && p.op == 2 then some { t with f := .read sep rsp dat rcpt true } else none
  | .dataless comp ack => if !ack && p.op == 2 then some { t with f := .dataless comp true } else none
  | .write dbid comp ack tx => if !ack && p.op == 2 then some { t with f := .write dbid comp true tx } else none
  | .atomic .. => none

/-- `SnpFwdTxn` (1406-1478): `m_gotCompData`, `m_snpDone`. -/
structure SFwd where
  snp : Snp
  data : Bool := false
  done : Bool := false
  deriving DecidableEq, Repr

/-- `SnpStashTxn` (1480-1593): `m_sentSnpResp`, `m_expCompData`, `m_gotCompData`, `m_sentCompAck`, the identifiers if valid,
`m_DBIDForCompData`. -/
structure SStash where
  snp : Snp
  sent : Bool := false
  exp : Bool := false
  got : Bool := false
  acked : Bool := false
  ids : Option (Nat × Nat) := none
  pullId : Nat := 0
  deriving DecidableEq, Repr

/-- `SnpNonFwdNonStashTxn` (1595-1641). -/
structure SPlain where
  snp : Snp
  done : Bool := false
  deriving DecidableEq, Repr

/-- Snoop responses that carry data (flits-chi.h 816-825): `SnpRespData`, `SnpRespDataPtl`, `SnpRespDataFwded`; without data
(454-462): `SnpResp`, `SnpRespFwded`. -/
def isSnpDat (op : Nat) : Bool := op == 1 || op == 5 || op == 6
def isSnpRsp (op : Nat) : Bool := op == 1 || op == 9

/-- `SnpFwdTxn::HandleTxDat` (1420-1442). -/
def SFwd.txDat (s : SFwd) (d : Dat) : Option SFwd :=
  if !s.done && isSnpDat d.op then some { s with data := s.data || d.op != 6, done := true }
  else if !s.data && d.op == 4 then some { s with data := true }
  else none

/-- `SnpFwdTxn::HandleTxRsp` (1444-1461). -/
def SFwd.txRsp (s : SFwd) (p : Rsp) : Option SFwd :=
  if !s.done then some { s with data := s.data || p.op != 9, done := true } else none

def SFwd.over (s : SFwd) : Bool := s.data && s.done

/-- `SnpStashTxn::HandleTxRsp` (1500-1522). -/
def SStash.txRsp (s : SStash) (p : Rsp) : Option SStash :=
  if !s.sent && p.op == 1 then
    if !p.pull then some { s with sent := true, got := true, acked := true }
    else some { s with sent := true, pullId := p.dbid, exp := true }
  else if !s.acked && p.op == 2 then some { s with acked := true }
  else none

/-- `SnpStashTxn::HandleTxDat` (1524-1545). -/
def SStash.txDat (s : SStash) (d : Dat) : Option SStash :=
  if !s.sent && (d.op == 1 || d.op == 5) then
    if !d.pull then some { s with sent := true, got := true, acked := true }
    else some { s with sent := true, pullId := d.dbid, exp := true }
  else none

/-- `SnpStashTxn::HandleRxDat` (1547-1567). -/
def SStash.rxDat (s : SStash) (d : Dat) : Option SStash :=
  if !s.got && d.op == 4 then some { s with got := true, ids := some (d.home, d.dbid) } else none

def SStash.over (s : SStash) : Bool := s.sent && s.got && s.acked

/-- `SnpNonFwdNonStashTxn` (1608-1630). -/
def SPlain.txRsp (s : SPlain) (p : Rsp) : Option SPlain := if !s.done && p.op == 1 then some { s with done := true } else none
def SPlain.txDat (s : SPlain) (d : Dat) : Option SPlain :=
  if !s.done && (d.op == 1 || d.op == 5) then some { s with done := true } else none

/-- `m_txn`, `m_snpFwdList`, `m_snpStashList`, `m_snpList` (2210-2213). -/
structure St where
  txn : Nat → Option Txn := fun _ => none
  fwd : List SFwd := []
  stash : List SStash := []
  plain : List SPlain := []

inductive TErr
  | dup | txDat | txRsp | rxDat | rxRsp
  deriving DecidableEq, Repr

/-- The first entry with `p` handles a flit: found or not, its new value, removed if over; a flit that is not handled leaves
it as it is (1764-1858). -/
def handle {α : Type} (p : α → Bool) (f : α → Option α) (over : α → Bool) : List α → Option (List α)
  | [] => none
  | x :: l =>
    if p x then (f x).map fun y => if over y then l else y :: l
    else (handle p f over l).map (x :: ·)

/-- `GetTxnWithIDs` (1643-1658). -/
def St.withIds (s : St) (home dbid : Nat) : Option Nat :=
  (List.range 256).find? fun i => match s.txn i with | some t => t.ids == some (home, dbid) | none => false

/-- The transaction at `i` after a flit: removed when done (1876-1879, 2001-2005, 2052-2055).  A flit that is not handled
leaves it as it is: what is kept is not done. -/
def St.put (s : St) (i : Nat) (t : Txn) : St :=
  { s with txn := fun j => if j = i then (if t.done then none else some t) else s.txn j }

/-- `f` at the transaction numbered `i`. -/
def St.at (s : St) (i : Option Nat) (f : Txn → Option Txn) : Option St :=
  match i with
  | none => none
  | some i => match s.txn i with
    | none => none
    | some t => (f t).map (s.put i)

def orElse {α : Type} (a b : Option α) : Option α := match a with | some x => some x | none => b

def St.fwdTo (s : St) (l : Option (List SFwd)) : Option St := l.map fun l => { s with fwd := l }
def St.stashTo (s : St) (l : Option (List SStash)) : Option St := l.map fun l => { s with stash := l }
def St.plainTo (s : St) (l : Option (List SPlain)) : Option St := l.map fun l => { s with plain := l }

/-- `HandleTxDat` (1860-1923) without the link flit; `none`: not handled. -/
def txDat (s : St) (d : Dat) : Option St :=
  if !isSnpDat d.op then
    orElse (s.at (s.withIds d.tgt d.txn) fun t => t.txDat d)
      (s.fwdTo (handle (fun x => x.done && x.snp.fwdNid == d.tgt && x.snp.fwdTxn == d.txn) (·.txDat d) SFwd.over s.fwd))
  else
    orElse (s.fwdTo (handle (fun x => x.snp.txn == d.txn) (·.txDat d) SFwd.over s.fwd))
      (orElse (s.stashTo (handle (fun x => x.snp.txn == d.txn) (·.txDat d) SStash.over s.stash))
        (s.plainTo (handle (fun x => x.snp.txn == d.txn) (·.txDat d) SPlain.done s.plain)))

/-- `SnpStashHandleTxRsp` (1824-1843). -/
def stashRsp (s : St) (p : Rsp) : Option St :=
  if p.op == 1 then s.stashTo (handle (fun x => x.snp.txn == p.txn) (·.txRsp p) SStash.over s.stash)
  else if p.op == 2 then s.stashTo (handle (fun x => x.ids == some (p.tgt, p.txn)) (·.txRsp p) SStash.over s.stash)
  else none

/-- `HandleTxRsp` (1925-1978). -/
def txRsp (s : St) (p : Rsp) : Option St :=
  if !isSnpRsp p.op then
    orElse (s.at (s.withIds p.tgt p.txn) fun t => t.txRsp p) (stashRsp s p)
  else
    orElse (s.fwdTo (handle (fun x => x.snp.txn == p.txn) (·.txRsp p) SFwd.over s.fwd))
      (orElse (stashRsp s p) (s.plainTo (handle (fun x => x.snp.txn == p.txn) (·.txRsp p) SPlain.done s.plain)))

/-- `HandleRxDat` (1980-2018): a stash is looked for only if no request has the identifier; it is not removed here. -/
def rxDat (s : St) (d : Dat) : Option St :=
  match s.txn d.txn with
  | some _ => s.at (some d.txn) fun t => t.rxDat d
  | none => s.stashTo (handle (fun x => x.exp && d.txn == x.pullId) (·.rxDat d) (fun _ => false) s.stash)

/-- `HandleRxRsp` (2020-2071). -/
def rxRsp (s : St) (p : Rsp) : Option St :=
  match s.txn p.txn with
  | none => none
  | some _ =>
    if p.op == 3 then some { s with txn := fun j => if j = p.txn then none else s.txn j }
    else s.at (some p.txn) fun t => t.rxRsp p

/-- `IsSnpFwd`, `IsSnpStash` (flits-chi.h 617-644). -/
def isFwd (op : Nat) : Bool := [0x11, 0x12, 0x13, 0x14, 0x17].contains op
def isStash (op : Nat) : Bool := [5, 6, 0xb, 0xc].contains op

/-- `SampleSnpReq` (2073-2104). -/
def sampleSnp (s : St) (n : Snp) : St :=
  if n.op == 0 && n.txn == 0 then s
  else if isFwd n.op then { s with fwd := s.fwd ++ [{ snp := n }] }
  else if n.op == 0xd then (if s.plain.any fun x => x.snp.txn == n.txn then s else { s with plain := s.plain ++ [{ snp := n }] })
  else if isStash n.op then { s with stash := s.stash ++ [{ snp := n }] }
  else { s with plain := s.plain ++ [{ snp := n }] }

/-- `SampleRequest` (2106-2144). -/
def sampleReq (s : St) (r : Req) : St × List TErr :=
  (match kindOf r.op with
    | some k => { s with txn := fun j => if j = r.txn then some (mkTxn r k) else s.txn j }
    | none => s,
   if r.op != 0x3a && r.op != 5 && !(r.op == 0 && r.txn == 0) then err (s.txn r.txn).isNone .dup else [])

inductive Ev
  | req (r : Req)
  | txDat (d : Dat)
  | txRsp (p : Rsp)
  | rxDat (d : Dat)
  | rxRsp (p : Rsp)
  | snp (n : Snp)
  deriving DecidableEq, Repr

def opt (s : St) (e : TErr) : Option St → St × List TErr
  | some s' => (s', [])
  | none => (s, [e])

/-- One flit; link credits returned are ignored (1866-1869, 1931-1934, 1987-1990, 2028-2031), as are grants
(2036-2038). -/
def step (s : St) : Ev → St × List TErr
  | .req r => sampleReq s r
  | .txDat d => if d.op == 0 && d.txn == 0 then (s, []) else opt s .txDat (txDat s d)
  | .txRsp p => if p.op == 0 && p.txn == 0 then (s, []) else opt s .txRsp (txRsp s p)
  | .rxDat d => if d.op == 0 && d.txn == 0 then (s, []) else opt s .rxDat (rxDat s d)
  | .rxRsp p => if p.op == 0 && p.txn == 0 then (s, []) else if p.op == 7 then (s, []) else opt s .rxRsp (rxRsp s p)
  | .snp n => (sampleSnp s n, [])

def run : St → List Ev → List TErr
  | _, [] => []
  | s, e :: es => (step s e).2 ++ run (step s e).1 es

/-- The flits of one clock cycle (2177-2208), in the order in which they are looked at. -/
structure Clk where
  req : Option Req := none
  txDat : Option Dat := none
  txRsp : Option Rsp := none
  rxDat : Option Dat := none
  rxRsp : Option Rsp := none
  snp : Option Snp := none
  deriving DecidableEq, Repr

def Clk.events (x : Clk) : List Ev :=
  x.req.toList.map .req ++ x.txDat.toList.map .txDat ++ x.txRsp.toList.map .txRsp ++ x.rxDat.toList.map .rxDat ++
  x.rxRsp.toList.map .rxRsp ++ x.snp.toList.map .snp

/-- `check_txn_flows` (2177-2208), cycles without reset. -/
def runClk (s : St) (tr : List Clk) : List TErr := run s (tr.flatMap Clk.events)

/-! ## Retried requests -/

/-- `PCredits` (2243-2364): the `unsigned int` of credits and the requests told to retry; `none` is the null pointer stored
when there was no such request (2589-2612). -/
structure PCr where
  n : Nat := 0
  reqs : List (Option Req) := []

/-- `Completer` (2366-2475). -/
structure Comp where
  node : Nat
  cr : Nat → PCr := fun _ => {}

structure Rt where
  txn : Nat → Option Req := fun _ => none
  comps : List Comp := []

/-- `Compare` (2328-2352): `TgtID`, `QoS`, `TxnID`, `ReturnTxnID`, `AllowRetry`, `PCrdType` may differ. -/
def same (a b : Req) : Bool :=
  { a with tgt := 0, txn := 0, retTxn := 0, retry := false, pcrd := 0 } == { b with tgt := 0, txn := 0, retTxn := 0, retry := false, pcrd := 0 }

/-- `ContainsRetriedRequest` (2309-2322); `none`: a null pointer is followed. -/
def hasReq (r : Req) : List (Option Req) → Option Bool
  | [] => some false
  | none :: _ => none
  | some a :: l => if same a r then some true else hasReq r l

/-- `Completer::ContainsRetriedRequest` (2458-2468). -/
def Comp.has (c : Comp) (r : Req) : Nat → Option Bool
  | 0 => some false
  | k + 1 => match hasReq r (c.cr (15 - k)).reqs with
    | none => none
    | some true => some true
    | some false => c.has r k

/-- `DecNumPCredits` (2274-2288). -/
def PCr.dec (p : PCr) : PCr :=
  let n := (p.n + 2 ^ 32 - 1) % 2 ^ 32
  ⟨n, if n = 0 then [] else p.reqs⟩

/-- `LookupCompleter` for a request (2477-2494): its place in the list. -/
def lookReq (r : Req) : List Comp → Option (Option Nat)
  | [] => some none
  | c :: l =>
    if r.op == 5 && c.node == r.tgt then some (some 0)
    else match c.has r 16 with
      | none => none
      | some true => some (some 0)
      | some false => (lookReq r l).map (·.map (· + 1))

def Comp.set (c : Comp) (k : Nat) (p : PCr) : Comp := { c with cr := fun j => if j = k then p else c.cr j }

/-- `ReturnPCredit` (2402-2422): the new completer if handled. -/
def Comp.give (c : Comp) (r : Req) : Option (Option Comp) :=
  if r.op == 5 && decide ((c.cr r.pcrd).n > 0) then some (some (c.set r.pcrd (c.cr r.pcrd).dec))
  else (hasReq r (c.cr r.pcrd).reqs).map fun b => if b then some (c.set r.pcrd (c.cr r.pcrd).dec) else none

inductive VErr
  | noReq | noCredit | noRetried | surplus
  deriving DecidableEq, Repr

/-- `Completer::Check` (2424-2434, 2293-2307). -/
def Comp.ok (c : Comp) : Bool := (List.range 16).all fun k => decide ((c.cr k).n ≤ (c.cr k).reqs.length)

/-- `NumOutstandingRequests` and `CheckCompleters` (2544-2556, 2512-2542). -/
def Rt.check (s : Rt) : List VErr :=
  if (List.range 256).all fun i => (s.txn i).isNone then err (s.comps.all Comp.ok) .surplus else []

def Rt.clear (s : Rt) (i : Nat) : Rt := { s with txn := fun j => if j = i then none else s.txn j }

/-- A completer, made if there is none (2496-2510, 2600-2606, 2618-2624), changes. -/
def atNode (node : Nat) (f : Comp → Comp) : List Comp → List Comp
  | [] => [f ⟨node, fun _ => {}⟩]
  | c :: l => if c.node = node then f c :: l else c :: atNode node f l

/-- `SampleRequest` (2642-2687); `none`: a null pointer is followed. -/
def rtReq (s : Rt) (r : Req) : Option (Rt × List VErr) :=
  if r.op == 0 && r.txn == 0 then some (s, [])
  else if r.retry then some ({ s with txn := fun j => if j = r.txn then some r else s.txn j }, [])
  else
    let no : Rt × List VErr := (s, [if r.op == 5 then .noCredit else .noRetried])
    (lookReq r s.comps).bind fun
      | none => some no
      | some i => match s.comps[i]? with
        | none => some no
        | some c => (c.give r).map fun
          | none => no
          | some c' => ({ s with comps := s.comps.set i c' }, [])

/-- `HandleRxDat` (2558-2577); a returned link credit is not told from data. -/
def rtDat (s : Rt) (d : Dat) : Rt × List VErr := (s.clear d.txn, (s.clear d.txn).check)

/-- `HandleRxRsp` (2579-2640). -/
def rtRsp (s : Rt) (p : Rsp) : Rt × List VErr :=
  if p.op == 3 then
    let s' : Rt := { s.clear p.txn with comps := atNode p.src (fun c => c.set p.pcrd ⟨(c.cr p.pcrd).n, (c.cr p.pcrd).reqs ++ [s.txn p.txn]⟩) s.comps }
    (s', err (s.txn p.txn).isSome .noReq ++ s'.check)
  else if p.op == 7 then
    let s' : Rt := { s with comps := atNode p.src (fun c => c.set p.pcrd ⟨((c.cr p.pcrd).n + 1) % 2 ^ 32, (c.cr p.pcrd).reqs⟩) s.comps }
    (s', s'.check)
  else (s.clear p.txn, (s.clear p.txn).check)

inductive REv
  | req (r : Req)
  | dat (d : Dat)
  | rsp (p : Rsp)
  deriving DecidableEq, Repr

def rtStep (s : Rt) : REv → Option (Rt × List VErr)
  | .req r => rtReq s r
  | .dat d => some (rtDat s d)
  | .rsp p => some (rtRsp s p)

/-- `check_request_retry` (2715-2740), flits in the order in which they are looked at, without reset; `none`: a null pointer is
followed. -/
def rtRun : Rt → List REv → Option (List VErr)
  | _, [] => some []
  | s, e :: es => (rtStep s e).bind fun x => (rtRun x.1 es).map (x.2 ++ ·)

end Verif.PcChi
