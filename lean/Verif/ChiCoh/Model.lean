import Verif.Base.Tlm

/-!
# A coherent CHI system: caching request nodes, the interconnect's home node, a slave node

Models `tlm-modules/cache-chi.h`, `tlm-modules/iconnect-chi.h`, `tlm-modules/sn-chi.h` and
`tlm-modules/private/chi/{cacheline,txns-rn}.h`: `n` caches (`cache_chi`), one `iconnect_chi` and one
`SlaveNode_F` with the memory behind it.

A run is a sequence of labelled steps. One step is what one SystemC process does between two waits, or
the arrival of one message at its receiver. The label says which step, and carries the random choices
of the code.

Simplifications:
* All requests have the same NonSecure attribute, none is exclusive, and every address is snoopable.
* The line size is the code's `CACHELINE_SZ = 64`. Addresses are line numbers (`address / 64`).
* A `b_transport` on a cache is a sequence of chunks, one per line it touches (the loops of `HandleLoad`
  and `HandleStore`). The model starts each chunk by its own label.
* `RetryAck`/`PCrdGrant` (every second first request of a port is refused once and re-sent) only delay
  a request: an issued request is picked by the home node at any later time.
* The flits of one data message arrive together.
* The write requests of the home node to the slave node and their `CompDBIDResp` are one step.
* An early `CompAck` of a WriteUnique, which the home node only records, is taken when it is needed.
* Stash requests, atomics, DVM operations, CCIX ports and maintenance requests are not sent.
-/

namespace Verif.ChiCoh

/-- The bytes of a line. /repo/tlm-modules/private/chi/cacheline.h:225. -/
abbrev Data := Fin 64 → Byte
/-- The byte enables of a line. /repo/tlm-modules/private/chi/cacheline.h:226. -/
abbrev Be := Fin 64 → Bool

def upd {β : Type} (f : Nat → β) (a : Nat) (b : β) : Nat → β := fun x => if x = a then b else f x

/-- Enabled bytes of `x` over `d`. /repo/tlm-modules/private/chi/cacheline.h:62-84. -/
def merge (d : Data) (e : Be) (x : Data) : Data := fun o => if e o then x o else d o

def allBytes : Be := fun _ => true
def noBytes : Be := fun _ => false

/-- /repo/tlm-modules/private/chi/cacheline.h:50-231. -/
structure Line where
  valid : Bool
  tag : Nat
  shared : Bool
  dirty : Bool
  data : Data
  be : Be

/-- `GetFillGrade() == Full`. /repo/tlm-modules/private/chi/cacheline.h:103-120. -/
def Line.full (l : Line) : Bool := decide (∀ o, l.be o = true)
/-- `GetFillGrade() == Empty`. -/
def Line.empty (l : Line) : Bool := decide (∀ o, l.be o = false)

/-- /repo/tlm-modules/private/chi/cacheline.h:43. -/
inductive Status | inv | uc | uce | ud | udp | sc | sd
  deriving DecidableEq, Repr

/-- `GetStatus`. /repo/tlm-modules/private/chi/cacheline.h:122-150. The asserts on partial and empty
lines are left out. -/
def Line.status (l : Line) : Status :=
  if l.valid then
    if l.shared then (if l.dirty then .sd else .sc)
    else if l.full then (if l.dirty then .ud else .uc)
    else if l.empty then .uce else .udp
  else .inv

/-- Part of a load or a store that falls into one line. `be` are the bytes of the line it covers
(in range and enabled); `whole`: its length is 64, whatever is enabled (`ToWrite`,
/repo/tlm-modules/cache-chi.h:341-355); `allBe`: `AllBytesEnabled` of the whole payload
(/repo/tlm-modules/cache-chi.h:2034). -/
structure Chunk where
  wr : Bool
  tag : Nat
  whole : Bool
  allBe : Bool
  be : Be
  data : Data

/-- Request opcodes the cache uses. /repo/tlm-bridges/amba-chi.h (`Req`). -/
inductive Kind
  | readShared | readClean | readNSD | readUnique
  | once | onceCI | onceMI
  | cleanUnique | makeUnique | evict
  | writeBack | writeBackPtl | writeClean | writeEvict
  | wrUPtl | wrUFull
  deriving DecidableEq, Repr

/-- Allocating reads. -/
def Kind.isRd : Kind → Bool
  | .readShared | .readClean | .readNSD | .readUnique => true
  | _ => false
/-- ReadOnce and its variants: `IsNonCoherentRead`. -/
def Kind.isOnce : Kind → Bool
  | .once | .onceCI | .onceMI => true
  | _ => false
/-- Copy-back writes. -/
def Kind.isCb : Kind → Bool
  | .writeBack | .writeBackPtl | .writeClean | .writeEvict => true
  | _ => false
/-- WriteUnique*. -/
def Kind.isWrU : Kind → Bool
  | .wrUPtl | .wrUFull => true
  | _ => false

/-- Snoop opcodes the home node sends; Clean, Shared and NotSharedDirty have one handler, and so have
their forwarding variants. /repo/tlm-modules/cache-chi.h:748-798. -/
inductive SnpOp | once | share | unique | cleanInvalid | makeInvalid | onceFwd | shareFwd | uniqueFwd
  deriving DecidableEq, Repr

/-- Which request is snooped and how. `IsSnoopingReq`, /repo/tlm-modules/iconnect-chi.h:472-505;
`SnpMsg::GetOpcode`, /repo/tlm-modules/iconnect-chi.h:1453-1560. `fwd`: direct cache transfer. -/
def snpOp (fwd : Bool) : Kind → Option SnpOp
  | .once => some (if fwd then .onceFwd else .once)
  | .onceCI | .onceMI => some .unique
  | .readUnique => some (if fwd then .uniqueFwd else .unique)
  | .readShared | .readClean | .readNSD => some (if fwd then .shareFwd else .share)
  | .cleanUnique | .wrUPtl => some .cleanInvalid
  | .makeUnique | .wrUFull => some .makeInvalid
  | _ => none

/-- State the requester gets with `CompData`. /repo/tlm-modules/private/chi/txns-rn.h:276-303. -/
structure Grant where
  valid : Bool
  shared : Bool
  dirty : Bool
  deriving DecidableEq, Repr

def Grant.i : Grant := ⟨false, false, false⟩
def Grant.uc : Grant := ⟨true, false, false⟩
def Grant.sc : Grant := ⟨true, true, false⟩
def Grant.udpd : Grant := ⟨true, false, true⟩

/-- A snoop response: the state of the line is not I, PassDirty, with data, partial data, and the state
forwarded to the requester. /repo/tlm-modules/private/chi/txns-rn.h:1686-1728. -/
structure Resp where
  valid : Bool
  pd : Bool
  data : Bool
  ptl : Bool
  fwd : Option Grant
  deriving DecidableEq, Repr

def rsp (valid pd data ptl : Bool) (fwd : Option Grant) : Resp := ⟨valid, pd, data, ptl, fwd⟩

/-- `HandleSnpOnce`. /repo/tlm-modules/cache-chi.h:818-867. RetToSrc is always set. -/
def snpOnce (l : Line) : Line × Resp :=
  match l.status with
  | .uc | .ud | .sc | .sd => (l, rsp true false true false none)
  | .uce => (l, rsp true false false false none)
  | .udp => (l, rsp true false true true none)
  | .inv => (l, rsp false false false false none)

/-- `HandleSnpClean`. /repo/tlm-modules/cache-chi.h:870-935. -/
def snpShare (l : Line) : Line × Resp :=
  match l.status with
  | .uc => ({ l with shared := true }, rsp true false true false none)
  | .uce => ({ l with valid := false }, rsp false false false false none)
  | .ud => ({ l with shared := true }, rsp true true true false none)
  | .udp => ({ l with valid := false }, rsp false true true true none)
  | .sc => (l, rsp true false true false none)
  | .sd => ({ l with dirty := false }, rsp true true true false none)
  | .inv => (l, rsp false false false false none)

/-- `HandleSnpUnique`. /repo/tlm-modules/cache-chi.h:938-993. -/
def snpUnique (l : Line) : Line × Resp :=
  ({ l with valid := false },
    match l.status with
    | .uc | .sc => rsp false false true false none
    | .uce | .inv => rsp false false false false none
    | .ud | .sd => rsp false true true false none
    | .udp => rsp false true true true none)

/-- `HandleSnpCleanInvalid`. /repo/tlm-modules/cache-chi.h:1057-1106. -/
def snpCleanInvalid (l : Line) : Line × Resp :=
  ({ l with valid := false },
    match l.status with
    | .ud | .sd => rsp false true true false none
    | .udp => rsp false true true true none
    | _ => rsp false false false false none)

/-- `HandleSnpMakeInvalid`. /repo/tlm-modules/cache-chi.h:1109-1123. -/
def snpMakeInvalid (l : Line) : Line × Resp :=
  ({ l with valid := false }, rsp false false false false none)

/-- `HandleSnpOnceFwd`. /repo/tlm-modules/cache-chi.h:1330-1386. -/
def snpOnceFwd (l : Line) : Line × Resp :=
  match l.status with
  | .uc | .ud | .sc | .sd => (l, rsp true false false false (some .i))
  | .uce => (l, rsp true false false false none)
  | .udp => (l, rsp true false true true none)
  | .inv => (l, rsp false false false false none)

/-- `HandleSnpCleanFwd`, `HandleSnpNotSharedDirtyFwd`, `HandleSnpSharedFwd`.
/repo/tlm-modules/cache-chi.h:1389-1655. -/
def snpShareFwd (l : Line) : Line × Resp :=
  match l.status with
  | .uc => ({ l with shared := true }, rsp true false true false (some .sc))
  | .uce => ({ l with valid := false }, rsp false false false false none)
  | .ud => ({ l with shared := true, dirty := false }, rsp true true true false (some .sc))
  | .udp => ({ l with valid := false }, rsp false true true true none)
  | .sc => (l, rsp true false true false (some .sc))
  | .sd => ({ l with dirty := false }, rsp true true true false (some .sc))
  | .inv => (l, rsp false false false false none)

/-- `HandleSnpUniqueFwd`. /repo/tlm-modules/cache-chi.h:1658-1711. -/
def snpUniqueFwd (l : Line) : Line × Resp :=
  ({ l with valid := false },
    match l.status with
    | .uc | .sc => rsp false false false false (some .uc)
    | .ud | .sd => rsp false false false false (some .udpd)
    | .udp => rsp false true true true none
    | .uce | .inv => rsp false false false false none)

/-- `HandleSnp` for a line in the cache. /repo/tlm-modules/cache-chi.h:722-800. -/
def snpTable : SnpOp → Line → Line × Resp
  | .once => snpOnce
  | .share => snpShare
  | .unique => snpUnique
  | .cleanInvalid => snpCleanInvalid
  | .makeInvalid => snpMakeInvalid
  | .onceFwd => snpOnceFwd
  | .shareFwd => snpShareFwd
  | .uniqueFwd => snpUniqueFwd

/-- `HandleSnp`: a line that is not in the cache answers I. /repo/tlm-modules/cache-chi.h:735,807-812. -/
def snpLine (op : SnpOp) (tag : Nat) (l : Line) : Line × Resp :=
  if l.valid = true ∧ l.tag = tag then snpTable op l else (l, rsp false false false false none)

/-- How far a cache's own transaction has come: not yet served by the home node, being served, its
`Comp` on the way although the home node has finished (Evict), completed with the CPU side not yet
running again. -/
inductive TxnSt | issued | active | comp | done
  deriving DecidableEq, Repr

/-- The transaction the CPU side of a cache waits for. `c` is the chunk it serves, `f` the request that
brings the line (or the data), `op`, `tag` the outstanding request, `snap`, `sbe` the copied data of a
write (/repo/tlm-modules/private/chi/txns-rn.h:787-868), `got` the data of a ReadOnce. -/
structure Wait where
  c : Chunk
  f : Kind
  op : Kind
  tag : Nat
  snap : Data
  sbe : Be
  ack : Bool
  st : TxnSt
  got : Data

/-- `cache_chi`: direct mapped lines and at most one CPU request at a time (`m_mutex`).
/repo/tlm-modules/cache-chi.h:1748-1870,2320-2345. -/
structure Cache where
  slot : Nat → Line
  pc : Option Wait

/-- Random choices of one process segment. /repo/tlm-modules/cache-chi.h:1720-1734; all zero when
randomizing is off (the default). -/
structure Rnd where
  load : Nat := 0
  store : Nat := 0
  clean : Bool := false
  evict : Bool := false
  ack : Bool := false

/-- What the users of the caches can see: the start of a chunk, the moment a store takes effect, the end
of a chunk with the line's bytes a load returns. -/
inductive Ev
  | begin (i : Nat) (c : Chunk)
  | commit (i : Nat)
  | finish (i : Nat) (d : Data)

/-- /repo/tlm-modules/cache-chi.h:1915-1955. -/
def loadKind : Nat → Kind
  | 0 => .readShared
  | 1 => .readClean
  | 2 => .once
  | 3 => .onceCI
  | 4 => .onceMI
  | _ => .readNSD

/-- A request that brings the line or the data, or a WriteUnique.
/repo/tlm-modules/cache-chi.h:422-460,590-716. -/
def fillReq (c : Chunk) (f : Kind) (ack : Bool) : Wait :=
  { c, f, op := f, tag := c.tag, snap := c.data, sbe := c.be, ack, st := .issued, got := fun _ => 0 }

/-- A request that concerns the line now in the slot. /repo/tlm-modules/cache-chi.h:462-535. -/
def victimReq (c : Chunk) (f op : Kind) (l : Line) : Wait :=
  { c, f, op, tag := l.tag, snap := l.data, sbe := l.be, ack := false, st := .issued, got := fun _ => 0 }

/-- `InvalidateCacheLine` after the optional WriteCleanFull, then the fill.
/repo/tlm-modules/cache-chi.h:549-569. -/
def evictNext (c : Chunk) (f : Kind) (r : Rnd) (l : Line) : Line × Wait :=
  if l.valid then
    if l.dirty && !l.full && !l.empty then (l, victimReq c f .writeBackPtl l)
    else if l.dirty then (l, victimReq c f .writeBack l)
    else if l.full && r.evict then (l, victimReq c f .writeEvict l)
    else ({ l with valid := false }, victimReq c f .evict l)
  else (l, fillReq c f false)

/-- Clear the slot if it is in use, then the fill. /repo/tlm-modules/cache-chi.h:536-545,602-716. -/
def clearFill (c : Chunk) (f : Kind) (r : Rnd) (l : Line) : Line × Wait :=
  if l.valid && l.dirty && l.full && r.clean then (l, victimReq c f .writeClean l)
  else evictNext c f r l

/-- `WriteLine`. /repo/tlm-modules/cache-chi.h:289-312. -/
def Line.write (l : Line) (c : Chunk) : Line :=
  let be : Be := fun o => c.be o || l.be o
  { l with data := merge l.data c.be c.data, be, dirty := if ∀ o, be o = false then l.dirty else true }

/-- One turn of the loop of `HandleLoad` for a line. /repo/tlm-modules/cache-chi.h:1909-1966. -/
def topLoad (num i : Nat) (c : Chunk) (r : Rnd) (ca : Cache) : Cache × List Ev :=
  let x := c.tag % num
  let l := ca.slot x
  if l.valid = true ∧ l.full = true ∧ l.tag = c.tag then
    ({ ca with pc := none }, [.finish i l.data])
  else
    let p := clearFill c (loadKind r.load) r l
    ({ slot := upd ca.slot x p.1, pc := some p.2 }, [])

/-- One turn of the loop of `HandleStore` for a line. /repo/tlm-modules/cache-chi.h:1979-2044. -/
def topStore (num i : Nat) (c : Chunk) (r : Rnd) (ca : Cache) : Cache × List Ev :=
  let x := c.tag % num
  let l := ca.slot x
  if l.valid = true ∧ l.tag = c.tag then
    if l.shared = false then
      ({ slot := upd ca.slot x (l.write c), pc := none }, [.commit i, .finish i c.data])
    else ({ ca with pc := some (fillReq c .cleanUnique false) }, [])
  else if r.store = 0 then
    let p := clearFill c (if c.whole then .makeUnique else .readUnique) r l
    ({ slot := upd ca.slot x p.1, pc := some p.2 }, [])
  else ({ ca with pc := some (fillReq c (if c.allBe then .wrUFull else .wrUPtl) r.ack) }, [])

def top (num i : Nat) (c : Chunk) (r : Rnd) (ca : Cache) : Cache × List Ev :=
  if c.wr then topStore num i c r ca else topLoad num i c r ca

/-- What the CPU side does when its transaction has completed. -/
def resumeAt (num i : Nat) (w : Wait) (r : Rnd) (ca : Cache) : Cache × List Ev :=
  match w.op with
  | .writeClean =>
    let x := w.c.tag % num
    let p := evictNext w.c w.f r (ca.slot x)
    ({ slot := upd ca.slot x p.1, pc := some p.2 }, [])
  | .writeBack | .writeBackPtl | .writeEvict | .evict =>
    ({ ca with pc := some (fillReq w.c w.f false) }, [])
  | .readShared | .readClean | .readNSD | .readUnique | .makeUnique | .cleanUnique =>
    top num i w.c r ca
  | .once | .onceCI | .onceMI => ({ ca with pc := none }, [.finish i w.got])
  | .wrUPtl | .wrUFull => ({ ca with pc := none }, [.finish i w.c.data])

/-- A snoop of one port: not snooped, sent, handled by the cache with the response on the way, response
received. -/
inductive SnpSt | off | sent | handled (r : Resp) | done
  deriving DecidableEq, Repr

/-- Where the request being served is:
`snoop` waiting for snoop responses; `wrDirty` snooped dirty data being written to the slave node;
`rdMem` ReadNoSnp at the slave node; `dat` CompData on the way to the requester (`e`: its byte enables,
`none` when it carries none); `comp` Comp on the way; `dbid` CompDBIDResp on the way; `wr` the
requester's write data on the way to the home node; `wrMem` that data being written to the slave node;
`ack` CompAck on the way. -/
inductive Phase
  | snoop
  | wrDirty
  | rdMem
  | dat (g : Grant) (d : Data) (e : Option Be)
  | comp
  | dbid
  | wr (pd : Bool) (d : Data) (e : Be)
  | wrMem (d : Data) (e : Be)
  | ack

/-- `ReqTxn` in the home node: the request, its snoops, and what the responses said so far
(`m_snpTrackers`, `m_data`, `m_byteEnable`, `m_isSnpDataPtl`). /repo/tlm-modules/iconnect-chi.h:165-980. -/
structure Cur where
  src : Nat
  kind : Kind
  tag : Nat
  exp : Bool
  fwd : Bool
  snp : Nat → SnpSt
  shared : Bool
  pd : Bool
  got : Bool
  ptl : Bool
  data : Data
  be : Be
  phase : Phase

/-- The system. `filt i t`: port `i`'s snoop filter has line `t`. `posted`: write data sent to the slave
node and not yet written to the memory. `cur`: the request being served; the request orderer serves one
at a time (/repo/tlm-modules/iconnect-chi.h:1864-1900). -/
structure St where
  cache : Nat → Cache
  mem : Nat → Data
  posted : List (Nat × Data × Be)
  filt : Nat → Nat → Bool
  cur : Option Cur

/-- `n` ports, `num` lines per cache (`CACHE_SZ / 64`), `dct`: `EnableDCT` (on by default,
/repo/tlm-modules/iconnect-chi.h:3098), `link`: caches are connected through pin-level CHI bridges
(as in the tests), which give every data message byte enables
(/repo/tlm-bridges/private/chi/pkts.h:1027), rather than socket to socket. -/
structure Cfg where
  n : Nat
  num : Nat
  dct : Bool
  link : Bool

inductive Label
  /-- the CPU of cache `i` starts a chunk -/
  | start (i : Nat) (c : Chunk) (r : Rnd)
  /-- the CPU side of cache `i` runs again after its transaction -/
  | resume (i : Nat) (r : Rnd)
  /-- the home node starts serving the request of cache `i` -/
  | pick (i : Nat)
  /-- the snoop reaches cache `j` -/
  | snoop (j : Nat)
  /-- the snoop response of cache `j` reaches the home node -/
  | resp (j : Nat) (junk : Be)
  /-- the slave node accepts the write of snooped dirty data -/
  | snAck
  /-- the slave node reads memory -/
  | memRead
  /-- the slave node writes the oldest write data to memory -/
  | memWrite
  /-- CompData reaches the requester -/
  | rxDat
  /-- Comp reaches the requester -/
  | rxComp
  /-- the Comp of an Evict reaches cache `i` -/
  | rxEvict (i : Nat)
  /-- CompDBIDResp reaches the requester -/
  | rxDbid
  /-- the write data reaches the home node -/
  | wrDat
  /-- the slave node accepts the requester's write data -/
  | snWr
  /-- CompAck reaches the home node -/
  | ack

inductive Out
  /-- the step cannot happen now -/
  | blocked
  /-- an assertion of the code fails -/
  | abort
  | next (s : St) (es : List Ev)

/-- The targets of the snoops of a request: every other port whose filter has the line.
/repo/tlm-modules/iconnect-chi.h:2905-2938 (`FillPortsToSnoop`). -/
def targets (cfg : Cfg) (s : St) (i t : Nat) : List Nat :=
  (List.range cfg.n).filter fun j => j != i && s.filt j t

/-- `TxnProcessor::ProcessReq`. /repo/tlm-modules/iconnect-chi.h:2308-2401. -/
def procReq (k : Cur) : Cur :=
  if k.kind.isRd || k.kind.isOnce then { k with phase := .rdMem }
  else if k.kind.isCb || k.kind.isWrU then { k with phase := .dbid }
  else { k with phase := .comp }

/-- State granted to the requester. /repo/tlm-modules/iconnect-chi.h:806-816,1150-1154. -/
def Cur.grant (k : Cur) : Grant :=
  if k.kind.isOnce then .i else ⟨true, k.shared, k.pd⟩

/-- `ProcessSnpdReq`. /repo/tlm-modules/iconnect-chi.h:2249-2306; `AllowsPassDirtySnpData`, :548-566. -/
def procSnpd (k : Cur) : Cur :=
  if k.got && k.pd && !((k.kind = .readShared || k.kind = .readUnique) && !k.ptl) then
    { k with phase := .wrDirty }
  else if k.got && (k.kind.isRd || k.kind.isOnce) && !k.ptl then
    { k with phase := .dat k.grant k.data (some k.be) }
  else procReq { k with got := false }

/-- All snoop responses are in. /repo/tlm-modules/iconnect-chi.h:628-643. -/
def Cur.allDone (n : Nat) (k : Cur) : Bool :=
  (List.range n).all fun j => k.snp j = .off || k.snp j = .done

/-- The home node takes a request. /repo/tlm-modules/iconnect-chi.h:1864-1900,3280-3322,2826-2900. -/
def newCur (cfg : Cfg) (s : St) (i : Nat) (w : Wait) : Cur :=
  let ts := targets cfg s i w.tag
  let fwd := cfg.dct && ts.length == 1
  let k : Cur :=
    { src := i, kind := w.op, tag := w.tag, exp := w.ack, fwd
      snp := fun j => if (snpOp fwd w.op).isSome && ts.contains j then .sent else .off
      shared := false, pd := false, got := false, ptl := false
      data := fun _ => 0, be := noBytes, phase := .snoop }
  if (snpOp fwd w.op).isSome && !ts.isEmpty then k else procReq k

/-- A snoop response arrives: `ProcessResp`, `ProcessDat`, `CheckSnpDone`.
/repo/tlm-modules/iconnect-chi.h:2940-3094. The data of the response is what the line holds now: the
cache sends a pointer to it (/repo/tlm-modules/private/chi/txns-rn.h:1730-1736). Data forwarded to the
requester has the line's byte enables, or, when the response itself carried no data, an uninitialised
array (`junk`), because `deep_copy_from` copies no byte enables into a payload that has none
(/repo/tlm-modules/private/chi/txns-rn.h:1645-1660,1595). -/
def takeResp (cfg : Cfg) (k : Cur) (j : Nat) (r : Resp) (l : Line) (junk : Be) : Cur :=
  let k1 := { k with
    snp := upd k.snp j .done
    shared := k.shared || r.valid
    pd := k.pd || r.pd
    got := k.got || r.data
    ptl := k.ptl || r.ptl
    data := if r.data then (fun o => if l.be o then l.data o else 0) else k.data
    be := if r.data then l.be else k.be }
  if k1.allDone cfg.n then
    match r.fwd with
    | some g => { k1 with phase := .dat g l.data (some (if r.data then l.be else if cfg.link then allBytes else junk)) }
    | none => procSnpd k1
  else k1

def setCache (s : St) (i : Nat) (ca : Cache) : St := { s with cache := upd s.cache i ca }

/-- Change the state of the transaction cache `i` waits for. -/
def setSt (ca : Cache) (st : TxnSt) : Cache := { ca with pc := ca.pc.map fun w => { w with st := st } }

/-- CompData at the requester. `HandleRxDat`, /repo/tlm-modules/private/chi/txns-rn.h:443-489. ReadOnce
takes the bytes and asserts that byte enables came along (:508-530); other reads fill the line. -/
def rxDatCache (num : Nat) (k : Cur) (g : Grant) (d : Data) (e : Option Be) (w : Wait) (ca : Cache) :
    Option Cache :=
  if k.kind.isOnce then
    match e with
    | none => none
    | some _ => some { ca with pc := some { w with st := .done, got := d } }
  else
    let x := w.tag % num
    let l := ca.slot x
    let l' : Line := { valid := g.valid, tag := if g.valid then w.tag else l.tag
                       shared := if g.valid then g.shared else l.shared
                       dirty := if g.valid then g.dirty else l.dirty
                       data := merge l.data (e.getD allBytes) d
                       be := if g.valid then allBytes else l.be }
    some { slot := upd ca.slot x l', pc := some { w with st := .done } }

/-- Comp of a CleanUnique or MakeUnique at the requester.
/repo/tlm-modules/private/chi/txns-rn.h:665-708,748-756. -/
def rxCompCache (num : Nat) (w : Wait) (ca : Cache) : Cache :=
  let x := w.tag % num
  let l := ca.slot x
  let l' : Line := { l with valid := true, tag := w.tag, shared := false, dirty := false
                            data := if w.op = .makeUnique then (fun _ => 0) else l.data
                            be := if w.op = .makeUnique then noBytes else l.be }
  { slot := upd ca.slot x l', pc := some { w with st := .done } }

/-- CompDBIDResp at the requester: PassDirty and the byte enables of the write data, and the new state of
the line. /repo/tlm-modules/private/chi/txns-rn.h:1092-1170. -/
def rxDbidCache (num : Nat) (w : Wait) (ca : Cache) : Cache × Phase :=
  let x := w.tag % num
  let l := ca.slot x
  let pc' := some { w with st := .done }
  if w.op.isWrU then ({ ca with pc := pc' }, .wr true w.snap w.sbe)
  else
    let ph : Phase := if l.valid then .wr l.dirty w.snap w.sbe else .wr false w.snap noBytes
    let l' := if w.op = .writeClean then { l with dirty := false } else { l with valid := false }
    ({ slot := upd ca.slot x l', pc := pc' }, ph)

def updFilt (f : Nat → Nat → Bool) (i t : Nat) (b : Bool) : Nat → Nat → Bool :=
  upd f i (upd (f i) t b)

/-- Snoop filter at the end of a request. /repo/tlm-modules/iconnect-chi.h:1733-1780. -/
def filtEnd (k : Kind) (f : Nat → Nat → Bool) (i t : Nat) : Nat → Nat → Bool :=
  if k.isRd || k = .cleanUnique || k = .makeUnique then updFilt f i t true
  else if k = .writeClean then f
  else updFilt f i t false

def stepPick (cfg : Cfg) (s : St) (i : Nat) : Out :=
  match s.cur, (s.cache i).pc with
  | none, some w =>
    if w.st = .issued then
      if w.op = .evict then
        .next { setCache s i (setSt (s.cache i) .comp) with filt := filtEnd .evict s.filt i w.tag } []
      else
        .next { setCache s i (setSt (s.cache i) .active) with cur := some (newCur cfg s i w) } []
    else .blocked
  | _, _ => .blocked

def stepSnoop (cfg : Cfg) (s : St) (j : Nat) : Out :=
  match s.cur with
  | some k =>
    match k.snp j, snpOp k.fwd k.kind with
    | .sent, some op =>
      let x := k.tag % cfg.num
      let p := snpLine op k.tag ((s.cache j).slot x)
      .next { setCache s j { s.cache j with slot := upd (s.cache j).slot x p.1 } with
              cur := some { k with snp := upd k.snp j (.handled p.2) } } []
    | _, _ => .blocked
  | none => .blocked

def stepResp (cfg : Cfg) (s : St) (j : Nat) (junk : Be) : Out :=
  match s.cur with
  | some k =>
    match k.snp j with
    | .handled r =>
      .next { s with
        filt := if r.valid then s.filt else updFilt s.filt j k.tag false
        cur := some (takeResp cfg k j r ((s.cache j).slot (k.tag % cfg.num)) junk) } []
    | _ => .blocked
  | none => .blocked

def stepSnAck (s : St) : Out :=
  match s.cur with
  | some k =>
    match k.phase with
    | .wrDirty => .next { s with posted := s.posted ++ [(k.tag, k.data, k.be)]
                                 cur := some (procSnpd { k with pd := false }) } []
    | _ => .blocked
  | none => .blocked

/-- Memory data arrives with no byte enables when the nodes are connected directly
(/repo/tlm-modules/sn-chi.h:398-464), with all of them through a link. The slave node grants UC when it
answers the requester itself; else the home node sets the state (`SetupNonDMT`). -/
def stepMemRead (cfg : Cfg) (s : St) : Out :=
  match s.cur with
  | some k =>
    match k.phase with
    | .rdMem => .next { s with cur := some { k with
        phase := .dat (if k.shared || k.pd then ⟨true, k.shared, k.pd⟩ else .uc) (s.mem k.tag)
                   (if cfg.link then some allBytes else none) } } []
    | _ => .blocked
  | none => .blocked

def stepMemWrite (s : St) : Out :=
  match s.posted with
  | [] => .blocked
  | (t, d, e) :: ps => .next { s with mem := upd s.mem t (merge (s.mem t) e d), posted := ps } []

def stepRxDat (cfg : Cfg) (s : St) : Out :=
  match s.cur with
  | some k =>
    match k.phase, (s.cache k.src).pc with
    | .dat g d e, some w =>
      match rxDatCache cfg.num k g d e w (s.cache k.src) with
      | none => .abort
      | some ca => .next { setCache s k.src ca with cur := some { k with phase := .ack } } []
    | _, _ => .blocked
  | none => .blocked

def stepRxComp (cfg : Cfg) (s : St) : Out :=
  match s.cur with
  | some k =>
    match k.phase, (s.cache k.src).pc with
    | .comp, some w =>
      .next { setCache s k.src (rxCompCache cfg.num w (s.cache k.src)) with
              cur := some { k with phase := .ack } } []
    | _, _ => .blocked
  | none => .blocked

/-- Comp_I of an Evict. /repo/tlm-modules/private/chi/txns-rn.h:761-764. -/
def stepRxEvict (cfg : Cfg) (s : St) (i : Nat) : Out :=
  match (s.cache i).pc with
  | some w =>
    if w.st = .comp then
      let x := w.tag % cfg.num
      let l := (s.cache i).slot x
      .next (setCache s i { slot := upd (s.cache i).slot x { l with valid := false }
                            pc := some { w with st := .done } }) []
    else .blocked
  | none => .blocked

/-- A WriteUnique takes effect here: its data is on the way and all other copies are gone. -/
def stepRxDbid (cfg : Cfg) (s : St) : Out :=
  match s.cur with
  | some k =>
    match k.phase, (s.cache k.src).pc with
    | .dbid, some w =>
      let p := rxDbidCache cfg.num w (s.cache k.src)
      .next { setCache s k.src p.1 with cur := some { k with phase := p.2 } }
        (if w.op.isWrU then [.commit k.src] else [])
    | _, _ => .blocked
  | none => .blocked

/-- `ProcessDat` of write data. /repo/tlm-modules/iconnect-chi.h:2403-2500: copy-back data goes on only
when it passes dirty. -/
def stepWrDat (s : St) : Out :=
  match s.cur with
  | some k =>
    match k.phase with
    | .wr pd d e =>
      .next { s with
        filt := if k.kind.isWrU then s.filt else filtEnd k.kind s.filt k.src k.tag
        cur := if pd then some { k with phase := .wrMem d e } else none } []
    | _ => .blocked
  | none => .blocked

def stepSnWr (s : St) : Out :=
  match s.cur with
  | some k =>
    match k.phase with
    | .wrMem d e => .next { s with posted := s.posted ++ [(k.tag, d, e)]
                                   cur := if k.exp then some { k with phase := .ack } else none } []
    | _ => .blocked
  | none => .blocked

/-- CompAck. /repo/tlm-modules/iconnect-chi.h:2504-2553. -/
def stepAck (s : St) : Out :=
  match s.cur with
  | some k =>
    match k.phase with
    | .ack => .next { s with
        filt := if k.kind.isWrU then s.filt else filtEnd k.kind s.filt k.src k.tag
        cur := none } []
    | _ => .blocked
  | none => .blocked

def step (cfg : Cfg) (s : St) : Label → Out
  | .start i c r =>
    if i < cfg.n then
      match (s.cache i).pc with
      | none =>
        let p := top cfg.num i c r (s.cache i)
        .next (setCache s i p.1) (.begin i c :: p.2)
      | some _ => .blocked
    else .blocked
  | .resume i r =>
    match (s.cache i).pc with
    | some w =>
      if w.st = .done then
        let p := resumeAt cfg.num i w r (s.cache i)
        .next (setCache s i p.1) p.2
      else .blocked
    | none => .blocked
  | .pick i => stepPick cfg s i
  | .snoop j => stepSnoop cfg s j
  | .resp j junk => stepResp cfg s j junk
  | .snAck => stepSnAck s
  | .memRead => stepMemRead cfg s
  | .memWrite => stepMemWrite s
  | .rxDat => stepRxDat cfg s
  | .rxComp => stepRxComp cfg s
  | .rxEvict i => stepRxEvict cfg s i
  | .rxDbid => stepRxDbid cfg s
  | .wrDat => stepWrDat s
  | .snWr => stepSnWr s
  | .ack => stepAck s

/-- Run a schedule; `none` when a step cannot happen or an assertion fails. -/
def run (cfg : Cfg) : St → List Label → Option (St × List Ev)
  | s, [] => some (s, [])
  | s, l :: ls =>
    match step cfg s l with
    | .next s' es =>
      match run cfg s' ls with
      | some (s'', es') => some (s'', es ++ es')
      | none => none
    | _ => none

/-- Power-up state: empty caches, empty snoop filters, any memory.
/repo/tlm-modules/private/chi/cacheline.h:53-60. -/
def init (m : Nat → Data) : St :=
  { cache := fun _ => { slot := fun _ => { valid := false, tag := 0, shared := false, dirty := false
                                           data := fun _ => 0, be := allBytes }
                        pc := none }
    mem := m, posted := [], filt := fun _ _ => false, cur := none }

end Verif.ChiCoh
