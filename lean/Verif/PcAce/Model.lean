import Verif.PcAxi.Model

/-! # The ACE protocol checker

checkers/checker-ace.h, with the predicates of `ace_helpers` (tlm-bridges/amba-ace.h 169-390).  As in
`Verif.PcAxi`, everything happens at the granularity of clock cycles, a checker is a function from its
state and the handshakes of a cycle to its new state and the errors it reports, and the texts of the
messages are not modelled. -/

namespace Verif.PcAce
open Verif.PcAxi (align)

/-- An accepted address, read or write: the signals the checks use, each a number of its width
(`SampleARSignals` 1024-1039, `SampleAWSignals` 2069-2084). -/
structure Ax where
  id : Nat
  addr : Nat := 0
  len : Nat := 0
  size : Nat := 0
  burst : Nat := 1
  cache : Nat := 2
  lock : Nat := 0
  snoop : Nat := 0
  domain : Nat := 0
  bar : Nat := 0
  deriving DecidableEq, Repr

/-- The two flavours of the interface, the cache line and the bus in bytes, and `max_depth`.  All checks
are taken as enabled, except that gaps in the strobes may be allowed or not. -/
structure Cfg where
  ace : Bool := true
  line : Nat := 64
  bus : Nat := 16
  gaps : Bool := true
  depth : Nat := 64
  deriving DecidableEq, Repr

/-- `domain == Inner || domain == Outer` (tlm-bridges/amba-ace.h 40-48). -/
def inOut (d : Nat) : Bool := d == 1 || d == 2

/-- `NonSharable`, `Inner` or `Outer`. -/
def notSys (d : Nat) : Bool := d == 0 || d == 1 || d == 2

/-- `AxID` is a `uint8_t` argument of the constructor (553, 1486), kept as `uint32_t`. -/
def Ax.key (a : Ax) : Nat := a.id % 256

/-- `IsBarrier` (633, 1653). -/
def Ax.isBarrier (a : Ax) : Bool := decide (a.bar > 0)

/-- `GetExclusive` (583-586, 1520). -/
def Ax.excl (a : Ax) : Bool := a.lock == 1

/-- `IsModifiable`, `IsCacheable` (amba-ace.h 342-350; checker-ace.h 977-979, 2017-2025). -/
def Ax.modifiable (a : Ax) : Bool := a.cache / 2 % 2 == 1
def Ax.cacheable (a : Ax) : Bool := a.cache / 4 % 4 != 0

/-- `IsDVM` (amba-ace.h 263-280). -/
def Ax.isDvm (a : Ax) : Bool := (a.snoop == 0xe || a.snoop == 0xf) && inOut a.domain

/-- `HasSingleRdDataTransfer` (amba-ace.h 229-258). -/
def Ax.single (a : Ax) : Bool :=
  if (a.snoop == 0xb || a.snoop == 9 || a.snoop == 8 || a.snoop == 0xd || a.snoop == 0xc) && inOut a.domain then true
  else a.isBarrier || a.isDvm

/-! ## Reads -/

/-- `CheckARSnoop` (635-690). -/
def checkARSnoop (ace : Bool) (a : Ax) : Bool :=
  if a.bar ≠ 0 then a.snoop == 0
  else if a.snoop == 0 && (a.domain == 0 || a.domain == 3) then true
  else match a.snoop with
    | 0xe | 0xf | 1 | 2 | 3 | 7 | 0xb | 0xc => if !ace then false else inOut a.domain
    | 0 => inOut a.domain
    | 8 | 9 | 0xd => notSys a.domain
    | _ => false

/-- `CheckARCache` (692-705), `CheckAWCache` (1713-1726). -/
def checkCache (a : Ax) : Bool :=
  if !a.modifiable && a.domain != 3 then false
  else if a.domain == 3 && a.cacheable then false
  else true

/-- `is_cacheline_sized_tx` (941-975). -/
def Ax.rdLine (a : Ax) : Bool :=
  if a.bar ≠ 0 then false
  else match a.snoop with
    | 2 | 1 | 3 | 7 | 0xb | 0xc => inOut a.domain
    | 8 | 9 | 0xd => notSys a.domain
    | _ => false

/-- `CheckBurstAddr` (707-762). -/
def checkBurstAddr (c : Cfg) (a : Ax) : Bool :=
  if a.rdLine then
    if 2 ^ a.size ≠ c.bus then false
    else if c.line ≠ 2 ^ a.size * (a.len + 1) then false
    else if a.bar ≠ 0 then false
    else if !a.modifiable then false
    else if a.burst = 1 then decide (a.addr = align a.addr c.line)
    else if a.burst = 2 then decide (a.addr = align a.addr c.bus)
    else if a.burst = 0 then false
    else true
  else true

/-- `AllowsExclusive` (764-777), `AllowsIsShared` (779-794). -/
def Ax.allowsExcl (a : Ax) : Bool := a.snoop == 0 || a.snoop == 2 || a.snoop == 1 || a.snoop == 0xb

def Ax.allowsShared (a : Ax) : Bool :=
  !(a.snoop == 0 || a.snoop == 7 || a.snoop == 0xb || a.snoop == 9 || a.snoop == 0xc || a.snoop == 0xd)

/-- `AllowPassDirty` (amba-ace.h 355-389). -/
def Ax.allowsDirty (a : Ax) : Bool :=
  if a.snoop == 0 && (a.domain == 0 || a.domain == 3) then false
  else match a.snoop with
    | 0 | 2 | 0xb | 0xc => !inOut a.domain
    | 8 | 9 | 0xd => !notSys a.domain
    | _ => true

/-- `IsReadNotSharedDirty` (808-816). -/
def Ax.isRnsd (a : Ax) : Bool := inOut a.domain && a.snoop == 3

/-- `CheckBarrierSignals` (854-881; 1988-2015 for writes). -/
def checkBarrier (a : Ax) : Bool :=
  a.addr == 0 && a.len == 0 && a.burst == 1 && a.snoop == 0 && a.cache == 2 && a.lock == 0

/-- `CheckDVMSignals` (886-917). -/
def checkDvm (c : Cfg) (a : Ax) : Bool :=
  if a.snoop == 0xe && a.addr != 0 then false
  else a.len == 0 && decide (2 ^ a.size = c.bus) && a.burst == 1 && a.cache == 2 && a.lock == 0

/-- `IsDVMSync`, `IsDVMHint`, `IsDVMComplete` (919-938; amba-ace.h 212-224). -/
def Ax.isSync (a : Ax) : Bool := a.snoop == 0xf && a.addr / 4096 % 8 == 4
def Ax.isHint (a : Ax) : Bool := a.snoop == 0xf && a.addr / 4096 % 8 == 6
def Ax.isComplete (a : Ax) : Bool := a.snoop == 0xe

/-- `checker_ace_rd_tx::Transaction`: `m_numBeats` and `m_rresp`. -/
structure RTx where
  ax : Ax
  left : Int
  resp : Nat := 0
  deriving DecidableEq, Repr

inductive RErr
  | snoop | cache | burst | barrier | many | dvm | normalId | barrierId | dvmId | maxDepth
  | resp | barrierResp | notLast | shared | dirty | sharedDirty | dvmBits | dvmResp | changed | order | unknownId
  deriving DecidableEq, Repr

def err {α : Type} (ok : Bool) (e : α) : List α := if ok then [] else [e]

/-- `normal_tx_id_in_list`, `barrier_id_in_list`, `dvm_id_in_list` (1168-1215). -/
def normalIn (l : List RTx) (k : Nat) : Bool := l.any fun t => !t.ax.isBarrier && !t.ax.isDvm && t.ax.key == k
def barrierIn (l : List RTx) (k : Nat) : Bool := l.any fun t => t.ax.isBarrier && t.ax.key == k
def dvmIn (l : List RTx) (k : Nat) : Bool := l.any fun t => t.ax.isDvm && t.ax.key == k

/-- `get_barrier_count` (1271-1284). -/
def barriers (l : List RTx) : Nat := l.countP fun t => t.ax.isBarrier

/-- `check_arsignals` (1298-1368). -/
def checkAr (c : Cfg) (l : List RTx) (a : Ax) : List RErr :=
  err (checkARSnoop c.ace a) .snoop ++ err (checkCache a) .cache ++ err (checkBurstAddr c a) .burst ++
  (if a.isBarrier then
    err (checkBarrier a) .barrier ++ (if c.ace then err (decide (barriers l < 256)) .many else []) ++
    err (!normalIn l a.key) .normalId ++ err (!dvmIn l a.key) .dvmId
  else if a.isDvm then
    err (checkDvm c a) .dvm ++ err (!normalIn l a.key) .normalId ++ err (!barrierIn l a.key) .barrierId
  else err (!barrierIn l a.key) .barrierId ++ err (!dvmIn l a.key) .dvmId)

/-- An accepted read beat. -/
structure R where
  id : Nat
  resp : Nat := 0
  last : Bool
  deriving DecidableEq, Repr

def bit (n i : Nat) : Bool := n / 2 ^ i % 2 == 1

/-- `check_rresp` (1041-1053). -/
def checkRresp (a : Ax) (resp : Nat) : Bool :=
  if a.excl && !a.allowsExcl then false
  else if a.excl then resp % 4 == 1 || resp % 4 == 0
  else resp % 4 == 0

/-- `check_ace_resp` (1055-1150). -/
def checkResp (c : Cfg) (t : RTx) (r : R) : List RErr :=
  err (checkRresp t.ax r.resp) .resp ++
  err (!(t.ax.isBarrier && r.resp != 0)) .barrierResp ++
  err (!(decide (t.left = t.ax.len + 1) && t.ax.single && !r.last)) .notLast ++
  if c.ace then
    err (!(bit r.resp 3 && !t.ax.allowsShared)) .shared ++
    err (!(bit r.resp 2 && !t.ax.allowsDirty)) .dirty ++
    err (!(bit r.resp 2 && bit r.resp 3 && t.ax.isRnsd)) .sharedDirty ++
    (if t.ax.isDvm then
      err (!(bit r.resp 3 || bit r.resp 2)) .dvmBits ++
      err (!(r.resp != 0 && t.ax.isComplete)) .dvmResp ++
      err (!(r.resp != 0 && t.ax.isSync)) .dvmResp ++
      err (!(r.resp != 0 && t.ax.isHint)) .dvmResp
    else []) ++
    err (decide (t.left = t.ax.len + 1) || decide (r.resp / 4 % 4 = t.resp / 4 % 4)) .changed
  else []

/-- The transaction after the beat (1137-1138, 1409-1411). -/
def RTx.after (c : Cfg) (t : RTx) (r : R) : RTx :=
  { t with resp := if c.ace && decide (t.left = t.ax.len + 1) then r.resp else t.resp,
           left := if t.ax.single then t.left else t.left - 1 }

/-- `Done` (589-598).  The assertion there holds: the counter of such a transaction never moves
(1409-1411). -/
def RTx.done (t : RTx) : Bool := t.ax.single || decide (t.left = 0)

/-- `GetFirst` (1001-1012) and the change through the pointer, or the removal. -/
def updFirst {α : Type} (p : α → Bool) (f : α → Option α) : List α → List α
  | [] => []
  | t :: l => if p t then (f t).toList ++ l else t :: updFirst p f l

/-- An address is accepted (1381-1395). -/
def rdAr (c : Cfg) (l : List RTx) (a : Ax) : List RTx × List RErr :=
  if l.length < c.depth then (l ++ [⟨a, a.len + 1, 0⟩], checkAr c l a) else (l, [.maxDepth])

/-- A beat is accepted (1397-1448). -/
def rdR (c : Cfg) (l : List RTx) (r : R) : List RTx × List RErr :=
  match l.find? fun t => t.ax.key == r.id with
  | none => (l, [.unknownId])
  | some t =>
    (updFirst (fun t => t.ax.key == r.id) (fun t => if r.last then none else some (t.after c r)) l,
     checkResp c t r ++ err (r.last == (t.after c r).done) .order)

inductive RdCycle
  | reset
  | clk (ar : Option Ax) (r : Option R)
  deriving DecidableEq, Repr

/-- `rd_check` (1370-1450). -/
def rdStep (c : Cfg) (l : List RTx) : RdCycle → List RTx × List RErr
  | .reset => ([], [])
  | .clk ar r =>
    let x := match ar with | some a => rdAr c l a | none => (l, [])
    let y := match r with | some r => rdR c x.1 r | none => (x.1, [])
    (y.1, x.2 ++ y.2)

def rdRun (c : Cfg) : List RTx → List RdCycle → List RTx × List RErr
  | l, [] => (l, [])
  | l, x :: xs => ((rdRun c (rdStep c l x).1 xs).1, (rdStep c l x).2 ++ (rdRun c (rdStep c l x).1 xs).2)

/-! ## Writes -/

/-- `CheckAWSnoop` (1655-1711). -/
def checkAWSnoop (ace : Bool) (a : Ax) : Bool :=
  if a.bar ≠ 0 then a.snoop == 0
  else if a.snoop == 0 && (a.domain == 0 || a.domain == 3) then true
  else match a.snoop with
    | 4 => if !ace then false else inOut a.domain
    | 0 | 1 => inOut a.domain
    | 2 | 3 => if !ace then false else notSys a.domain
    | _ => false

/-- `is_cacheline_sized_tx` (2027-2047). -/
def Ax.wrLine (a : Ax) : Bool :=
  if a.bar ≠ 0 then false else (a.snoop == 1 || a.snoop == 4) && inOut a.domain

/-- `CheckCachelineSzTx` (1728-1784). -/
def checkLine (c : Cfg) (a : Ax) : Bool :=
  if a.wrLine then
    if 2 ^ a.size ≠ c.bus then false
    else if c.line ≠ 2 ^ a.size * (a.len + 1) then false
    else if !a.modifiable then false
    else if a.excl then false
    else if a.burst = 1 then decide (a.addr = align a.addr c.line)
    else if a.burst = 2 then decide (a.addr = align a.addr c.bus)
    else if a.burst = 0 then false
    else true
  else true

/-- The kinds of write (1923-1978; amba-ace.h 295-335). -/
def Ax.isWriteNoSnoop (a : Ax) : Bool := a.bar == 0 && a.snoop == 0 && (a.domain == 0 || a.domain == 3)
def Ax.isEvict (a : Ax) : Bool := a.bar == 0 && a.snoop == 4 && inOut a.domain
def Ax.isWriteUnique (a : Ax) : Bool := a.bar == 0 && (a.snoop == 0 && inOut a.domain)
def Ax.isWriteBack (a : Ax) : Bool := a.bar == 0 && (a.snoop == 3 && notSys a.domain)
def Ax.isWriteClean (a : Ax) : Bool := a.bar == 0 && (a.snoop == 2 && notSys a.domain)
def Ax.isWriteLineUnique (a : Ax) : Bool := a.bar == 0 && (a.snoop == 1 && inOut a.domain)

/-- `HasData` (1980-1986). -/
def Ax.hasData (a : Ax) : Bool := !(a.isBarrier || a.isEvict)

/-- `CheckWriteUnique` (1786-1814). -/
def checkUnique (a : Ax) : Bool :=
  if a.isWriteUnique then
    if !(a.burst == 1 || a.burst == 2) then false else if !a.modifiable then false else !a.excl
  else true

/-- `CheckWriteBackWriteClean` (1816-1921); 64-bit addresses without the wrap at the end of the address
space.  Lines 1871-1873 add to a message and return nothing; the lengths of a wrapping burst are
compared with `AWLEN` (1896-1912). -/
def checkBack (c : Cfg) (a : Ax) : Bool :=
  if a.isWriteBack || a.isWriteClean then
    if 2 ^ a.size ≠ c.bus then false
    else if 2 ^ a.size * (a.len + 1) > c.line then false
    else if !a.modifiable then false
    else if a.excl then false
    else if a.burst ≠ 0 ∧ a.addr ≠ align a.addr c.bus then false
    else if a.burst = 1 then
      decide (align (a.addr + 2 ^ a.size * (a.len + 1) - 1) c.line = align a.addr c.line)
    else if a.burst = 2 then [2, 4, 8, 16].contains a.len
    else if a.burst = 0 then false
    else true
  else true

/-- `in_list` (2197-2223): for every snoop but `WriteBack` (3) it looks for `WriteClean`. -/
def wIn (l : List Ax) (snoop : Nat) : Bool :=
  if snoop = 3 then l.any (·.isWriteBack) else l.any (·.isWriteClean)

inductive WErr
  | snoop | cache | line | unique | back | ongoingBack | ongoingClean | ongoingUnique | ongoingLineUnique
  | barrier | many | normalId | barrierId | maxAw | maxResp | strb | burst | unexpected | resp | barrierResp | unknownId
  deriving DecidableEq, Repr

/-- A write under way: address and the number of the next beat, from 1 (1510-1512). -/
abbrev WTx := Ax × Nat

/-- `m_wtList`, `m_respList` (2630-2631). -/
structure Wr where
  wt : List WTx := []
  resp : List Ax := []
  deriving DecidableEq, Repr

/-- `check_awsignals` (2401-2481); `l` holds all writes outstanding, `m_wtList` first. -/
def checkAw (c : Cfg) (l : List Ax) (a : Ax) : List WErr :=
  err (checkAWSnoop c.ace a) .snoop ++ err (checkCache a) .cache ++ err (checkLine c a) .line ++
  err (checkUnique a) .unique ++ err (checkBack c a) .back ++
  (if a.isWriteUnique || a.isWriteLineUnique then err (!wIn l 3) .ongoingBack ++ err (!wIn l 2) .ongoingClean else []) ++
  (if a.isWriteBack || a.isWriteClean then err (!wIn l 0) .ongoingUnique ++ err (!wIn l 1) .ongoingLineUnique else []) ++
  (if a.isBarrier then
    err (checkBarrier a) .barrier ++ (if c.ace then err (decide (l.countP (·.isBarrier) < 256)) .many else []) ++
    err (!l.any fun x => !x.isBarrier && x.key == a.key) .normalId
  else err (!l.any fun x => x.isBarrier && x.key == a.key) .barrierId)

/-- An accepted write beat. -/
structure W where
  strb : List Bool
  last : Bool
  deriving DecidableEq, Repr

/-- `CheckWstrb` (1523-1617): the text of `check_wr_tx::Transaction` in checker-axi.h. -/
def checkStrb (c : Cfg) (t : WTx) (w : W) : Bool :=
  PcAxi.checkWstrb c.bus (if t.1.isWriteLineUnique then false else c.gaps)
    { aw := { id := 0, addr := t.1.addr, len := t.1.len, size := t.1.size, burst := t.1.burst }, beat := t.2 } w.strb

/-- The loop that moves writes without data to the responses (2585-2590). -/
def move : List WTx → List Ax → List WTx × List Ax
  | [], r => ([], r)
  | t :: l, r => if t.1.hasData then (t :: l, r) else move l (r ++ [t.1])

/-- An address is accepted (2503-2524). -/
def wrAw (c : Cfg) (s : Wr) : Option Ax → Wr × List WErr
  | none => (s, [])
  | some a =>
    if s.wt.length < c.depth then
      (if s.wt.isEmpty && !a.hasData then { s with resp := s.resp ++ [a] } else { s with wt := s.wt ++ [(a, 1)] },
        checkAw c (s.wt.map (·.1) ++ s.resp) a)
    else (s, [.maxAw])

/-- Data are accepted (2526-2601). -/
def wrW (c : Cfg) (s : Wr) : Option W → Wr × List WErr
  | none => (s, [])
  | some w =>
    match s.wt with
    | [] => (s, [.unexpected])
    | t :: l =>
      let es := err (checkStrb c t w) .strb ++ err (w.last == decide (t.2 + 1 > t.1.len + 1)) .burst
      if w.last then
        let r := if s.resp.length < c.depth then (s.resp ++ [t.1], ([] : List WErr)) else (s.resp, [.maxResp])
        ({ wt := (move l r.1).1, resp := (move l r.1).2 }, es ++ r.2)
      else ({ s with wt := (t.1, t.2 + 1) :: l }, es)

/-- An accepted write response. -/
structure B where
  id : Nat
  resp : Nat := 0
  deriving DecidableEq, Repr

/-- `check_bresp` (2131-2169). -/
def checkBresp (a : Ax) (resp : Nat) : Bool :=
  if a.excl then (if !a.isWriteNoSnoop then false else resp % 4 == 1 || resp % 4 == 0) else resp % 4 == 0

/-- A response is accepted (2603-2626), `check_ace_resp` (2171-2185). -/
def wrB (s : Wr) : Option B → Wr × List WErr
  | none => (s, [])
  | some b =>
    match s.resp.find? fun a => a.key == b.id with
    | none => (s, [.unknownId])
    | some a =>
      ({ s with resp := s.resp.eraseP fun a => a.key == b.id },
        err (checkBresp a b.resp) .resp ++ err (!(a.isBarrier && b.resp != 0)) .barrierResp)

structure WrClk where
  aw : Option Ax := none
  w : Option W := none
  b : Option B := none
  deriving DecidableEq, Repr

/-- `wr_check` (2491-2628), one cycle without reset. -/
def wrStep (c : Cfg) (s : Wr) (x : WrClk) : Wr × List WErr :=
  let s1 := wrAw c s x.aw
  let s2 := wrW c s1.1 x.w
  let s3 := wrB s2.1 x.b
  (s3.1, s1.2 ++ s2.2 ++ s3.2)

def wrRun (c : Cfg) : Wr → List WrClk → Wr × List WErr
  | s, [] => (s, [])
  | s, x :: xs => ((wrRun c (wrStep c s x).1 xs).1, (wrStep c s x).2 ++ (wrRun c (wrStep c s x).1 xs).2)

/-! ## Snoop channels -/

structure Ac where
  addr : Nat
  snoop : Nat
  prot : Nat := 0
  deriving DecidableEq, Repr

/-- The snoop channels of one cycle: `CRRESP`, `CDLAST`. -/
structure SnClk where
  ac : Option Ac := none
  cr : Option Nat := none
  cd : Option Bool := none
  deriving DecidableEq, Repr

inductive SErr
  | acsnoop | acaddr | maxDepth | dirty | shared | unexpectedCr | notLast | unexpectedCd
  deriving DecidableEq, Repr

/-- `m_crList` and, of `m_cdList`, the beats left (2908-2909). -/
structure Sn where
  cr : List Ac := []
  cd : List Nat := []
  deriving DecidableEq, Repr

/-- `check_acsnoop` (2715-2733). -/
def checkAcsnoop (s : Nat) : Bool := [0, 1, 2, 3, 7, 8, 9, 0xd, 0xe, 0xf].contains s

/-- `to_uint(acaddr)` keeps 32 bits (2809); `check_acaddr` (2735-2742). -/
def checkAcaddr (bus addr : Nat) : Bool := addr % 2 ^ 32 == align (addr % 2 ^ 32) bus

/-- `check_crsignals` (2782-2795), `AllowsIsShared` (2744-2755). -/
def checkCr (a : Ac) (resp : Nat) : List SErr :=
  err (!(bit resp 2 && !bit resp 0)) .dirty ++
  err (!(bit resp 3 && (a.snoop == 7 || a.snoop == 9 || a.snoop == 0xd))) .shared

/-- A snoop is accepted (2830-2845); `bus` is the width of the snoop data bus in bytes. -/
def snAc (bus depth : Nat) (s : Sn) : Option Ac → Sn × List SErr
  | none => (s, [])
  | some a =>
    if s.cr.length + s.cd.length < depth then
      ({ s with cr := s.cr ++ [a] }, err (checkAcsnoop a.snoop) .acsnoop ++ err (checkAcaddr bus a.addr) .acaddr)
    else (s, [.maxDepth])

/-- A snoop response is accepted (2847-2872). -/
def snCr (beats : Nat) (s : Sn) : Option Nat → Sn × List SErr
  | none => (s, [])
  | some resp =>
    match s.cr with
    | [] => (s, [.unexpectedCr])
    | a :: l => ({ cr := l, cd := if bit resp 0 then s.cd ++ [beats] else s.cd }, checkCr a resp)

/-- Snoop data are accepted (2874-2904); the counter is a `uint32_t`. -/
def snCd (s : Sn) : Option Bool → Sn × List SErr
  | none => (s, [])
  | some last =>
    match s.cd with
    | [] => (s, [.unexpectedCd])
    | n :: l =>
      let n' := (n + 2 ^ 32 - 1) % 2 ^ 32
      if n' = 0 then ({ s with cd := l }, err last .notLast) else ({ s with cd := n' :: l }, [])

/-- `ace_snoop_ch_check` (2814-2906), one cycle without reset. -/
def snStep (line bus depth : Nat) (s : Sn) (x : SnClk) : Sn × List SErr :=
  let s1 := snAc bus depth s x.ac
  let s2 := snCr (line / bus) s1.1 x.cr
  let s3 := snCd s2.1 x.cd
  (s3.1, s1.2 ++ s2.2 ++ s3.2)

def snRun (line bus depth : Nat) : Sn → List SnClk → Sn × List SErr
  | s, [] => (s, [])
  | s, x :: xs =>
    ((snRun line bus depth (snStep line bus depth s x).1 xs).1,
      (snStep line bus depth s x).2 ++ (snRun line bus depth (snStep line bus depth s x).1 xs).2)

/-! ## Barriers -/

/-- A barrier as `checker_ace_barrier::Transaction` keeps it (2929-2973); `is_write` is false for both
channels (2977, 2986), so `IsPair` compares the rest. -/
structure Bar where
  id : Nat
  prot : Nat := 0
  domain : Nat := 0
  bar : Nat := 1
  deriving DecidableEq, Repr

/-- `AxID` is a `uint8_t` argument (2933). -/
def Bar.kept (b : Bar) : Bar := { b with id := b.id % 256 }

/-- `m_rList`, `m_wList`. -/
structure Bs where
  r : List Bar := []
  w : List Bar := []
  deriving DecidableEq, Repr

inductive BErr
  | pair | maxDepth
  deriving DecidableEq, Repr

/-- A read address is accepted (3050-3068) with `check_pair` (3003-3036). -/
def barAr (depth : Nat) (s : Bs) : Option Bar → Bs × List BErr
  | none => (s, [])
  | some b =>
    if b.bar = 0 then (s, [])
    else if s.r.length < depth then
      match s.w with
      | [] => ({ s with r := s.r ++ [b.kept] }, [])
      | p :: l => ({ s with w := l }, err (decide (p = b.kept)) .pair)
    else (s, [.maxDepth])

/-- A write address is accepted (3070-3089). -/
def barAw (depth : Nat) (s : Bs) : Option Bar → Bs × List BErr
  | none => (s, [])
  | some b =>
    if b.bar = 0 then (s, [])
    else if s.w.length < depth then
      match s.r with
      | [] => ({ s with w := s.w ++ [b.kept] }, [])
      | p :: l => ({ s with r := l }, err (decide (p = b.kept)) .pair)
    else (s, [.maxDepth])

/-- `ace_barrier_check` (3038-3091), one cycle without reset: address accepted on each channel. -/
def barStep (depth : Nat) (s : Bs) (x : Option Bar × Option Bar) : Bs × List BErr :=
  let s1 := barAr depth s x.1
  let s2 := barAw depth s1.1 x.2
  (s2.1, s1.2 ++ s2.2)

def barRun (depth : Nat) : Bs → List (Option Bar × Option Bar) → Bs × List BErr
  | s, [] => (s, [])
  | s, x :: xs => ((barRun depth (barStep depth s x).1 xs).1, (barStep depth s x).2 ++ (barRun depth (barStep depth s x).1 xs).2)

/-! ## Acknowledgements -/

/-- `AckCheck` (396-498); both counters are `uint32_t`. -/
structure Ack where
  expect : Nat := 0
  waited : Nat := 0
  deriving DecidableEq, Repr

inductive AErr
  | unexpected | late
  deriving DecidableEq, Repr

/-- `AckCheck::run` and `inc_ack_w` (432-479): `fin` says that a last beat was accepted in this cycle, `ack` that the
acknowledgement is asserted. -/
def Ack.step (max : Nat) (s : Ack) (fin ack : Bool) : Ack × List AErr :=
  let exp := decide (s.expect > 0)
  let s1 := if fin then { s with expect := (s.expect + 1) % 2 ^ 32 } else s
  if ack && !exp then (s1, [.unexpected])
  else if ack then ({ expect := (s1.expect + 2 ^ 32 - 1) % 2 ^ 32, waited := 0 }, [])
  else if exp then
    let w := (s1.waited + 1) % 2 ^ 32
    ({ s1 with waited := w }, err (decide (w ≠ max)) .late)
  else (s1, [])

def Ack.run (max : Nat) : Ack → List (Bool × Bool) → Ack × List AErr
  | s, [] => (s, [])
  | s, x :: xs => ((Ack.run max (s.step max x.1 x.2).1 xs).1, (s.step max x.1 x.2).2 ++ (Ack.run max (s.step max x.1 x.2).1 xs).2)

/-! ## Data of snoops -/

/-- `Address` (3235-3252). -/
structure Line where
  addr : Nat
  ns : Bool
  deriving DecidableEq, Repr

/-- A transaction `checker_ace_cd_data` follows (3116-3233): addresses are cut to 32 bits by `to_uint`
(3256, 3265, 3274); identifiers are not cut here. -/
structure DTx where
  id : Nat := 0
  addr : Nat
  snoop : Nat
  prot : Nat := 0
  deriving DecidableEq, Repr

def DTx.line (t : DTx) : Line := ⟨t.addr % 2 ^ 32, bit t.prot 1⟩

/-- `m_allocated` and the three lists (3493-3497). -/
structure Cd where
  held : List Line := []
  rt : List DTx := []
  wt : List DTx := []
  cr : List DTx := []
  deriving DecidableEq, Repr

inductive CErr
  | missing | extra | maxDepth
  deriving DecidableEq, Repr

/-- The handshakes of one cycle: address read, `RID` and `RLAST`, address write, `BID`, snoop,
`CRRESP`. -/
structure CdClk where
  ar : Option DTx := none
  r : Option (Nat × Bool) := none
  aw : Option DTx := none
  b : Option Nat := none
  ac : Option DTx := none
  cr : Option Nat := none
  deriving DecidableEq, Repr

/-- `AllocateCacheline`, `EvictCacheline` (3156-3192), `MustHaveData` (3194-3207). -/
def allocates (s : Nat) : Bool := [2, 3, 1, 7, 0xb, 0xc].contains s
def rdEvicts (s : Nat) : Bool := s == 9 || s == 0xd
def wrEvicts (s : Nat) : Bool := s == 3 || s == 4
def mustData (s : Nat) : Bool := [0, 1, 2, 3, 7].contains s

/-- `m_allocated.remove(addr)` removes all equal ones. -/
def drop (l : List Line) (a : Line) : List Line := l.filter (· ≠ a)

/-- A transaction is noted (3409-3418, 3437-3446, 3465-3474). -/
def pushD (depth : Nat) (l : List DTx) : Option DTx → List DTx × List CErr
  | none => (l, [])
  | some t => if l.length < depth then (l ++ [t], []) else (l, [.maxDepth])

/-- `process_rchannel` (3314-3334). -/
def cdR (held : List Line) (t : DTx) : List Line :=
  if allocates t.snoop && !held.contains t.line then held ++ [t.line]
  else if rdEvicts t.snoop && held.contains t.line then drop held t.line
  else held

/-- `process_bchannel` (3336-3349). -/
def cdB (held : List Line) (t : DTx) : List Line :=
  if wrEvicts t.snoop && held.contains t.line then drop held t.line else held

/-- `check_crresp` (3366-3394). -/
def checkCrresp (held : List Line) (t : DTx) (resp : Nat) : List CErr :=
  if held.contains t.line && mustData t.snoop && !bit resp 0 then [.missing]
  else if !held.contains t.line && bit resp 0 then [.extra]
  else []

/-- `process_crchannel` (3351-3364). -/
def cdCr (held : List Line) (t : DTx) (resp : Nat) : List Line :=
  if !bit resp 3 && held.contains t.line then drop held t.line else held

/-- The last beat of a read is accepted (3420-3435). -/
def cdLast (s : Cd) : Option (Nat × Bool) → Cd
  | some (id, true) =>
    match s.rt.find? fun (t : DTx) => t.id == id with
    | some t => { s with rt := s.rt.eraseP fun (t : DTx) => t.id == id, held := cdR s.held t }
    | none => s
  | _ => s

/-- A write is answered (3448-3463). -/
def cdBid (s : Cd) : Option Nat → Cd
  | some id =>
    match s.wt.find? fun (t : DTx) => t.id == id with
    | some t => { s with wt := s.wt.eraseP fun (t : DTx) => t.id == id, held := cdB s.held t }
    | none => s
  | none => s

/-- A snoop is answered (3476-3489). -/
def cdAns (s : Cd) : Option Nat → Cd × List CErr
  | some resp =>
    match s.cr with
    | t :: l => ({ s with cr := l, held := cdCr s.held t resp }, checkCrresp s.held t resp)
    | [] => (s, [])
  | none => (s, [])

def cdAr (depth : Nat) (s : Cd) (t : Option DTx) : Cd × List CErr := ({ s with rt := (pushD depth s.rt t).1 }, (pushD depth s.rt t).2)
def cdAw (depth : Nat) (s : Cd) (t : Option DTx) : Cd × List CErr := ({ s with wt := (pushD depth s.wt t).1 }, (pushD depth s.wt t).2)
def cdAc (depth : Nat) (s : Cd) (t : Option DTx) : Cd × List CErr := ({ s with cr := (pushD depth s.cr t).1 }, (pushD depth s.cr t).2)

/-- `ace_cd_data_check` (3396-3491), one cycle without reset. -/
def cdStep (depth : Nat) (s : Cd) (x : CdClk) : Cd × List CErr :=
  let s1 := cdAr depth s x.ar
  let s2 := cdAw depth (cdLast s1.1 x.r) x.aw
  let s3 := cdAc depth (cdBid s2.1 x.b) x.ac
  let s4 := cdAns s3.1 x.cr
  (s4.1, s1.2 ++ s2.2 ++ s3.2 ++ s4.2)

def cdRun (depth : Nat) : Cd → List CdClk → Cd × List CErr
  | s, [] => (s, [])
  | s, x :: xs => ((cdRun depth (cdStep depth s x).1 xs).1, (cdStep depth s x).2 ++ (cdRun depth (cdStep depth s x).1 xs).2)

end Verif.PcAce
