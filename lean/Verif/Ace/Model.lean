import Verif.Base.Tlm

/-!
# ACE caches and the ACE interconnect

Model of `tlm-modules/cache-ace.h` (`cache_ace`, write-back and write-through) and
`tlm-modules/iconnect-ace.h` (`iconnect_ace`), connected directly by TLM sockets, with ACE-Lite
masters as in `tlm-modules/master-ace.h`.

The unit of interleaving is the SystemC process segment between two `wait`s: an `Action` is one
such segment, and a schedule is any list of actions, so every interleaving the simulator may pick
is covered (and more: the model lets the snoops of one transaction and the entries of the
snoop-done fifo be served in any order).

Simplifications, all stated where they apply:
* downstream memory and snooped masters answer OK (error responses are not modelled);
* exclusive accesses, barriers, DVM messages and non-shareable regions are not modelled;
* an ACE-Lite access that spans several cache lines is modelled as one access per line;
* `sc_fifo` writes never block (the fifos hold 16 entries; they are drained within a delta cycle);
* addresses are unbounded naturals.
-/

namespace Verif.Ace

/-- A cache line address: line number (`addr / CACHELINE_SZ`) and the security attribute, which
`in_cache` compares together with the tag (cache-ace.h 1009-1022). -/
abbrev LineId := Nat × Bool

/-- Template parameters and wiring: `lineSz` = `CACHELINE_SZ`, `slots` = `NUM_CACHELINES`,
`masters` = `NUM_ACE_MASTERS`; `wt p` says that ACE master `p` has a write-through cache
(cache-ace.h 49, 66-70).  Ports `masters ≤ p` are ACE-Lite masters.  `split` says whether the
downstream memory keeps secure and non-secure addresses apart. -/
structure Cfg where
  lineSz : Nat
  slots : Nat
  masters : Nat
  wt : Nat → Bool
  split : Bool

/-- `CacheLine` (cache-ace.h 119-135); `key` is `tag` together with `genattr.get_secure()`. -/
structure Line where
  valid : Bool := false
  key : LineId := (0, false)
  shared : Bool := false
  dirty : Bool := false
  data : Mem := fun _ => 0

/-- The ACE transactions the caches and ACE-Lite masters issue. -/
inductive Bus
  | readShared | readNotSharedDirty | readClean | readUnique | cleanUnique | makeUnique
  | cleanShared | cleanInvalid | makeInvalid
  | readOnce | writeUnique | writeLineUnique
  | writeBack | writeClean
  deriving DecidableEq, Repr

/-- `IsSnoopingTransaction` (iconnect-ace.h 124-177), all transactions being in the inner
domain. -/
def Bus.snooping : Bus → Bool
  | .writeBack | .writeClean => false
  | _ => true

/-- The snoop requests (`AC::…`). -/
inductive Ac
  | readOnce | readShared | readClean | readNotSharedDirty | readUnique
  | cleanInvalid | cleanShared | makeInvalid
  deriving DecidableEq, Repr

/-- `init_snoop_genattr` (iconnect-ace.h 574-638). -/
def Bus.ac : Bus → Ac
  | .readOnce => .readOnce
  | .readClean => .readClean
  | .readNotSharedDirty => .readNotSharedDirty
  | .readShared => .readShared
  | .readUnique => .readUnique
  | .cleanShared => .cleanShared
  | .cleanUnique | .cleanInvalid | .writeUnique => .cleanInvalid
  | .makeUnique | .makeInvalid | .writeLineUnique => .makeInvalid
  | .writeBack | .writeClean => .makeInvalid

/-- `is_read_snoop` (iconnect-ace.h 489-504). -/
def Ac.isRead : Ac → Bool
  | .readOnce | .readClean | .readNotSharedDirty | .readShared | .readUnique => true
  | _ => false

/-- `AllowPassDirty` (amba-ace.h 355-389, 556-569). -/
def Bus.passDirty : Bus → Bool
  | .readShared | .readNotSharedDirty | .readUnique => true
  | _ => false

/-- What a snooped master answers: the `shared`, `dirty` and `datatransfer` attributes and the
data. -/
structure Resp where
  shared : Bool := false
  dirty : Bool := false
  data : Option Mem := none

/-- The snoop handlers on a line that is in the cache (cache-ace.h 157-372, 1588-1669).  The
exclusive monitor and the `was_unique` attribute are not modelled. -/
def snoopLine (l : Line) : Ac → Line × Resp
  | .readOnce => ({ l with shared := true }, { shared := true, data := some l.data })
  | .readShared =>
    ({ l with shared := true, dirty := false },
     { shared := true, dirty := l.dirty, data := some l.data })
  | .readClean | .readNotSharedDirty =>
    ({ l with shared := true }, { shared := true, data := some l.data })
  | .readUnique => ({ l with valid := false }, { dirty := l.dirty, data := some l.data })
  | .cleanInvalid =>
    ({ l with valid := false },
     { dirty := l.dirty, data := if l.dirty then some l.data else none })
  | .cleanShared =>
    ({ l with shared := true, dirty := false },
     { shared := true, dirty := l.dirty, data := if l.dirty then some l.data else none })
  | .makeInvalid => ({ l with valid := false }, {})

/-- A bus transaction with the fields the interconnect fills in.  `lo`, `hi` are the byte range
inside the line; `ws` are the bytes a WriteUnique or WriteLineUnique writes.  `got` is the data
copied into the payload, `dsw` the dirty data copied into `m_ds_gp`, `exec` is `m_exec_ds_gp`,
`ok` says that the response is `TLM_OK_RESPONSE` (iconnect-ace.h 46-61, 286-309). -/
structure Txn where
  cmd : Bus
  key : LineId
  lo : Nat
  hi : Nat
  ws : List (Nat × Byte) := []
  shared : Bool := false
  dirty : Bool := false
  got : Option Mem := none
  dsw : Option Mem := none
  exec : Bool := false
  ok : Bool := false

/-- Where a transaction is in the interconnect: in `m_overlapping_tx`; being snooped (ports still
to answer); in the snoop-done fifo; its `m_ds_gp` in the downstream fifo; `m_ds_gp` done; itself in
the downstream fifo; `DoneEvent` notified. -/
inductive Stage
  | waiting | snoop (todo : List Nat) | snooped | clean | cleaned | queued | done
  deriving DecidableEq, Repr

/-- The part of a payload that lies in one cache line: `key` its line, `lo` the offset in the line,
`n` its length, `pos` its position in the payload and `ws` the enabled bytes with their offsets in
the line. -/
structure Chunk where
  key : LineId
  lo : Nat
  n : Nat
  pos : Nat
  ws : List (Nat × Byte)
  deriving DecidableEq, Repr

/-- The request a master is working on, reduced to what is left of it. -/
inductive Job
  | load (cs : List Chunk)
  | store (cs : List Chunk)
  | maint (cmd : Bus) (key : LineId)

/-- A master blocked in a bus transaction.  `next` is the transaction to issue after the write-out
of the victim line. -/
structure Act where
  txn : Txn
  stage : Stage
  job : Job
  next : Option Bus

/-- One master port: its cache lines, `m_toggle`, and the transaction it waits for.  The mutex of
`b_transport` (cache-ace.h 1555, 1581) admits one request at a time. -/
structure Port where
  lines : Nat → Line
  toggle : Bool := false
  act : Option Act := none

/-- What a master observes, byte by byte, in the order it happens (not part of the code). -/
inductive Ev
  | rd (port : Nat) (key : LineId) (off : Nat) (val : Byte)
  | wr (port : Nat) (key : LineId) (off : Nat) (val : Byte)
  deriving DecidableEq, Repr

/-- The system: ports, downstream memory by line, `m_ongoing_tx`, `m_overlapping_tx` and the
downstream fifo (by port: a port has one transaction at a time). -/
structure State where
  ports : Nat → Port
  mem : LineId → Mem
  ongoing : List Nat := []
  ov : List Nat := []
  ds : List Nat := []
  log : List Ev := []

/-- The downstream memory location of a line. -/
def Cfg.phys (c : Cfg) (k : LineId) : LineId := if c.split then k else (k.1, false)

/-- Attributes of the write of `m_ds_gp`: a fresh `genattr_extension`, whose constructor sets
`secure` (iconnect-ace.h 673-697, genattr.h 197, 214-215). -/
def dsKey (k : LineId) : LineId := (k.1, true)

def State.setPort (s : State) (p : Nat) (x : Port) : State :=
  { s with ports := fun q => if q = p then x else s.ports q }

def State.setAct (s : State) (p : Nat) (a : Option Act) : State :=
  s.setPort p { s.ports p with act := a }

/-- `get_line` (cache-ace.h 989-1007): `(tag % CACHE_SZ) / CACHELINE_SZ`, which is the line number
modulo `NUM_CACHELINES`. -/
def Cfg.slot (c : Cfg) (k : LineId) : Nat := k.1 % c.slots

def State.line (s : State) (c : Cfg) (p : Nat) (k : LineId) : Line := (s.ports p).lines (c.slot k)

def State.setLine (s : State) (c : Cfg) (p : Nat) (k : LineId) (l : Line) : State :=
  s.setPort p { s.ports p with
    lines := fun i => if i = c.slot k then l else (s.ports p).lines i }

def State.setMem (s : State) (k : LineId) (m : Mem) : State :=
  { s with mem := fun x => if x = k then m else s.mem x }

def State.emit (s : State) (es : List Ev) : State := { s with log := s.log ++ es }

/-- `in_cache` (cache-ace.h 1009-1022). -/
def State.inCache (s : State) (c : Cfg) (p : Nat) (k : LineId) : Bool :=
  (s.line c p k).valid && (s.line c p k).key == k

/-- `get_toggle` (cache-ace.h 1222-1227). -/
def State.flip (s : State) (p : Nat) : State :=
  s.setPort p { s.ports p with toggle := !(s.ports p).toggle }

/-- Bytes written one after the other. -/
def writeBytes (d : Mem) : List (Nat × Byte) → Mem
  | [] => d
  | w :: ws => writeBytes (d.set w.1 w.2) ws

/-! ## Cutting a payload into lines -/

/-- The enabled bytes of payload positions `pos … pos + n - 1` with their offsets from `lo`
(the loops of `read_line` and `write_line`, cache-ace.h 907-974). -/
def enabled (be : List Bool) (data : List Byte) (lo pos : Nat) : Nat → List (Nat × Byte)
  | 0 => []
  | n + 1 =>
    (if beEnabled be pos then [(lo, data.getD pos 0)] else []) ++
      enabled be data (lo + 1) (pos + 1) n

/-- `to_write` and the length computed by `read_line` / `write_line` (cache-ace.h 907-912,
1031-1044): what is left, but not past the end of the line. -/
def chunkLen (L addr len pos : Nat) : Nat := min (len - pos) (L - (addr + pos) % L)

/-- The pieces `while (pos < len)` handles (cache-ace.h 1312-1500).  The recursion is on a bound of
the number of pieces. -/
def chunksFrom (L addr len : Nat) (data : List Byte) (be : List Bool) (sec : Bool) :
    Nat → Nat → List Chunk
  | 0, _ => []
  | fuel + 1, pos =>
    if pos < len then
      let n := chunkLen L addr len pos
      let lo := (addr + pos) % L
      { key := ((addr + pos) / L, sec), lo := lo, n := n, pos := pos,
        ws := enabled be data lo pos n } ::
      chunksFrom L addr len data be sec fuel (pos + n)
    else []

def chunks (L addr : Nat) (data : List Byte) (be : List Bool) (sec : Bool) : List Chunk :=
  chunksFrom L addr data.length data be sec data.length 0

/-! ## The interconnect -/

/-- `InAddressRange` (iconnect-ace.h 192-202) without 64-bit wrap. -/
def Txn.start (c : Cfg) (t : Txn) : Nat := t.key.1 * c.lineSz + t.lo
def Txn.len (t : Txn) : Nat := t.hi - t.lo
def Txn.inRange (c : Cfg) (t : Txn) (a : Nat) : Bool :=
  decide (t.start c ≤ a) && decide (a < t.start c + t.len)

/-- The overlap test (iconnect-ace.h 846-862, 880-886). -/
def Txn.overlaps (c : Cfg) (t u : Txn) : Bool :=
  u.inRange c (t.start c) || u.inRange c (t.start c + t.len - 1) || t.inRange c (u.start c)

/-- The transaction port `q` has in the interconnect. -/
def State.txn? (s : State) (q : Nat) : Option Txn := (s.ports q).act.map (·.txn)

/-- `is_overlapping` (iconnect-ace.h 846-862). -/
def State.overlapping (s : State) (c : Cfg) (t : Txn) : Bool :=
  s.ongoing.any fun q =>
    match s.txn? q with
    | none => false
    | some u => t.overlaps c u

/-- The ports `process_snoop` snoops (iconnect-ace.h 1460-1478). -/
def targets (c : Cfg) (p : Nat) : List Nat := (List.range c.masters).filter (· ≠ p)

/-- `snoop_engine_thread` and `process_snoop` (iconnect-ace.h 1383-1479): all ACE masters but the
initiator are to be snooped; when there is none the snoop is done at once.  `m_exec_ds_gp` starts
out as `IsReadOnce()` (iconnect-ace.h 293). -/
def firstStage (c : Cfg) (p : Nat) : Stage :=
  match targets c p with
  | [] => .snooped
  | ts => .snoop ts

/-- `OverlappingTxOrderer::process` up to the wait (iconnect-ace.h 792-821): a snooping transaction
waits when it overlaps an ongoing one; a WriteBack or WriteClean goes straight to the downstream
fifo. -/
def enter (c : Cfg) (s : State) (p : Nat) (t : Txn) (job : Job) (next : Option Bus) : State :=
  if t.cmd.snooping then
    if s.overlapping c t then
      { s.setAct p (some { txn := t, stage := .waiting, job, next }) with ov := s.ov ++ [p] }
    else
      { s.setAct p (some { txn := t, stage := firstStage c p, job, next }) with
        ongoing := s.ongoing ++ [p] }
  else
    { s.setAct p (some { txn := t, stage := .queued, job, next }) with
      ongoing := s.ongoing ++ [p], ds := s.ds ++ [p] }

/-- `Transaction` (iconnect-ace.h 286-309) and `process`: `m_exec_ds_gp` starts out as
`IsReadOnce()`. -/
def issue (c : Cfg) (s : State) (p : Nat) (t : Txn) (job : Job) (next : Option Bus) : State :=
  enter c s p { t with exec := t.cmd == .readOnce } job next

/-- One entry of the loop of `restart_overlapping` (iconnect-ace.h 865-911): port `q` waits in
`m_overlapping_tx`, transaction `t` has just finished. -/
def restart1 (c : Cfg) (t : Txn) (s : State) (q : Nat) : State :=
  match (s.ports q).act with
  | none => s
  | some a =>
    if t.overlaps c a.txn && !s.overlapping c a.txn then
      { s.setAct q (some { a with stage := firstStage c q }) with
        ongoing := s.ongoing ++ [q], ov := s.ov.filter (· ≠ q) }
    else s

/-- `restart_overlapping`, in the order of the list. -/
def restart (c : Cfg) (t : Txn) (s : State) : State :=
  s.ov.foldl (restart1 c t) s

/-- Whether `update_trans_response` marks the transaction OK (iconnect-ace.h 422-478). -/
def respOk (cmd : Bus) (data : Option Mem) : Bool :=
  match cmd with
  | .readOnce | .writeUnique | .writeLineUnique | .writeBack | .writeClean => false
  | .readClean | .readNotSharedDirty | .readShared | .readUnique => data.isSome
  | .cleanUnique | .cleanInvalid | .makeUnique | .makeInvalid | .cleanShared => true

/-- `PortDone` (iconnect-ace.h 317-365): collect `shared`; copy the data of read snoops; dirty data
is passed on when the transaction allows it, and otherwise goes into `m_ds_gp`.  A ReadOnce that got
data does not read downstream. -/
def portDone (t : Txn) (r : Resp) : Txn :=
  let clean := !t.cmd.passDirty && r.data.isSome && r.dirty
  { t with
    shared := t.shared || r.shared
    got := if t.cmd.ac.isRead && r.data.isSome then r.data else t.got
    dirty := t.dirty || (t.cmd.passDirty && r.data.isSome && r.dirty)
    dsw := if clean then r.data else t.dsw
    exec := clean || (t.exec && !(t.cmd == .readOnce && r.data.isSome))
    ok := t.ok || respOk t.cmd r.data }

/-- `write_ongoing` (cache-ace.h 1116-1121): the master waits for a WriteBack or WriteClean.  (An
Evict is answered at once by the port, iconnect-ace.h 942-945 and 1046-1049.) -/
def State.writeOngoing (s : State) (q : Nat) : Bool :=
  match s.txn? q with
  | none => false
  | some t => t.cmd == .writeBack || t.cmd == .writeClean

/-- What is left to snoop after port `q` answered. -/
def afterSnoop (todo : List Nat) (q : Nat) : Stage :=
  match todo.filter (· ≠ q) with
  | [] => .snooped
  | ts => .snoop ts

/-- `snoop_master_thread` for master `q` on behalf of the transaction of port `p`
(iconnect-ace.h 1014-1027, cache-ace.h 1584-1669): waits while `q` writes out a line, otherwise the
handler runs and `PortDone` is called. -/
def snoopStep (c : Cfg) (s : State) (p q : Nat) : State :=
  match (s.ports p).act with
  | some { txn := t, stage := .snoop todo, job, next } =>
    if q ∈ todo ∧ s.writeOngoing q = false then
      if s.inCache c q t.key then
        let r := snoopLine (s.line c q t.key) t.cmd.ac
        (s.setLine c q t.key r.1).setAct p
          (some { txn := portDone t r.2, stage := afterSnoop todo q, job, next })
      else
        s.setAct p (some { txn := portDone t {}, stage := afterSnoop todo q, job, next })
    else s
  | _ => s

/-- The end of `finalize_snoop_tr` (iconnect-ace.h 1588-1637): a finished transaction notifies its
initiator, otherwise it goes downstream. -/
def finish (s : State) (p : Nat) (a : Act) : State :=
  if a.txn.cmd = .readOnce ∨ a.txn.ok then s.setAct p (some { a with stage := .done })
  else { s.setAct p (some { a with stage := .queued }) with ds := s.ds ++ [p] }

/-- `snoop_done_thread`, `exec_snoop_downstream_gp`, `finalize_snoop_tr`
(iconnect-ace.h 1539-1637). -/
def finalStep (s : State) (p : Nat) : State :=
  match (s.ports p).act with
  | some a =>
    match a.stage with
    | .snooped =>
      if a.txn.exec then
        { s.setAct p (some { a with stage := .clean }) with ds := s.ds ++ [p] }
      else finish s p a
    | .cleaned => finish s p a
    | _ => s
  | none => s

/-- The downstream memory executes `m_ds_gp` of a transaction (iconnect-ace.h 660-712): a line read
for ReadOnce, otherwise the write of the dirty line. -/
def execClean (c : Cfg) (s : State) (p : Nat) (a : Act) : State :=
  if a.txn.cmd = .readOnce then
    s.setAct p (some { a with
      stage := .cleaned, txn := { a.txn with got := some (s.mem (c.phys a.txn.key)) } })
  else
    match a.txn.dsw with
    | none => s.setAct p (some { a with stage := .cleaned })
    | some d => (s.setMem (c.phys (dsKey a.txn.key)) d).setAct p (some { a with stage := .cleaned })

/-- The downstream memory executes the transaction itself: reads fill the payload, WriteUnique and
WriteLineUnique write their enabled bytes, WriteBack and WriteClean write the line they point to,
the others carry `TLM_IGNORE_COMMAND`. -/
def execMain (c : Cfg) (s : State) (p : Nat) (a : Act) : State :=
  let t := a.txn
  match t.cmd with
  | .readShared | .readNotSharedDirty | .readClean | .readUnique | .readOnce =>
    s.setAct p (some { a with stage := .done, txn := { t with got := some (s.mem (c.phys t.key)) } })
  | .writeUnique | .writeLineUnique =>
    ((s.setMem (c.phys t.key) (writeBytes (s.mem (c.phys t.key)) t.ws)).setAct p
      (some { a with stage := .done })).emit (t.ws.map fun w => .wr p t.key w.1 w.2)
  | .writeBack | .writeClean =>
    (s.setMem (c.phys t.key) (s.line c p t.key).data).setAct p (some { a with stage := .done })
  | .cleanUnique | .makeUnique | .cleanShared | .cleanInvalid | .makeInvalid =>
    s.setAct p (some { a with stage := .done })

/-- `downstream_port_thread` (iconnect-ace.h 757-770): the oldest entry of the fifo. -/
def dsStep (c : Cfg) (s : State) : State :=
  match s.ds with
  | [] => s
  | p :: rest =>
    let s := { s with ds := rest }
    match (s.ports p).act with
    | none => s
    | some a =>
      match a.stage with
      | .clean => execClean c s p a
      | .queued => execMain c s p a
      | _ => s

/-! ## The caches -/

/-- A transaction for a whole line. -/
def lineTxn (c : Cfg) (cmd : Bus) (k : LineId) : Txn :=
  { cmd, key := k, lo := 0, hi := c.lineSz }

/-- `evict_line` followed by the fill (cache-ace.h 393-409, 583-605, 705-732): a dirty victim is
written out by WriteClean (then evicted) or WriteBack, a clean one is dropped, and then `cmd` is
issued. -/
def miss (c : Cfg) (s : State) (p : Nat) (cmd : Bus) (k : LineId) (job : Job) : State :=
  let l := s.line c p k
  if l.valid then
    if l.dirty then
      let s := s.flip p
      if (s.ports p).toggle then issue c s p (lineTxn c .writeClean l.key) job (some cmd)
      else issue c s p (lineTxn c .writeBack l.key) job (some cmd)
    else
      issue c (s.setLine c p k { l with valid := false }) p (lineTxn c cmd k) job none
  else issue c s p (lineTxn c cmd k) job none

/-- `handle_load` (cache-ace.h 1312-1360 write-back, 1439-1460 write-through) and `read_once` of
the ACE-Lite port (master-ace.h 206-236), up to the next wait. -/
def goLoad (c : Cfg) (p : Nat) (s : State) : List Chunk → State
  | [] => s
  | k :: cs =>
    if c.masters ≤ p then
      issue c s p { cmd := .readOnce, key := k.key, lo := k.lo, hi := k.lo + k.n }
        (.load (k :: cs)) none
    else if s.inCache c p k.key then
      goLoad c p (s.emit (k.ws.map fun w => .rd p k.key w.1 ((s.line c p k.key).data w.1))) cs
    else if c.wt p then miss c s p .readClean k.key (.load (k :: cs))
    else
      let s := s.flip p
      miss c s p (if (s.ports p).toggle then .readShared else .readNotSharedDirty) k.key
        (.load (k :: cs))

/-- A WriteUnique or WriteLineUnique of one piece (cache-ace.h 470-533, 1462-1500). -/
def issueWrite (c : Cfg) (p : Nat) (s : State) (k : Chunk) (cs : List Chunk) : State :=
  if k.n = c.lineSz ∧ k.ws.length = k.n ∧ p < c.masters then
    issue c s p { lineTxn c .writeLineUnique k.key with ws := k.ws } (.store (k :: cs)) none
  else
    issue c s p { cmd := .writeUnique, key := k.key, lo := k.lo, hi := k.lo + k.n, ws := k.ws }
      (.store (k :: cs)) none

/-- `handle_store` (cache-ace.h 1362-1426 write-back, 1462-1500 write-through) and `write_unique`
of the ACE-Lite port (master-ace.h 172-204), up to the next wait. -/
def goStore (c : Cfg) (p : Nat) (s : State) : List Chunk → State
  | [] => s
  | k :: cs =>
    if c.masters ≤ p ∨ c.wt p = true then issueWrite c p s k cs
    else
      let l := s.line c p k.key
      if s.inCache c p k.key then
        if l.shared then issue c s p (lineTxn c .cleanUnique l.key) (.store (k :: cs)) none
        else
          goStore c p ((s.setLine c p k.key
              { l with data := writeBytes l.data k.ws, dirty := true }).emit
            (k.ws.map fun w => .wr p k.key w.1 w.2)) cs
      else if k.n = c.lineSz then miss c s p .makeUnique k.key (.store (k :: cs))
      else miss c s p .readUnique k.key (.store (k :: cs))

/-- `do_cache_maintenance` (cache-ace.h 859-904): CleanShared writes a dirty line out first,
CleanInvalid and MakeInvalid drop the line with an Evict. -/
def goMaint (c : Cfg) (p : Nat) (s : State) (cmd : Bus) (k : LineId) : State :=
  let l := s.line c p k
  if s.inCache c p k then
    if cmd = .cleanShared then
      if l.dirty then issue c s p (lineTxn c .writeClean l.key) (.maint cmd k) (some cmd)
      else issue c s p (lineTxn c cmd k) (.maint cmd k) none
    else issue c (s.setLine c p k { l with valid := false }) p (lineTxn c cmd k) (.maint cmd k) none
  else issue c s p (lineTxn c cmd k) (.maint cmd k) none

def go (c : Cfg) (p : Nat) (s : State) : Job → State
  | .load cs => goLoad c p s cs
  | .store cs => goStore c p s cs
  | .maint cmd k => goMaint c p s cmd k

/-- The rest of a load or store after its first piece. -/
def Job.tail : Job → Job
  | .load cs => .load cs.tail
  | .store cs => .store cs.tail
  | j => j

def Job.pieces : Job → List Chunk
  | .load cs => cs
  | .store cs => cs
  | .maint .. => []

/-- What the cache does with its line when its transaction is over, before going on:
`read_shared` &c. (cache-ace.h 606-620), `make_unique` (836-856), `clean_unique` (801-817, the
Evict of the last branch being answered at once), `write_line_unique` (482-497), `write_unique`
(511-546: the update loop runs `while (pos < len)`, with `pos` the position in the payload and
`len` the length of the piece), `writeclean` (440-468), `writeback` (411-438). -/
def commit (c : Cfg) (p : Nat) (s : State) (a : Act) : State :=
  let t := a.txn
  let l := s.line c p t.key
  let data := t.got.getD l.data
  match t.cmd with
  | .readShared | .readNotSharedDirty | .readUnique =>
    s.setLine c p t.key { valid := true, key := t.key, shared := t.shared, dirty := t.dirty, data }
  | .readClean =>
    s.setLine c p t.key { valid := true, key := t.key, shared := t.shared, dirty := false, data }
  | .makeUnique =>
    s.setLine c p t.key
      { valid := true, key := t.key, shared := false, dirty := true, data := l.data }
  | .cleanUnique => if l.valid then s.setLine c p t.key { l with shared := false } else s
  | .writeLineUnique =>
    if s.inCache c p t.key then
      s.setLine c p t.key { l with data := writeBytes l.data t.ws, dirty := false, shared := true }
    else s
  | .writeUnique =>
    if s.inCache c p t.key ∧ (∃ k ∈ a.job.pieces.head?, k.pos < k.n) then
      s.setLine c p t.key { l with data := writeBytes l.data t.ws, dirty := false, shared := true }
    else s
  | .readOnce =>
    match a.job.pieces with
    | [] => s
    | k :: _ => s.emit (k.ws.map fun w => .rd p t.key w.1 (data w.1))
  | .writeBack => s.setLine c p t.key { l with valid := false }
  | .writeClean =>
    match a.job with
    | .maint .. => s.setLine c p t.key { l with dirty := false }
    | _ => s.setLine c p t.key { l with dirty := false, valid := false }
  | .cleanShared | .cleanInvalid | .makeInvalid => s

/-- What the master does after `commit`: issue the transaction that waited for the write-out, or go
on with the request. -/
def proceed (c : Cfg) (p : Nat) (s : State) (a : Act) : State :=
  match a.next with
  | some cmd =>
    match a.job with
    | .maint _ k => issue c s p (lineTxn c cmd k) a.job none
    | j =>
      match j.pieces with
      | [] => s
      | k :: _ => issue c s p (lineTxn c cmd k.key) a.job none
  | none =>
    match a.txn.cmd with
    | .writeUnique | .writeLineUnique | .readOnce => go c p s a.job.tail
    | .cleanShared | .cleanInvalid | .makeInvalid => s
    | _ => go c p s a.job

/-- The transaction of port `p` leaves `m_ongoing_tx` (iconnect-ace.h 823-825). -/
def leave (s : State) (p : Nat) : State :=
  { s.setAct p none with ongoing := s.ongoing.filter (· ≠ p) }

/-- The initiator wakes up after `DoneEvent` (iconnect-ace.h 823-827 and the return into the
cache): the transaction leaves `m_ongoing_tx`, waiting transactions are restarted (they only start
running once this process waits), the cache updates its line and goes on to its next wait, all
without yielding. -/
def resumeStep (c : Cfg) (s : State) (p : Nat) : State :=
  match (s.ports p).act with
  | some a =>
    if a.stage = .done then
      proceed c p (commit c p (restart c a.txn (leave s p)) a) a
    else s
  | none => s

/-! ## Requests and schedules -/

/-- What masters are asked to do. -/
inductive Op
  | load (addr len : Nat) (be : List Bool) (sec : Bool)
  | store (addr : Nat) (data : List Byte) (be : List Bool) (sec : Bool)
  | maint (cmd : Bus) (addr : Nat) (sec : Bool)

def Op.job (c : Cfg) : Op → Job
  | .load addr len be sec => .load (chunks c.lineSz addr (List.replicate len 0) be sec)
  | .store addr data be sec => .store (chunks c.lineSz addr data be sec)
  | .maint cmd addr sec => .maint cmd (addr / c.lineSz, sec)

inductive Action
  | start (p : Nat) (op : Op)
  | snoop (p q : Nat)
  | final (p : Nat)
  | ds
  | resume (p : Nat)

/-- A request is admitted when the previous one of the same master is done
(cache-ace.h 1552-1582). -/
def startStep (c : Cfg) (s : State) (p : Nat) (op : Op) : State :=
  if (s.ports p).act.isNone then go c p s (op.job c) else s

def step (c : Cfg) (s : State) : Action → State
  | .start p op => startStep c s p op
  | .snoop p q => snoopStep c s p q
  | .final p => finalStep s p
  | .ds => dsStep c s
  | .resume p => resumeStep c s p

def run (c : Cfg) (s : State) (as : List Action) : State := as.foldl (step c) s

/-- Power-on: no valid line, whatever bytes are in memory and in the line buffers. -/
def init (mem : LineId → Mem) (junk : Nat → Nat → Mem) : State :=
  { ports := fun p => { lines := fun i => { data := junk p i } }, mem }

end Verif.Ace
