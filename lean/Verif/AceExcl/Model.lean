/-!
# Exclusive accesses through write-back ACE caches

Model of exclusive loads and stores: the caches' monitors (tlm-modules/cache-ace.h 243-365,
634-731, 775-820, 1256-1424) and the interconnect's monitor (tlm-modules/iconnect-ace.h 1258-1312,
1473-1526).  Any number of masters and of lines.

Simplifications: one access runs to its end before the next starts, except that the release of the
interconnect's lock (a separate thread) is an operation of its own; an access lies in one line;
data, dirty flags, the secure attribute and the other transactions are not modelled; a conflict
miss, a write-back and cache maintenance are the operation `evict`.
-/

namespace Verif.AceExcl

/-- A line of a cache: `valid` and `shared` of `CacheLine` (cache-ace.h 117-130). -/
inductive Ln
  | inv | shared | uniq
  deriving DecidableEq, Repr

/-- What the masters do: `k` is the line, `o` the offset of the access in it.  `release` is
`release_lock_thread` (iconnect-ace.h 1299-1305). -/
inductive Op
  | load (m k : Nat)
  | store (m k : Nat)
  | ldx (m k o : Nat)
  | stx (m k o : Nat)
  | evict (m k : Nat)
  | release
  deriving DecidableEq, Repr

/-- What is seen of it: a load found the line in the cache (`hit`) or not (`miss`); a store was
done (`ok`); an exclusive store found its monitor not set (`failed`) or got a CleanUnique without
EXOKAY (`refused`).  `none`: nothing to see. -/
inductive Res
  | hit | miss | ok | failed | refused | none
  deriving DecidableEq, Repr

/-- `line`: master, line.  `mon`: `m_monitor` of the master, by line and offset (cache-ace.h
1256-1295).  `pos`: `m_port_set`, `lock`: `m_lock` (iconnect-ace.h 1308-1309). -/
structure State where
  line : Nat → Nat → Ln
  mon : Nat → Nat → Nat → Bool
  pos : Nat → Bool
  lock : Bool

/-- Empty caches and monitors (cache-ace.h 118-122, iconnect-ace.h 1264-1275). -/
def init : State :=
  { line := fun _ _ => .inv, mon := fun _ _ _ => false, pos := fun _ => false, lock := false }

/-- Some other master's cache has the line: the snoops answer `shared`
(cache-ace.h 173-235). -/
def held (n : Nat) (s : State) (m k : Nat) : Bool :=
  (List.range n).any fun j => j != m && s.line j k != .inv

/-- `read_shared`, `read_not_shared_dirty` with their snoops (cache-ace.h 173-241, 599-674): the
copies become shared and the new line is shared if there is another. -/
def fill (n : Nat) (s : State) (m k : Nat) : State :=
  { s with
    line := fun j k' =>
      if k' = k then
        if j = m then (if held n s m k then .shared else .uniq)
        else if s.line j k = .inv then .inv else .shared
      else s.line j k' }

/-- `read_unique`, `make_unique` and a CleanUnique that is carried out, with their snoops
(cache-ace.h 243-310, 345-365, 700-731, 775-856): the copies go, and the monitor of a cache that
had one is reset at the address of the snoop, which is the line's. -/
def own (s : State) (m k : Nat) : State :=
  { s with
    line := fun j k' => if k' = k then (if j = m then .uniq else .inv) else s.line j k'
    mon := fun j k' o =>
      if j ≠ m ∧ k' = k ∧ o = 0 ∧ s.line j k ≠ .inv then false else s.mon j k' o }

/-- `m_monitor.set` (cache-ace.h 1259-1264). -/
def setMon (s : State) (m k o : Nat) : State :=
  { s with mon := fun j k' o' => if j = m ∧ k' = k ∧ o' = o then true else s.mon j k' o' }

/-- `m_monitor.reset` (cache-ace.h 1266-1271). -/
def clrMon (s : State) (m k o : Nat) : State :=
  { s with mon := fun j k' o' => if j = m ∧ k' = k ∧ o' = o then false else s.mon j k' o' }

/-- `Set` if the interconnect's monitor is not locked (iconnect-ace.h 1277-1280, 1483-1485,
1514-1516). -/
def setPos (s : State) (m : Nat) : State :=
  if s.lock then s else { s with pos := fun j => if j = m then true else s.pos j }

/-- `Reset` and `SetLock` (iconnect-ace.h 1283-1294, 1505-1506): the other ports' flags. -/
def winPos (s : State) (m : Nat) : State :=
  { s with pos := fun j => if j = m then s.pos j else false, lock := true }

/-- The line becomes unique in this cache only: `clean_unique` after a response that is OK
(cache-ace.h 794-806). -/
def claim (s : State) (m k : Nat) : State :=
  { s with line := fun j k' => if j = m ∧ k' = k then .uniq else s.line j k' }

/-- The line leaves this cache (cache-ace.h 398-440, 886). -/
def drop (s : State) (m k : Nat) : State :=
  { s with line := fun j k' => if j = m ∧ k' = k then .inv else s.line j k' }

/-- `handle_load`, exclusive (cache-ace.h 1313-1357; iconnect-ace.h 1510-1523).  The monitors are
only set on a miss. -/
def ldx (n : Nat) (s : State) (m k o : Nat) : State × Res :=
  if s.line m k ≠ .inv then (s, .hit)
  else (setMon (setPos (fill n s m k) m) m k o, .miss)

/-- `handle_store`, exclusive (cache-ace.h 1359-1423; iconnect-ace.h 1475-1508). -/
def stx (s : State) (m k o : Nat) : State × Res :=
  if s.mon m k o = false then (s, .failed)
  else match s.line m k with
    | .uniq => (clrMon s m k o, .ok)
    | .inv => (clrMon (own s m k) m k o, .ok)
    | .shared =>
      if s.pos m then (clrMon (winPos (own s m k) m) m k o, .ok)
      else (clrMon (claim (setPos s m) m k) m k o, .refused)

/-- One access of one of the `n` masters, or the lock's release (cache-ace.h 1313-1423). -/
def step (n : Nat) (s : State) : Op → State × Res
  | .load m k =>
    if n ≤ m then (s, .none)
    else if s.line m k ≠ .inv then (s, .hit) else (fill n s m k, .miss)
  | .store m k =>
    if n ≤ m then (s, .none)
    else if s.line m k = .uniq then (s, .ok) else (own s m k, .ok)
  | .ldx m k o => if n ≤ m then (s, .none) else ldx n s m k o
  | .stx m k o => if n ≤ m then (s, .none) else stx s m k o
  | .evict m k => (drop s m k, .none)
  | .release => ({ s with lock := false }, .none)

/-- What was done and seen. -/
abbrev Ev := Op × Res

/-- The run of a list of operations, with what was seen, newest first. -/
def exec (n : Nat) : State → List Ev → List Op → State × List Ev
  | s, h, [] => (s, h)
  | s, h, op :: ops => exec n (step n s op).1 ((op, (step n s op).2) :: h) ops

end Verif.AceExcl
