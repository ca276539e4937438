/-!
# Exclusive accesses through CHI caches and the CHI interconnect's monitor

Two parts: loads and stores, exclusive or not, of any number of request nodes with a write-back
cache (tlm-modules/cache-chi.h 619-815, 1766-2050; tlm-modules/private/chi/txns-rn.h 196-222,
604-768); and the monitor with which the interconnect meets exclusive requests, whoever sends
them (tlm-modules/iconnect-chi.h 3110-3169, 3297-3322).

The requests of this cache are never exclusive on the wire: `CopyCHIAttr` (txns-rn.h 196-222) does
not copy `Excl`, and no response's `RespErr` is copied back.

Simplifications: one access runs to its end before the next starts; an access lies in one line;
data, partial lines, dirty flags, the secure attribute and stashes are not modelled; conflict
misses, write-backs and cache maintenance are the operation `evict`.
-/

namespace Verif.ChiExcl

/-- A line of a cache: valid, shared (private/chi/cacheline.h 44-60). -/
inductive Ln
  | inv | shared | uniq
  deriving DecidableEq, Repr

/-- What the nodes do: `k` is the line, `o` the offset of the access in it.  `once` is a load which
the random choice makes a ReadOnce and does not keep the line; with `inv` a ReadOnceCleanInvalid or
ReadOnceMakeInvalid (cache-chi.h 1926-1949).  `writeU` is a store made a WriteUnique
(cache-chi.h 2030-2041). -/
inductive Op
  | load (m k : Nat)
  | once (m k : Nat) (inv : Bool)
  | store (m k : Nat)
  | writeU (m k : Nat)
  | ldx (m k o : Nat)
  | stx (m k o : Nat)
  | evict (m k : Nat)
  deriving DecidableEq, Repr

/-- What is seen of it: a load found the line in the cache (`hit`; an exclusive load then reports
ExclusiveOkay) or not (`miss`; an exclusive load then does not); a store was done (`ok`); an
exclusive store was not (`failed`).  `none`: nothing to see. -/
inductive Res
  | hit | miss | ok | failed | none
  deriving DecidableEq, Repr

/-- `line`: node, line.  `mon`: `m_monitor` of the node, by line and offset
(cache-chi.h 1813-1851). -/
structure State where
  line : Nat → Nat → Ln
  mon : Nat → Nat → Nat → Bool

/-- Empty caches and monitors (cacheline.h 53-60). -/
def init : State := { line := fun _ _ => .inv, mon := fun _ _ _ => false }

/-- Some other node's cache has the line, as the snoop responses say (iconnect-chi.h 2826-2866). -/
def held (n : Nat) (s : State) (m k : Nat) : Bool :=
  (List.range n).any fun j => j != m && s.line j k != .inv

/-- ReadShared, ReadClean and ReadNotSharedDirty with their snoops (cache-chi.h 619-671,
754-758): the copies become shared and the new line is shared if there is another. -/
def fill (n : Nat) (s : State) (m k : Nat) : State :=
  { s with
    line := fun j k' =>
      if k' = k then
        if j = m then (if held n s m k then .shared else .uniq)
        else if s.line j k = .inv then .inv else .shared
      else s.line j k' }

/-- The invalidating snoops to all but `m` (cache-chi.h 749-805): the copies go, and the monitor
of a cache that had one is reset at the address of the snoop, which is the line's
(cache-chi.h 445-446, 623-624, 711; iconnect-chi.h 1287). -/
def purge (s : State) (m k : Nat) : State :=
  { line := fun j k' => if k' = k ∧ j ≠ m then .inv else s.line j k'
    mon := fun j k' o =>
      if j ≠ m ∧ k' = k ∧ o = 0 ∧ s.line j k ≠ .inv then false else s.mon j k' o }

/-- The line becomes unique in this cache: the Comp or the data of ReadUnique, MakeUnique and
CleanUnique (txns-rn.h 748-756). -/
def claim (s : State) (m k : Nat) : State :=
  { s with line := fun j k' => if j = m ∧ k' = k then .uniq else s.line j k' }

/-- `Set` (cache-chi.h 1816-1821). -/
def setMon (s : State) (m k o : Nat) : State :=
  { s with mon := fun j k' o' => if j = m ∧ k' = k ∧ o' = o then true else s.mon j k' o' }

/-- `Reset` (cache-chi.h 1823-1828). -/
def clrMon (s : State) (m k o : Nat) : State :=
  { s with mon := fun j k' o' => if j = m ∧ k' = k ∧ o' = o then false else s.mon j k' o' }

/-- The line leaves this cache: `InvalidateCacheLine`, called from cache-chi.h 627-629, 681-683. -/
def drop (s : State) (m k : Nat) : State :=
  { s with line := fun j k' => if j = m ∧ k' = k then .inv else s.line j k' }

/-- `HandleLoad`, exclusive (cache-chi.h 1900-1969).  The monitor is only set on a miss. -/
def ldx (n : Nat) (s : State) (m k o : Nat) : State × Res :=
  if s.line m k ≠ .inv then (s, .hit)
  else (setMon (fill n s m k) m k o, .miss)

/-- `HandleStore`, exclusive (cache-chi.h 1971-2050).  On a shared line the CleanUnique, which is
not exclusive, is carried out; the payload then has no ExclusiveOkay, so the store fails. -/
def stx (s : State) (m k o : Nat) : State × Res :=
  if s.mon m k o = false then (s, .failed)
  else match s.line m k with
    | .uniq => (clrMon s m k o, .ok)
    | .inv => (clrMon (claim (purge s m k) m k) m k o, .ok)
    | .shared => (clrMon (claim (purge s m k) m k) m k o, .failed)

/-- One access of one of the `n` nodes (cache-chi.h 1900-2050). -/
def step (n : Nat) (s : State) : Op → State × Res
  | .load m k =>
    if n ≤ m then (s, .none)
    else if s.line m k ≠ .inv then (s, .hit) else (fill n s m k, .miss)
  | .once m k inv =>
    if n ≤ m then (s, .none)
    else if s.line m k ≠ .inv then (s, .hit)
    else if inv then (purge s m k, .miss) else (s, .miss)
  | .store m k =>
    if n ≤ m then (s, .none)
    else if s.line m k = .uniq then (s, .ok) else (claim (purge s m k) m k, .ok)
  | .writeU m k =>
    if n ≤ m then (s, .none)
    else if s.line m k = .uniq then (s, .ok)
    else if s.line m k = .shared then (claim (purge s m k) m k, .ok)
    else (purge s m k, .ok)
  | .ldx m k o => if n ≤ m then (s, .none) else ldx n s m k o
  | .stx m k o => if n ≤ m then (s, .none) else stx s m k o
  | .evict m k => (drop s m k, .none)

/-- What was done and seen. -/
abbrev Ev := Op × Res

/-- The run of a list of operations, with what was seen, newest first. -/
def exec (n : Nat) : State → List Ev → List Op → State × List Ev
  | s, h, [] => (s, h)
  | s, h, op :: ops => exec n (step n s op).1 ((op, (step n s op).2) :: h) ops

/-! ## The interconnect's monitor -/

/-- The opcodes which matter to it; `snooping` stands for the others that snoop, `other` for the
rest (iconnect-chi.h 472-520, 3154-3166). -/
inductive Opc
  | readClean | readNotSharedDirty | readShared | cleanUnique | snooping | other
  deriving DecidableEq, Repr

/-- A request: its source, `LPID`, opcode, `Excl` and `SnpAttr`. -/
structure Rq where
  src : Nat
  lpid : Nat
  opc : Opc
  excl : Bool
  snpAttr : Bool
  deriving DecidableEq, Repr

/-- `IsExclusive` (iconnect-chi.h 3154-3166). -/
def isExcl : Opc → Bool
  | .readClean | .readNotSharedDirty | .readShared | .cleanUnique => true
  | _ => false

/-- `IsSnoopingReq` (iconnect-chi.h 472-520). -/
def isSnooping : Opc → Bool
  | .other => false
  | _ => true

/-- `HandleExclusive` (iconnect-chi.h 3113-3137): the list of LPIDs and whether it passed. -/
def handle (l : List Nat) (r : Rq) : List Nat × Bool :=
  let passed := r.opc = .cleanUnique ∧ r.lpid ∈ l
  let l1 := if passed then [] else l
  (if isExcl r.opc then l1 ++ [r.lpid] else l1, decide passed)

/-- What a request gets: whether other caches are snooped before it is answered, and whether the
answer says ExclusiveOkay. -/
structure Got where
  snooped : Bool
  exokay : Bool
  deriving DecidableEq, Repr

/-- `RouteInternal` (iconnect-chi.h 3297-3322), not for atomics. -/
def route (l : List Nat) (r : Rq) : List Nat × Got :=
  let p := if r.excl then handle l r else (l, true)
  (p.1, { snooped := r.snpAttr && isSnooping r.opc && p.2, exokay := r.excl && p.2 })

/-- A run of the interconnect, with what each request got, newest first. -/
def serve : List Nat → List (Rq × Got) → List Rq → List Nat × List (Rq × Got)
  | l, h, [] => (l, h)
  | l, h, r :: rs => serve (route l r).1 ((r, (route l r).2) :: h) rs

end Verif.ChiExcl
