/-! # Address regions: the CHI interconnect's address map and the caches' non-shareable regions

Models `SystemAddressMap` (`/repo/tlm-modules/iconnect-chi.h` 3171-3263) and
`NonShareableRegion` with its use in the ACE cache (`/repo/tlm-modules/cache-ace.h` 89-108, 545-567,
676-698, 1569-1611).  Addresses are numbers below `2^64`. -/

namespace Verif.Regions

/-- A region as the user asks for it: first address, length, and (for the address map only) the
node it belongs to.  `iconnect-chi.h` 3174-3183, 3185-3194; `cache-ace.h` 92-95, 1738-1743. -/
structure Region where
  start : Nat
  len : Nat
  tgt : Nat
deriving DecidableEq, Repr

/-- The end computed in 64 bits from a length of 32 bits: `startAddress + regionLength` with
`unsigned int regionLength`.  `iconnect-chi.h` 3175, 3178; `cache-ace.h` 92, 99. -/
def Region.stop (r : Region) : Nat := (r.start + r.len % 2 ^ 32) % 2 ^ 64

/-- `InRegion`.  `iconnect-chi.h` 3229-3233; `cache-ace.h` 97-103. -/
def inRegion (r : Region) (a : Nat) : Bool := decide (r.start ≤ a) && decide (a < r.stop)

/-- `IterateMaps`: every map holding the address sets the target in turn.
`iconnect-chi.h` 3243-3259. -/
def iterateMaps : List Region → Nat → Nat → Nat
  | [], _, t => t
  | r :: rs, a, t => iterateMaps rs a (if inRegion r a then r.tgt else t)

/-- The three kinds of request told apart in `UpdateTgtID`.  `iconnect-chi.h` 3203-3215. -/
inductive Kind where
  | prefetch | dvm | other
deriving DecidableEq, Repr

/-- The two maps.  `iconnect-chi.h` 3261-3262. -/
structure Maps where
  maps : List Region := []
  prefetch : List Region := []

/-- `UpdateTgtID`: the target of a request sent with target `t`.  `iconnect-chi.h` 3196-3216. -/
def updateTgt (m : Maps) (k : Kind) (a t : Nat) : Nat :=
  match k with
  | .prefetch => iterateMaps m.prefetch a t
  | .dvm => t
  | .other => iterateMaps m.maps a t

/-- `in_nonshareable_region`: only the first address of the access is looked at.
`cache-ace.h` 1569-1582. -/
def inNonShareable (rs : List Region) (a : Nat) : Bool := rs.any (fun r => inRegion r a)

/-- Line number of an address, lines being 64 bytes (the line size the tests use; `get_tag`,
`in_cache`, `cache-ace.h` 994-1005). -/
def lineOf (a : Nat) : Nat := a / 64

/-- The lines fetched by a load or store of `n` bytes at `a`.  Simplification: every line touched is
fetched (stores may also be sent on without fetching).  `cache-ace.h` 1323-1345. -/
def linesOf (a n : Nat) : List Nat :=
  if n = 0 then [] else List.range' (lineOf a) (lineOf (a + n - 1) - lineOf a + 1)

/-- Where an access is served: by memory past the cache, by the cache, or not at all since the
assertion in `read_no_snoop`/`write_no_snoop` fails (560, 691). -/
inductive Route where
  | memory | cache | abort
deriving DecidableEq, Repr

/-- `b_transport` of a plain load or store: route and lines held afterwards.  Simplification: all
accesses are of one security state, evictions are operations of their own.
`cache-ace.h` 1596-1608, 560, 691. -/
def access (rs : List Region) (held : List Nat) (a n : Nat) : Route × List Nat :=
  if inNonShareable rs a then
    if lineOf a ∈ held then (.abort, held) else (.memory, held)
  else (.cache, linesOf a n ++ held)

/-- An operation: an access of some bytes at an address, or a line leaving the cache (evicted to
make room or by a snoop). -/
inductive Op where
  | acc (a n : Nat)
  | leave (l : Nat)
deriving DecidableEq, Repr

/-- The lines held after a sequence of operations; `none` once an assertion has failed.
`cache-ace.h` 1584-1611. -/
def run (rs : List Region) : List Nat → List Op → Option (List Nat)
  | held, [] => some held
  | held, .acc a n :: ops =>
    if (access rs held a n).1 = .abort then none else run rs (access rs held a n).2 ops
  | held, .leave l :: ops => run rs (held.filter (fun x => x != l)) ops

end Verif.Regions
