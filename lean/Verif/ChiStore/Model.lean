/-! # Loads and stores of the CHI cache, cut into lines

Models `HandleLoad`, `HandleStore`, `ReadNoSnp` and `WriteNoSnp` of `/repo/tlm-modules/cache-chi.h`
(1900-2050, 2172-2214) with the copying of bytes in `/repo/tlm-modules/private/chi/txns-rn.h`
(530-559, 821-851).  Simplifications: memory and caches are one map from addresses to bytes (that
they agree is another component's matter, `Verif.ChiCoh`); exclusive accesses are left out
(`Verif.ChiExcl`); addresses do not wrap at `2^64`. -/

namespace Verif.ChiStore

/-- A load or store: address, data (its length is the length of the access) and byte enables, none
meaning all. -/
structure Payload where
  addr : Nat
  data : List Nat
  be : List Bool := []
deriving DecidableEq, Repr

/-- Data length. -/
def Payload.len (p : Payload) : Nat := p.data.length

/-- Whether byte `i` is copied: `be[pos % be_len] == TLM_BYTE_ENABLED`, or no byte enables.
`txns-rn.h` 544-556, 835-850. -/
def on (p : Payload) (i : Nat) : Bool := p.be.isEmpty || p.be.getD (i % p.be.length) false

/-- `AllBytesEnabled`: at least 64 byte enables, all set.  `cache-chi.h` 1741-1764. -/
def allOn (p : Payload) : Bool := decide (64 ≤ p.be.length) && p.be.all id

/-- `len` clipped to the end of the line: what one line takes of the access from `pos` on.
`txns-rn.h` 535-542, 826-833; `cache-chi.h` 259-269, 294-303. -/
def inLine (p : Payload) (pos : Nat) : Nat := min (p.len - pos) (64 - (p.addr + pos) % 64)

/-- By how much the loop goes on.  Through the line in the cache (`false`): by what the line took
(`WriteLine`, 311).  Past the cache (`true`): by 64 for a full write (`WriteUniqueFull`, 438), else by
what is left but at most 64 (`WriteUniquePtl`, 458-462; `WriteNoSnp`, 415-419, which does so for
both; the difference is beyond the end of the data). -/
def advance (p : Payload) (past : Bool) (pos : Nat) : Nat :=
  if past then (if allOn p then 64 else min (p.len - pos) 64) else inLine p pos

/-- The positions at which the loop stops for a line, with the way taken there.  `ch` says for each
position whether a store goes past the cache (line not held and the random number not 0,
`cache-chi.h` 1985, 2013, 2022).  `HandleStore` 1979-2043, `WriteNoSnp` 2178-2195. -/
def steps (p : Payload) (ch : Nat → Bool) : Nat → Nat → List (Nat × Bool)
  | 0, _ => []
  | f + 1, pos =>
    if pos < p.len then (pos, ch pos) :: steps p ch f (pos + advance p (ch pos) pos) else []

/-- The bytes of one line are written: `WriteLine` (`cache-chi.h` 289-312) or `CopyDataNonCached`
(`txns-rn.h` 821-851), both copy the enabled bytes up to the end of the line. -/
def writePart (p : Payload) (pos : Nat) (m : Nat → Nat) : Nat → Nat := fun x =>
  if p.addr + pos ≤ x ∧ x < p.addr + pos + inLine p pos ∧ on p (x - p.addr) = true then
    p.data.getD (x - p.addr) 0
  else m x

/-- All steps in turn. -/
def writeAll (p : Payload) : List (Nat × Bool) → (Nat → Nat) → Nat → Nat
  | [], m => m
  | s :: ss, m => writeAll p ss (writePart p s.1 m)

/-- `HandleStore`: the bytes afterwards.  `cache-chi.h` 1971-2050. -/
def store (p : Payload) (ch : Nat → Bool) (m : Nat → Nat) : Nat → Nat :=
  writeAll p (steps p ch p.len 0) m

/-- `WriteNoSnp`: a store to a non-shareable region, every line past the cache.
`cache-chi.h` 2172-2198, 399-420. -/
def storePrivate (p : Payload) (m : Nat → Nat) : Nat → Nat := store p (fun _ => true) m

/-- Write requests. -/
inductive Opcode where
  | writeUniqueFull | writeUniquePtl | writeNoSnpFull | writeNoSnpPtl
deriving DecidableEq, Repr

/-- A write request sent past the cache: opcode, line, and how many bytes of the line are covered. -/
structure Req where
  op : Opcode
  line : Nat
  bytes : Nat
deriving DecidableEq, Repr

/-- The opcode, the same for shareable (`cache-chi.h` 2033-2037) and non-shareable stores
(2181-2191). -/
def opOf (p : Payload) : Opcode := if allOn p then .writeUniqueFull else .writeUniquePtl

/-- The write requests a sequence of steps sends.  `cache-chi.h` 404-405, 426-427, 445-446. -/
def reqs (p : Payload) : List (Nat × Bool) → List Req
  | [] => []
  | s :: ss =>
    if s.2 then ⟨opOf p, (p.addr + s.1) / 64 * 64, inLine p s.1⟩ :: reqs p ss else reqs p ss

/-- The bytes of one line are read into the buffer: `ReadLine` (`cache-chi.h` 255-286) or
`FetchNonCoherentData` (`txns-rn.h` 530-559). -/
def readPart (p : Payload) (m : Nat → Nat) (pos : Nat) (b : Nat → Nat) : Nat → Nat := fun i =>
  if pos ≤ i ∧ i < pos + inLine p pos ∧ on p i = true then m (p.addr + i) else b i

/-- All steps in turn. -/
def readAll (p : Payload) (m : Nat → Nat) : List (Nat × Bool) → (Nat → Nat) → Nat → Nat
  | [], b => b
  | s :: ss, b => readAll p m ss (readPart p m s.1 b)

/-- `HandleLoad` and `ReadNoSnp`: all ways go on by what the line took.
`cache-chi.h` 1909-1962, 2206-2211. -/
def load (p : Payload) (m : Nat → Nat) (b : Nat → Nat) : Nat → Nat :=
  readAll p m (steps p (fun _ => false) p.len 0) b

end Verif.ChiStore
