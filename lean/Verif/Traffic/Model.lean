import Verif.Base.Tlm
/-
The random traffic generator: `/repo/traffic-generators/random-traffic.h` as driven
by the loop in `/repo/traffic-generators/tg-tlm.h` 189-257.

`rand_r` is a parameter: the sequence of numbers it returns, read through an
index. The theorems hold for every such sequence, hence for every seed.
-/
namespace Verif.Traffic
open Verif

/-- Constructor arguments and the streaming-width limits (41-66, 172-176). -/
structure Cfg where
  minAddr : Nat
  maxAddr : Nat
  mask : Nat
  minLen : Nat
  maxLen : Nat
  minSw : Nat
  maxSw : Nat
  maxBe : Nat
  deriving DecidableEq, Repr

/-- The fields that change (188-201); `idx` counts the calls of `rand_r`. -/
structure St where
  lastWrite : Bool
  init : Bool
  hasAL : Bool
  addr : Nat
  len : Nat
  beLen : Nat
  swLen : Nat
  idx : Nat
  deriving DecidableEq, Repr

/-- 64-bit difference. -/
def sub64 (a b : Nat) : Nat := (a + 2 ^ 64 - b) % 2 ^ 64

/-- `genAddrLen` (208-254), the part after the initialisation case, with the
numbers drawn as arguments. `none`: remainder by zero. -/
def genAddrLenRnd (c : Cfg) (rnd : Nat → Nat) (s : St) : Option St :=
  if sub64 c.maxAddr c.minAddr = 0 then none
  else
    let address := ((c.minAddr + rnd s.idx % sub64 c.maxAddr c.minAddr) % 2 ^ 64) &&& c.mask
    let maxLen := min c.maxLen (sub64 c.maxAddr address)
    if (maxLen + 1) % 2 ^ 32 = 0 then none
    else
      let len0 := rnd (s.idx + 1) % (maxLen + 1)
      let len := if c.minLen < len0 then len0 else min c.minLen maxLen
      let hasBe := decide (c.maxBe ≠ 0)
      let beLen := if hasBe then
          (if rnd (s.idx + 2) % 2 = 1 then rnd (s.idx + 3) % (min c.maxBe len + 1) else 0) else 0
      let i := if hasBe then (if rnd (s.idx + 2) % 2 = 1 then s.idx + 4 else s.idx + 3) else s.idx + 2
      let hasSw := decide (rnd i % 2 = 1)
      if hasSw ∧ len = 0 then none
      else
        let sw := if hasSw then rnd (i + 1) % len else len
        let sw := if sw < c.minSw then c.minSw else sw
        let sw := if c.maxSw < sw then c.maxSw else sw
        let sw := if sw ≠ 0 then sw else len
        some { s with
          hasAL := true, addr := address, len := len, beLen := beLen, swLen := sw
          idx := if hasSw then i + 2 else i + 1 }

/-- `genAddrLen` (208-254). -/
def genAddrLen (c : Cfg) (rnd : Nat → Nat) (s : St) : Option St :=
  if s.init then
    some { s with
      hasAL := true, addr := c.minAddr, len := sub64 c.maxAddr c.minAddr % 2 ^ 32
      swLen := sub64 c.maxAddr c.minAddr % 2 ^ 32, beLen := 0 }
  else genAddrLenRnd c rnd s

/-- `if (!hasAddrLen) genAddrLen()` at the head of every accessor. -/
def ensure (c : Cfg) (rnd : Nat → Nat) (s : St) : Option St :=
  if s.hasAL then some s else genAddrLen c rnd s

/-- `getCmd` (72-90). -/
def getCmd (rnd : Nat → Nat) (s : St) : Cmd × St :=
  if s.lastWrite then (.read, { s with lastWrite := false })
  else
    let cmd : Cmd := if rnd s.idx % 2 = 1 then .write else .read
    let cmd := if s.init then .write else cmd
    (cmd, { s with lastWrite := decide (cmd = .write), idx := s.idx + 1 })

/-- The loop of `getData` (112-116): `v` is the number being shifted out. -/
def dataLoop (rnd : Nat → Nat) : Nat → Nat → Nat → List Byte × Nat
  | 0, _, idx => ([], idx)
  | n + 1, v, idx =>
    let v' := if v ≠ 0 then v else rnd idx
    let r := dataLoop rnd n (v' >>> 8) (if v ≠ 0 then idx else idx + 1)
    (BitVec.ofNat 8 v' :: r.1, r.2)

/-- `getData` (99-118). -/
def getData (rnd : Nat → Nat) (s : St) : List Byte × St :=
  if s.init then (List.replicate s.len 0#8, s)
  else
    let r := dataLoop rnd s.len 0 s.idx
    (r.1, { s with idx := r.2 })

/-- The loop of `getByteEnable` (134-138). -/
def beLoop (rnd : Nat → Nat) : Nat → Nat → Nat → List Bool × Nat
  | 0, _, idx => ([], idx)
  | n + 1, v, idx =>
    let v' := if v ≠ 0 then v else rnd idx
    let r := beLoop rnd n (v' >>> 1) (if v ≠ 0 then idx else idx + 1)
    (decide (v' % 2 = 1) :: r.1, r.2)

/-- `getByteEnable` (126-140) as called by the generator: once to see whether
there are any, and if so again for the pointer. -/
def getBe (rnd : Nat → Nat) (s : St) : List Bool × St :=
  let r := beLoop rnd s.beLen 0 s.idx
  if s.beLen = 0 then ([], { s with idx := r.2 })
  else
    let r2 := beLoop rnd s.beLen 0 r.2
    (r2.1, { s with idx := r2.2 })

/-- `next` (160-169). The transfer counter is the recursion argument of `run`. -/
def next (s : St) : St :=
  let s := if s.lastWrite then { s with beLen := 0, swLen := s.len } else { s with hasAL := false }
  { s with init := false }

/-- An access as handed to the socket. -/
structure Access where
  cmd : Cmd
  addr : Nat
  len : Nat
  data : List Byte
  be : List Bool
  sw : Nat
  deriving DecidableEq, Repr

/-- One round of the generator's loop (tg-tlm.h 191-256). A read gets a fresh
buffer of the same length, shown here as zeros. -/
def step (c : Cfg) (rnd : Nat → Nat) (s : St) : Option (Access × St) :=
  let gc := getCmd rnd s
  match ensure c rnd gc.2 with
  | none => none
  | some s1 =>
    let gd := if gc.1 = .write then getData rnd s1 else (List.replicate s1.len 0#8, s1)
    let gb := getBe rnd gd.2
    some (⟨gc.1, gb.2.addr, gb.2.len, gd.1, gb.1, gb.2.swLen⟩, next gb.2)

/-- `n` transfers. -/
def run (c : Cfg) (rnd : Nat → Nat) : Nat → St → Option (List Access)
  | 0, _ => some []
  | n + 1, s =>
    match step c rnd s with
    | none => none
    | some (a, s') => (run c rnd n s').map (a :: ·)

/-- A new generator (41-66). `addr`, `len`, `beLen`, `swLen` are uninitialised in
the code; they are not read before `genAddrLen`. -/
def fresh (init : Bool) : St := ⟨false, init, false, 0, 0, 0, 0, 0⟩

end Verif.Traffic
