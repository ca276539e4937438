import Verif.Base.Range

/-!
# What a descriptor ring promises

Written without looking at the device model: a ring of `n` descriptors, a
consumer and a producer index, two memories.
-/

namespace Verif.Qdma

/-- The ring positions from `c` up to, not including, `p`, in a ring of `n`. -/
def ringWalk (n c p : Nat) : List Nat :=
  (List.range ((p + n - c) % n)).map fun k => (c + k) % n

/-- A memory-to-memory descriptor. -/
structure Desc where
  src : Nat
  len : Nat
  dst : Nat
  deriving DecidableEq

/-- The descriptor stored at an address: source at byte 0, 28-bit length at byte
8, destination at byte 16, little-endian. -/
def descAt (m : Mem) (a : Nat) : Desc :=
  ⟨leDec (m.range a 8), leDec (m.range (a + 8) 8) % 2 ^ 28, leDec (m.range (a + 16) 8)⟩

/-- Host memory and card memory. -/
structure Mems where
  host : Mem
  card : Mem

/-- Doing what a descriptor says: host to card or card to host. -/
def Desc.exec (d : Desc) (h2c : Bool) (m : Mems) : Mems :=
  if h2c then { m with card := m.card.store d.dst (m.host.range d.src d.len) }
  else { m with host := m.host.store d.dst (m.card.range d.src d.len) }

/-- A whole number of words, not running over the end of the address space. -/
def Desc.Plain (d : Desc) : Prop :=
  d.len % 4 = 0 ∧ d.src + d.len ≤ 2 ^ 64 ∧ d.dst + d.len ≤ 2 ^ 64

instance (d : Desc) : Decidable d.Plain := inferInstanceAs (Decidable (_ ∧ _ ∧ _))

/-- The descriptors at the given ring positions, one after the other, each read
from memory when its turn comes; `none` if one of them is not plain. -/
def execAll (h2c : Bool) (base size : Nat) : List Nat → Mems → Option Mems
  | [], m => some m
  | i :: is, m =>
    let d := descAt m.host (base + size * i)
    if d.Plain then execAll h2c base size is (d.exec h2c m) else none

/-- Memory after the status descriptor at `st` has been updated: no error, both
indices `p`, every other bit as before. -/
def StatusWritten (st p : Nat) (m m' : Mem) : Prop :=
  ∀ a, m' a =
    if a = st then m a &&& 0xFC#8
    else if a = st + 2 ∨ a = st + 4 then BitVec.ofNat 8 p
    else if a = st + 3 ∨ a = st + 5 then BitVec.ofNat 8 (p / 256)
    else m a

/-- How many descriptors a series of producer-index values posts, starting with
consumer index `c`. -/
def posted (n : Nat) : Nat → List Nat → Nat
  | _, [] => 0
  | c, p :: ps => (p + n - c) % n + posted n p ps

/-- What an interrupt-ring entry (an eight-byte number) tells the driver: the two
indices, the colour twice, no error, which queue and which direction.  The last
three sit differently in the two generations. -/
structure EntrySays (cpm4 : Bool) (e q : Nat) (h2c color : Bool) (cidx pidx : Nat) : Prop where
  isPidx : e % 2 ^ 16 = pidx
  isCidx : e / 2 ^ 16 % 2 ^ 16 = cidx
  isColor : e / 2 ^ 32 % 2 = color.toNat
  isCoal : e / 2 ^ 63 % 2 = color.toNat
  noState : e / 2 ^ 33 % 4 = 0
  noError : e / 2 ^ 35 % (if cpm4 then 16 else 4) = 0
  isQid : (if cpm4 then e / 2 ^ 52 % 2 ^ 11 else e / 2 ^ 39 % 2 ^ 24) = q
  isDir : (if cpm4 then e / 2 ^ 51 % 2 else e / 2 ^ 38 % 2) = (!h2c).toNat

/-- Where and with which colour entry number `k` goes in an interrupt ring of `n`
entries, after one that went to slot `i` with colour `b`. -/
def ringEntry (n i : Nat) (b : Bool) (k : Nat) : Nat × Bool :=
  ((i + k) % n, if (i + k) / n % 2 = 0 then b else !b)

end Verif.Qdma
