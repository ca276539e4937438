import Verif.Base.Bytes
import Mathlib.Algebra.Polynomial.Div
import Mathlib.Algebra.Polynomial.Monic
import Mathlib.Data.ZMod.Basic

/-!
# Specification of CRC-32 (IEEE 802.3)

Independent of the repository: a bit-serial division register and, above it, the
definition by polynomial remainder over the field with two elements.
-/

namespace Verif.Crc32
open Verif Polynomial

/-- Bits of a byte in transmission order (least significant first). -/
def bitsOf (c : Byte) : List Bool := (List.range 8).map fun i => c.getLsbD i

/-- Bits of a message in transmission order. -/
def msgBits (m : List Byte) : List Bool := m.flatMap bitsOf

/-- One step of the reflected division register without input. -/
def polyStep (r : BitVec 32) : BitVec 32 := (r >>> 1) ^^^ (if r.getLsbD 0 then (0xEDB88320 : BitVec 32) else 0)

/-- One step with an input bit. -/
def bitStep (r : BitVec 32) (b : Bool) : BitVec 32 := polyStep (r ^^^ (if b then (1 : BitVec 32) else 0))

/-- The generator: `x^32+x^26+x^23+x^22+x^16+x^12+x^11+x^10+x^8+x^7+x^5+x^4+x^2+x+1`. -/
noncomputable def gen : (ZMod 2)[X] :=
  X^32 + (X^26 + X^23 + X^22 + X^16 + X^12 + X^11 + X^10 + X^8 + X^7 + X^5 + X^4 + X^2 + X + 1)

/-- The polynomial of a bit list, first bit = highest power. -/
noncomputable def bitsPoly : List Bool → (ZMod 2)[X]
  | [] => 0
  | b :: bs => (if b then X ^ bs.length else 0) + bitsPoly bs

/-- A 32-bit word as a bit list in transmission order. -/
def wordBits (r : BitVec 32) : List Bool := (List.range 32).map fun i => r.getLsbD i

end Verif.Crc32
