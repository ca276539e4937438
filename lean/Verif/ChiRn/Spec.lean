import Verif.ChiSn.Spec

/-!
# What an access passed on by a cache should do

Reads and writes: `Gp.run` of `Verif.Base.Tlm` with streaming width = length. Atomics: below.
-/

namespace Verif.ChiRn
open Verif.ChiSn

inductive Kind where
  | store (o : AOp)
  | load (o : AOp)
  | swap
  | cmp
  deriving DecidableEq

/-- The atomic a request opcode stands for (CHI issue C, table 12-14). -/
def Kind.ofOpcode (op : Nat) : Option Kind :=
  if op / 8 = 5 then some (.store (.ofCode (op % 8)))
  else if op / 8 = 6 then some (.load (.ofCode (op % 8)))
  else if op = 0x38 then some .swap
  else if op = 0x39 then some .cmp
  else none

/-- The effect on memory: operand (or compare value) `x`, swap value `y`. -/
def Kind.after (k : Kind) (big : Bool) (a n : Nat) (x y : List Byte) (m : Mem) : Mem :=
  match k with
  | .store o | .load o =>
    m.store a (enc big n (o.eval (BitVec.ofNat (8 * n) (val big (m.range a n)))
      (BitVec.ofNat (8 * n) (val big x))).toNat)
  | .swap => m.store a x
  | .cmp => if m.range a n = x then m.store a y else m

/-- The sizes the specification allows, and natural alignment. -/
def Kind.sized (k : Kind) (a n : Nat) : Prop :=
  (n = 1 ∨ n = 2 ∨ n = 4 ∨ n = 8 ∨ (k = .cmp ∧ n = 16)) ∧ a % n = 0

/-- Its operation, where it has one, is add or clear. -/
def Kind.addClr : Kind → Prop
  | .store o | .load o => o = .add ∨ o = .clr
  | _ => True

end Verif.ChiRn
