import Verif.Mrmac.Model

/-! # Specification for C36 -/

namespace Verif.Mrmac
open Verif Verif.Crc32

/-- The frame sizes counted in each class (smallest, largest). -/
def Bucket.range : Bucket → Nat × Option Nat
  | .small => (0, some 63)
  | .p64 => (64, some 64)
  | .p65 => (65, some 127)
  | .p128 => (128, some 255)
  | .p256 => (256, some 511)
  | .p512 => (512, some 1023)
  | .p1024 => (1024, some 1518)
  | .p1519 => (1519, some 1522)
  | .p1523 => (1523, some 1548)
  | .p1549 => (1549, some 2047)
  | .p2048 => (2048, some 4095)
  | .p4096 => (4096, some 8191)
  | .p8192 => (8192, some 9215)
  | .large => (9216, none)

def Bucket.holds (b : Bucket) (n : Nat) : Prop := b.range.1 ≤ n ∧ ∀ m, b.range.2 = some m → n ≤ m

instance (b : Bucket) (n : Nat) : Decidable (b.holds n) := by
  unfold Bucket.holds
  cases b.range.2 with
  | none => exact decidable_of_iff (b.range.1 ≤ n) (by simp)
  | some m => exact decidable_of_iff (b.range.1 ≤ n ∧ n ≤ m) (by simp)

/-- Kind of destination address. -/
inductive Kind | unicast | multicast | broadcast
  deriving DecidableEq, Repr

/-- Group bit clear: unicast; all ones: broadcast; otherwise multicast. -/
def kind (f : List Byte) : Kind :=
  if (f.getD 0 0).getLsbD 0 = false then .unicast
  else if f.take 6 = List.replicate 6 0xff then .broadcast else .multicast

/-- How much a frame adds to each counter. -/
def contribution (good : Bool) (f : List Byte) : Ctr → Nat
  | .total => 1
  | .bytes => f.length
  | .size b => if b.holds f.length then 1 else 0
  | .badFcs => if good then 0 else 1
  | .good => if good then 1 else 0
  | .goodBytes => if good then f.length else 0
  | .unicast => if good ∧ kind f = .unicast then 1 else 0
  | .multicast => if good ∧ kind f = .multicast then 1 else 0
  | .broadcast => if good ∧ kind f = .broadcast then 1 else 0
  | .vlan => if good ∧ (f.drop 12).take 2 = [0x81, 0x00] then 1 else 0
  | .pause => if good ∧ (f.drop 12).take 2 = [0x88, 0x08] then 1 else 0

/-- A frame that ends in the CRC-32 of what precedes it. -/
def Valid (f : List Byte) : Prop := ∃ m, f = m ++ crcBytes (crc32 0 m)

/-- `f'` differs from `f` only inside a window of at most 32 bits, in
transmission order, and does differ. -/
def BurstError (f f' : List Byte) : Prop :=
  ∃ pre w w' post, msgBits f = pre ++ w ++ post ∧ msgBits f' = pre ++ w' ++ post ∧
    w.length = w'.length ∧ w.length ≤ 32 ∧ w ≠ w'

end Verif.Mrmac
