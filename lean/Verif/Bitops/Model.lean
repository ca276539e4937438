import Verif.Base.Bytes

/-!
# Bit helpers

Models `/repo/utils/bitops.h`.
-/

namespace Verif.Bitops
open Verif

/-- `bitops_mask32` (28-36); `none`: the assert fails. -/
def mask32 (len : Nat) : Option (BitVec 32) :=
  if len > 32 then none
  else if len = 32 then some (~~~ 0)
  else some ((((1 : BitVec 64) <<< len) - 1).truncate 32)

/-- `bitops_field32` (38-48). -/
def field32 (val : BitVec 32) (bit len : Nat) : Option (BitVec 32) :=
  if bit ≥ 32 ∨ len > 32 then none
  else (mask32 len).map fun m => (val >>> bit) &&& m

/-- `bitops_mask64` (50-62). -/
def mask64 (start len : Nat) : BitVec 64 :=
  if start ≥ 64 ∨ len = 0 then 0
  else
    let v : BitVec 64 := ~~~ 0
    let v := if len < 64 then v >>> (64 - len) else v
    v <<< start

/-- `sc_bv2buf` (78-89), iteration at bit `i`: `s.range(i+7, i)` per step.  The
buffer is a list of bytes; `none`: it is too short. -/
def bv2bufFrom {width : Nat} (s : BitVec width) (bitlen : Nat) (i : Nat) (buf : List Byte) : Option (List Byte) :=
  if i < width ∧ i < bitlen then
    match buf with
    | [] => none
    | _ :: rest => (bv2bufFrom s bitlen (i + 8) rest).map ((s.extractLsb' i 8) :: ·)
  else some buf
termination_by width - i

def bv2buf {width : Nat} (s : BitVec width) (bitlen : Nat) (buf : List Byte) : Option (List Byte) :=
  if width % 8 ≠ 0 then none else bv2bufFrom s bitlen 0 buf

/-- Assigning to `s.range(i+7, i)`. -/
def setRange8 {width : Nat} (s : BitVec width) (i : Nat) (b : Byte) : BitVec width :=
  (s &&& ~~~ (((0xff : BitVec 8).zeroExtend width) <<< i)) ||| ((b.zeroExtend width) <<< i)

/-- `sc_buf2bv` (92-102). -/
def buf2bvFrom {width : Nat} (s : BitVec width) (bitlen : Nat) (i : Nat) (buf : List Byte) : Option (BitVec width) :=
  if i < width ∧ i < bitlen then
    match buf with
    | [] => none
    | b :: rest => buf2bvFrom (setRange8 s i b) bitlen (i + 8) rest
  else some s
termination_by width - i

def buf2bv {width : Nat} (s : BitVec width) (bitlen : Nat) (buf : List Byte) : Option (BitVec width) :=
  if width % 8 ≠ 0 then none else buf2bvFrom s bitlen 0 buf

end Verif.Bitops
