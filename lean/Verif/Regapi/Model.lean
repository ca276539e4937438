import Verif.Base.Tlm
import Verif.Bitops.Model

/-!
# Register block

Models `/repo/utils/regapi.h`.  The register type `T` is `BitVec (8 * n)` with
`n = sizeof(T)`.  Dropped: debug printing and the `delay` argument.
-/

namespace Verif.Regapi
open Verif

/-- `struct regapi_info` (52-63) without the name (used only for printing and as
list terminator; the model's description list ends where the name is null) and
without `rsvd`/`unimp`, which no code reads. -/
structure Info (n : Nat) where
  ro : BitVec (8 * n)
  w1c : BitVec (8 * n)
  reset : BitVec (8 * n)
  cor : BitVec (8 * n)
  addr : Nat

/-- `regapi_block` (65-72): the register array is a list of `R_MAX` entries. -/
structure Block (n : Nat) where
  info : List (Info n)
  regs : List (BitVec (8 * n))

/-- `reg_deposit` (84-88); `val << shift` happens in type `T`. -/
def deposit {n : Nat} (dst : BitVec (8 * n)) (shift len : Nat) (val : BitVec (8 * n)) : BitVec (8 * n) :=
  let mask : BitVec (8 * n) := (Bitops.mask64 shift len).setWidth (8 * n)
  let dst := dst &&& ~~~ mask
  dst ||| (val <<< shift)

/-- The search loop (98-104), `i < R_MAX && info[i].name`. -/
def find {n : Nat} (b : Block n) (addr : Nat) : Option (Info n) :=
  (b.info.take b.regs.length).find? (fun i => addr == i.addr)

/-- Lines 121-136: what one access does to the register. -/
def update {n : Nat} (i : Info n) (isRead : Bool) (val old : BitVec (8 * n)) : BitVec (8 * n) :=
  if isRead then old &&& ~~~ i.cor
  else
    let r := if i.ro ≠ 0 then (old &&& i.ro) ||| (val &&& ~~~ i.ro) else val
    r &&& ~~~ i.w1c

/-- `reg_access` (90-144): new block, status, returned value.  `none`: the index
`addr / sizeof(T)` lies outside the register array (nothing checks it). -/
def access {n : Nat} (b : Block n) (isRead : Bool) (addr : Nat) (val : BitVec (8 * n)) :
    Option (Block n × Status × BitVec (8 * n)) :=
  match find b addr with
  | none => some (b, .address, 0)
  | some i =>
    match b.regs[addr / n]? with
    | none => none
    | some old =>
      let new := update i isRead val old
      some ({ b with regs := b.regs.set (addr / n) new }, .ok, new)

/-- `reg_reset` (147-154); `none`: an assert fails. -/
def resetOne {n : Nat} (regs : List (BitVec (8 * n))) (i : Info n) : Option (List (BitVec (8 * n))) :=
  if i.addr / n < regs.length then some (regs.set (i.addr / n) i.reset) else none

/-- `reg_reset_all` (156-162). -/
def resetAll {n : Nat} (b : Block n) : Option (Block n) :=
  ((b.info.take b.regs.length).foldlM resetOne b.regs).map fun r => { b with regs := r }

/-- `reg_b_transport` (164-183); `memcpy` of a little-endian host. -/
def bTransport {n : Nat} (b : Block n) (g : Gp) : Option (Block n × Status × List Byte) :=
  if g.len ≠ n then some (b, .generic, g.data)
  else
    let val : BitVec (8 * n) := if g.cmd = .read then 0 else BitVec.ofNat (8 * n) (leDec g.data)
    (access b (g.cmd = .read) g.addr val).map fun r =>
      (r.1, r.2.1, if g.cmd = .read then leEnc n r.2.2.toNat else g.data)

end Verif.Regapi
