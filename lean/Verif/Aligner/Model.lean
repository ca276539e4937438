import Verif.Base.Tlm

/-!
# `tlm_aligner`

Models `/repo/tlm-modules/tlm-aligner.h` 97-217.  Addresses are naturals; the
64-bit address arithmetic of the code agrees with it as long as the access does
not wrap around the top of the address space, which the theorems assume where
it matters.  `T` is the bound target; its state type is arbitrary.
-/

namespace Verif.Aligner
open Verif

/-- Constructor parameters (tlm-aligner.h 53-66). `validator` is `m_validator`
(`none`: NULL). -/
structure Cfg where
  busWidth : Nat
  maxLen : Nat
  boundary : Nat
  natural : Bool
  validator : Option (Nat → Nat → Nat → Bool)

/-- `compute_natural_alignment` (97-107) on 64-bit words; `-addr` is
`2^64 - addr`. -/
def naturalAlignment (addr : Nat) : Nat :=
  if addr = 0 then 2 ^ 64 - 1 else addr &&& (2 ^ 64 - addr)

/-- `compute_max_addr_range` (109-118). -/
def maxAddrRange (c : Cfg) (addr nat : Nat) : Nat :=
  let len := min c.maxLen (c.boundary - addr % c.boundary)
  if c.natural then min len (nat - addr % nat) else len

/-- A bound target with state `σ`: new state, data buffer, response status. -/
abbrev Target (σ : Type) := Gp → σ → σ × List Byte × Status

/-- Lines 134-138. -/
def effSw (g : Gp) : Nat := if g.sw = 0 then g.len else g.sw

/-- The fast-path test (140-143). -/
def fastPath (c : Cfg) (g : Gp) : Bool :=
  (!c.natural || g.addr % naturalAlignment g.addr == 0) && g.len < c.maxLen &&
    g.len == maxAddrRange c g.addr (naturalAlignment g.addr) && effSw g == g.len

/-- `m_validator && m_validator->validate(...)` (183-184). -/
def validates (c : Cfg) (tAddr tLen sw : Nat) : Bool :=
  match c.validator with
  | none => false
  | some v => v tAddr tLen sw

/-- Length and streaming width of the sub-access at `pos` (171-193); `curSw` is
the streaming width `gp` has from before. -/
def chunk (c : Cfg) (addr len sw pos curSw : Nat) : Nat × Nat :=
  let tAddr := addr + pos % sw
  let tLen := min (len - pos) (maxAddrRange c tAddr (naturalAlignment tAddr))
  if pos % sw ≠ 0 then
    let tLen := min tLen (sw - pos % sw)
    (tLen, tLen)
  else if sw ≠ len then
    if validates c tAddr tLen sw then (tLen, sw)
    else
      let tLen := min tLen (min (c.busWidth / 8) sw)
      (tLen, tLen)
  else (tLen, curSw)

/-- The sliding byte-enable window (158-166, 201-204). -/
def beWindow (be : List Bool) (pos : Nat) : List Bool :=
  ((be ++ be).drop (pos % be.length)).take be.length

/-- The sub-access issued at `pos`. -/
def subGp (g : Gp) (sw : Nat) (buf : List Byte) (pos : Nat) (ch : Nat × Nat) : Gp :=
  { cmd := g.cmd, addr := g.addr + pos % sw, data := (buf.drop pos).take ch.1,
    be := beWindow g.be pos, sw := ch.2 }

/-- The chop loop (168-212).  `none`: one of the asserts fails.  `buf` is the
initiator's buffer, `st` the response status `gp` currently holds. -/
def loop {σ : Type} (c : Cfg) (T : Target σ) (g : Gp) (sw : Nat) (pos curSw : Nat) (s : σ) (buf : List Byte)
    (st : Status) : Option (σ × List Byte × Status) :=
  if pos < g.len then
    let ch := chunk c g.addr g.len sw pos curSw
    if _h : 0 < ch.1 ∧ ch.1 ≤ c.maxLen then
      let r := T (subGp g sw buf pos ch) s
      let buf' := buf.take pos ++ r.2.1 ++ buf.drop (pos + ch.1)
      if r.2.2 ≠ .ok then some (r.1, buf', r.2.2)
      else loop c T g sw (pos + ch.1) ch.2 r.1 buf' r.2.2
    else none
  else some (s, buf, st)
termination_by g.len - pos
decreasing_by
  have h1 := _h.1
  simp only [ch] at h1
  omega

/-- `b_transport` (120-217).  `st` is the response status of `trans` on entry. -/
def transport {σ : Type} (c : Cfg) (T : Target σ) (g : Gp) (s : σ) (st : Status) :
    Option (σ × List Byte × Status) :=
  if fastPath c g then some (T g s)
  else loop c T g (effSw g) 0 g.sw s g.data st

end Verif.Aligner
