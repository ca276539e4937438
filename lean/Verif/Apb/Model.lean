import Verif.Base.Tlm
/-
The TLM to APB bridge: `/repo/tlm-bridges/tlm2apb-bridge.h` 66-126.

The bus is described by what a slave samples at the rising clock edges. One
process at a time uses the bridge (its signals have one writer).
-/
namespace Verif.Apb
open Verif

/-- The bridge's outputs. -/
structure Pins where
  psel : Bool
  penable : Bool
  pwrite : Bool
  paddr : Nat
  pwdata : Nat
  deriving DecidableEq, Repr

def idle : Pins := ⟨false, false, false, 0, 0⟩

/-- What the slave drives at a rising edge during the access phase. -/
structure Sample where
  pready : Bool
  prdata : Nat
  deriving DecidableEq, Repr

/-- A rising edge as both sides see it. -/
structure Edge where
  pins : Pins
  pready : Bool
  deriving DecidableEq, Repr

/-- The state of the call at the end of the samples given. -/
inductive Res
  /-- Returned with this status and buffer. -/
  | done (st : Status) (data : List Byte)
  /-- Still waiting for `pready`. -/
  | waiting
  deriving DecidableEq, Repr

/-- The loop of the access phase (114-124): the edges, the pins afterwards, the
result. The buffer is overwritten at every edge of a read. -/
def accessPhase (cmd : Cmd) (pins : Pins) (data : List Byte) : List Sample → List Edge × Pins × Res
  | [] => ([], pins, .waiting)
  | s :: ss =>
    let data' := if cmd = .read then leEnc 4 s.prdata else data
    if s.pready then
      ([⟨pins, true⟩], { pins with psel := false, penable := false }, .done .ok data')
    else
      let r := accessPhase cmd { pins with psel := true, penable := true } data' ss
      (⟨pins, false⟩ :: r.1, r.2)

/-- `b_transport` (71-125). `beNull`: no byte enable pointer; `aw`, `dw`: address
and data width; `p`: the pins before; `d`: the rising edges that pass during
`wait(delay)` (107); `ss`: what the slave drives at the edges of the access
phase. `pready` is not looked at before. -/
def transport (aw dw : Nat) (p : Pins) (beNull : Bool) (g : Gp) (d : Nat) (ss : List Sample) :
    List Edge × Pins × Res :=
  if !beNull then ([], p, .done .byteEnable g.data)
  else if g.len ≠ 4 ∨ g.sw < g.len then ([], p, .done .burst g.data)
  else
    let wr := decide (g.cmd = .write)
    let setup : Pins :=
      ⟨true, p.penable, wr, g.addr % 2 ^ aw, (if wr then leDec g.data else 0) % 2 ^ dw⟩
    let r := accessPhase g.cmd { setup with penable := true } g.data ss
    (List.replicate (d + 1) ⟨setup, false⟩ ++ r.1, r.2)

end Verif.Apb
