/-!
# The synchronous FIFO of the RTL bridges: model

`/repo/rtl-bridges/pcie-host/axi/rtl/common/sync_fifo.v` (the same text, but
for white space, as `ace/rtl/common/sync_fifo.v`).

One `step` is one rising clock edge.  A value of `none` is an unknown value
(`X`): what the memory holds before it is written, and what a read outside
the memory gives.

Simplifications: the reset is the start state `reset` and does not come back;
`empty_ff`, which nothing reads, is left out.
-/

namespace Verif.RtlFifo

/-- The parameters: `DEPTH`, `CLOG2(DEPTH)` (line 56, `defines_common.vh`
29-48), and the two thresholds (lines 35-36).  `cut` says what becomes of the
index `rd_ptr+1` on line 81: the expression is as wide as the literal, 32
bits, so by the rules of the language it leaves the memory when the pointer
is at the last location (`cut := false`); a synthesised memory has only as
many address lines as it needs (`cut := true`). -/
structure Cfg where
  depth : Nat
  bits : Nat
  cut : Bool
  almostFull : Nat
  almostEmpty : Nat

/-- The inputs of a cycle, lines 40-42. -/
structure In (α : Type) where
  wren : Bool
  rden : Bool
  din : α

/-- The registers, lines 43-48, 59-61. -/
structure Regs (α : Type) where
  mem : Nat → Option α
  rd : Nat
  wr : Nat
  cnt : Nat
  empty : Bool
  full : Bool
  pre : Option α
  preValid : Bool
  dout : Option α

/-- Lines 77, 93-98, 128, 154-155.  `dout` and `dout_pre` are set to 0,
which is no element: `none` here. -/
def reset {α : Type} : Regs α where
  mem := fun _ => none
  rd := 0
  wr := 0
  cnt := 0
  empty := true
  full := false
  pre := none
  preValid := false
  dout := none

/-- `buf_mem[i]` as a value, lines 61, 81, 84, 132. -/
def read {α : Type} (c : Cfg) (s : Regs α) (i : Nat) : Option α :=
  if i < c.depth then s.mem i else none

/-- The index `rd_ptr+1` of line 81. -/
def ahead {α : Type} (c : Cfg) (s : Regs α) : Nat :=
  if c.cut then (s.rd + 1) % 2 ^ c.bits else s.rd + 1

/-- One cycle, lines 74-165.  A write outside the memory is lost. -/
def step {α : Type} (c : Cfg) (s : Regs α) (i : In α) : Regs α :=
  let w := !s.full && i.wren
  let r := !s.empty && i.rden
  { mem := fun k => if w && k == s.wr && decide (k < c.depth) then some i.din else s.mem k
    rd := if r then (s.rd + 1) % 2 ^ c.bits else s.rd
    wr := if w then (s.wr + 1) % 2 ^ c.bits else s.wr
    cnt :=
      if w && r then s.cnt
      else if w then (s.cnt + 1) % 2 ^ (c.bits + 1)
      else if r then (s.cnt + 2 ^ (c.bits + 1) - 1) % 2 ^ (c.bits + 1)
      else s.cnt
    empty :=
      if w && r then s.empty
      else if w then false
      else if r then decide (s.cnt / 2 = 0) && decide (s.cnt % 2 = 1)
      else s.empty
    full :=
      if w && r then s.full
      else if w then decide (s.cnt / 2 ^ c.bits = 0) && decide (s.cnt % 2 ^ c.bits = 2 ^ c.bits - 1)
      else if r then false
      else s.full
    pre := if r then read c s (ahead c s) else read c s s.rd
    preValid := if w && r then !s.empty else if w then !s.empty else if r then !s.empty && !decide (s.cnt / 2 = 0) else !s.empty
    dout := if r then read c s s.rd else s.dout }

/-- Lines 64-68. -/
def almostEmpty {α : Type} (c : Cfg) (s : Regs α) : Bool := decide (s.cnt ≤ c.almostEmpty)

/-- Lines 64-68. -/
def almostFull {α : Type} (c : Cfg) (s : Regs α) : Bool := decide (s.cnt ≤ c.depth) && decide (s.cnt ≥ c.almostFull)

def run {α : Type} (c : Cfg) (s : Regs α) : List (In α) → Regs α
  | [] => s
  | i :: t => run c (step c s i) t

end Verif.RtlFifo
