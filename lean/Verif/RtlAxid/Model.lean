/-!
The store of AXI IDs of the RTL master bridges:
`/repo/rtl-bridges/pcie-host/axi/rtl/common/axid_store.v` (the same, but for
names, as `ace/rtl/master/ace_axid_store.v`) with
`axi/rtl/common/grant_controller_master.v`.

For every ID in flight there is a FIFO with the descriptors of its requests.
A request whose ID has no FIFO gets an empty one.

One step is one rising clock edge.  Reset is the state at the start.

Simplifications: a FIFO (`sync_fifo.v`) is a list, as `Verif.RtlFifo` proves
of it; one FIFO is read in a cycle; an ID and a descriptor are numbers; the
output `desc_allocation_in_progress` is left out.
-/

namespace Verif.RtlAxid

/-- What comes in: a request is accepted (`axnext`), the ID (`m_axi_usr_axid`)
and descriptor (`desc_req_id`) on the wires, and the FIFO which is read
(`axid_read_en`). -/
structure In where
  next : Bool
  id : Nat
  desc : Nat
  pop : Option Nat

/-- The registers. -/
structure Regs where
  /-- the FIFOs -/
  q : Nat → List Nat
  /-- `fifo_id_reg`, `fifo_id_reg_valid_ff` -/
  id : Nat → Nat
  valid : Nat → Bool
  /-- `axid_write_en_reg`, `send_transfer`, `axid_write_en_reg_allocate` -/
  wen : Nat → Bool
  send : Nat → Bool
  alloc : Nat → Bool
  /-- `req_pos` and `gnt_idx` of the grant controller,
  `fifo_id_reg_valid_allocate_ff` -/
  req : Nat → Bool
  idx : Nat
  free : Nat

def reset : Regs where
  q := fun _ => []
  id := fun _ => 0
  valid := fun _ => false
  wen := fun _ => false
  send := fun _ => false
  alloc := fun _ => false
  req := fun _ => false
  idx := 0
  free := 0

/-- The ID is that of a FIFO in use, line 270. -/
def hits (s : Regs) (i : In) (k : Nat) : Bool := i.next && decide (i.id = s.id k) && s.valid k

/-- No FIFO was found: line 297. -/
def unknown (n : Nat) (s : Regs) : Bool := (List.range n).all s.send

/-- The FIFOs, lines 182-218; `axid_write_en_reg_combined` is on lines
307-308.  A full FIFO takes nothing. -/
def qNext (n : Nat) (s : Regs) (i : In) (k : Nat) : List Nat :=
  let rest := if i.pop = some k then (s.q k).tail else s.q k
  if (s.wen k || s.alloc k) && decide ((s.q k).length < n) then rest ++ [i.desc] else rest

/-- Lines 260-285. -/
def sendNext (s : Regs) (i : In) (k : Nat) : Bool := if hits s i k then s.send k else i.next

/-- Lines 289-305: the ID of the new FIFO. -/
def idNext (n : Nat) (s : Regs) (i : In) (k : Nat) : Nat :=
  if unknown n s && decide (k = s.free) then i.id else s.id k

/-- Lines 289-305: the new FIFO is written. -/
def allocNext (n : Nat) (s : Regs) (k : Nat) : Bool :=
  if unknown n s then (if k = s.free then true else s.alloc k) else false

/-- The lowest empty FIFO, `grant_controller_master.v` 118-124, 158-222. -/
def idxNext (n : Nat) (s : Regs) : Nat := ((List.range n).find? s.req).getD 0

/-- One cycle.  The other registers are lines 310-322 and, in the grant
controller, 118-124. -/
def step (n : Nat) (s : Regs) (i : In) : Regs where
  q := qNext n s i
  id := idNext n s i
  valid := fun k => !(s.q k).isEmpty
  wen := hits s i
  send := sendNext s i
  alloc := allocNext n s
  req := fun k => !s.valid k
  idx := idxNext n s
  free := s.idx

end Verif.RtlAxid
