import Verif.RtlFifo.Spec

/-!
# How the AXI RTL slave bridge takes a request: model

A request on the AR or AW channel waits until it has a descriptor and a piece
of the data RAM, is then written to the descriptor for software to read, and
is accepted.

Files, in `/repo/rtl-bridges/pcie-host/axi/rtl/slave`:
* `txn_allocator.v`, the whole but for the two address allocators (which are
  `Verif.RtlRam`; their answers are inputs here),
* `grant_controller.v` with `EDGE_TYP` 1 (the same as the two of `ace/rtl`),
* `slave_inf.v` 809-935, the descriptor fields, and 971-1062, 2021-2120, the
  state machines of the AW and AR channels.

One `step` is one rising clock edge.  The FIFO of descriptors
(`txn_allocator.v` 302-314) is the queue `RtlFifo.fifo_is_queue` proves it to
be, with room for 16.

Simplifications: `MAX_DESC` is 16; the reset is the start state `reset` and
does not come back, and sets the outputs `rd_alc_valid`, `wr_alc_valid`,
`gnt_vld` and `gnt_idx` too, which the code leaves to the first clock edge;
vectors are functions of which indices 0 to 15 count; everything a request
carries (address, ID, length, attributes) is one value of a type `α`; the ID
FIFOs filled at the same time are left out.
-/

namespace Verif.RtlTxn

open RtlFifo (Queue)

/-- `wr_inf_state`, `rd_inf_state`. -/
inductive Inf where
  | idle | wait | fill | done
  deriving DecidableEq, Repr

/-- `rd_txn_state`, `wr_txn_state`, `txn_allocator.v` 81-89. -/
inductive Got where
  | idle | desc | addr | both
  deriving DecidableEq, Repr

/-- The registers of one of the two channels. -/
structure Side where
  /-- `slave_inf.v`: the state, `wr_txn_valid`, `awready`,
  `wr_alc_idx_current` -/
  inf : Inf
  valid : Bool
  ready : Bool
  cur : Nat
  /-- `txn_allocator.v`: `wr_txn_valid_ff`, `wr_desc_txn_valid`,
  `wr_desc_fifo`, `wr_desc_alc_valid` -/
  validFf : Bool
  req : Bool
  fifo : Bool
  alc : Bool
  /-- `wr_txn_state`, `wr_alc_valid`, `wr_alc_idx`, `wr_alc_offset` -/
  got : Got
  alcValid : Bool
  idx : Nat
  off : Nat

def Side.reset : Side :=
  { inf := .idle, valid := false, ready := false, cur := 0, validFf := false, req := false, fifo := false,
    alc := false, got := .idle, alcValid := false, idx := 0, off := 0 }

/-- What one channel gets in a cycle: the request on the wires, if one is
valid, and the answer of its address allocator. -/
structure Chan (α : Type) where
  req : Option α
  addr : Option Nat

/-- `wr_inf_state`, `slave_inf.v` 986-1062 and 2037-2118. -/
def infNext {α : Type} (s : Side) (i : Chan α) : Inf :=
  match s.inf with
  | .idle => if i.req.isSome && !s.ready && !s.valid then .wait else .idle
  | .wait => if s.valid && s.alcValid then .fill else .wait
  | .fill => if i.req.isSome && s.ready then .done else .fill
  | .done => .idle

/-- `wr_txn_valid`, lines 992, 1003. -/
def validNext {α : Type} (s : Side) (i : Chan α) : Bool :=
  match s.inf with
  | .idle => if i.req.isSome && !s.ready && !s.valid then true else s.valid
  | .wait => if s.valid && s.alcValid then false else s.valid
  | _ => s.valid

/-- `awready`, lines 1006, 1022. -/
def readyNext {α : Type} (s : Side) (i : Chan α) : Bool :=
  match s.inf with
  | .wait => if s.valid && s.alcValid then true else s.ready
  | .fill => if i.req.isSome && s.ready then false else s.ready
  | _ => s.ready

/-- `wr_desc_txn_valid`, `txn_allocator.v` 222-232, 244-254. -/
def reqNext (s : Side) : Bool :=
  if s.fifo then false else if s.valid && !s.validFf then true else s.req

/-- `rd_txn_state` and `rd_alc_valid`, lines 426-472, 508-554. -/
def gotNext {α : Type} (s : Side) (i : Chan α) : Got × Bool :=
  match s.got with
  | .idle =>
    match i.addr.isSome, s.alc with
    | false, false => (.idle, false)
    | false, true => (.desc, false)
    | true, false => (.addr, false)
    | true, true => (.both, true)
  | .desc => if i.addr.isSome then (.both, true) else (.desc, false)
  | .addr => if s.alc then (.both, true) else (.addr, false)
  | .both => (.idle, false)

/-- One cycle of a channel.  `sel` is whether the FIFO is to be read for it
and `dout` the output of the FIFO; `idx` and `off` are lines 402-416. -/
def Side.step {α : Type} (s : Side) (i : Chan α) (sel : Bool) (dout : Option Nat) : Side where
  inf := infNext s i
  valid := validNext s i
  ready := readyNext s i
  cur := if s.inf = .wait ∧ s.valid = true ∧ s.alcValid = true then s.idx else s.cur
  validFf := s.valid
  req := reqNext s
  fifo := sel
  alc := s.fifo
  got := (gotNext s i).1
  alcValid := (gotNext s i).2
  idx := if s.alc then dout.getD 0 else s.idx
  off := i.addr.getD s.off

/-- What software reads in a descriptor: whether it is a read
(`int_desc_n_txn_type_wr_rd`), the place in the data RAM
(`int_desc_n_data_offset_addr`) and the rest. -/
structure Fields (α : Type) where
  read : Bool
  off : Nat
  req : Option α
  deriving DecidableEq

/-- The inputs of a cycle: the ownership and busy registers and the two
channels. -/
structure In (α : Type) where
  own : Nat → Bool
  busy : Nat → Bool
  r : Chan α
  w : Chan α

/-- The registers. -/
structure Regs (α : Type) where
  r : Side
  w : Side
  /-- `int_ownership_own_ff`, `desc_freeup` -/
  ownFf : Nat → Bool
  freeup : Nat → Bool
  /-- `grant_controller.v`: `din_ff`, `req_pos`, `gnt_vld`, `gnt_idx` -/
  dinFf : Nat → Bool
  req : Nat → Bool
  gvld : Bool
  gidx : Nat
  /-- the FIFO, `DESC_rden` -/
  q : Queue Nat
  rden : Bool
  /-- `wr_alc_valid_ff`, `wr_alc_idx_ff` of `slave_inf.v`, whose
  `wr_txn_valid_ff` is that of `txn_allocator.v` -/
  wAlcFf : Bool
  wIdxFf : Nat
  /-- the descriptors -/
  desc : Nat → Option (Fields α)

def reset {α : Type} : Regs α :=
  { r := .reset, w := .reset, ownFf := fun _ => false, freeup := fun _ => false, dinFf := fun _ => false,
    req := fun _ => false, gvld := false, gidx := 0, q := ⟨[], none⟩, rden := false, wAlcFf := false, wIdxFf := 0,
    desc := fun _ => none }

/-- The lowest bit set: `gnt_arb`, `grant_controller.v` 188-245. -/
def lowest (f : Nat → Bool) : Option Nat := (List.range 16).find? f

/-- `req_pos`, `grant_controller.v` 137-143. -/
def grantReq {α : Type} (s : Regs α) (j : Nat) : Bool :=
  if s.req j then !decide (lowest s.req = some j) else s.freeup j && !s.dinFf j

/-- `desc_freeup`, `txn_allocator.v` 170-183. -/
def freeupNext {α : Type} (s : Regs α) (i : In α) (j : Nat) : Bool :=
  i.own j && !s.ownFf j && !i.busy j

/-- For which channel the FIFO is read next, true for the reads: `DESC_rden`,
`rd_desc_fifo`, `wr_desc_fifo`, lines 257-291. -/
def pick {α : Type} (s : Regs α) : Option Bool :=
  if s.rden then none
  else if s.q.items.isEmpty then none
  else match s.w.req, s.r.req with
    | false, false => none
    | false, true => some true
    | true, false => some false
    | true, true => some true

/-- The descriptors, `slave_inf.v` 850-934. -/
def descNext {α : Type} (s : Regs α) (i : In α) (j : Nat) : Option (Fields α) :=
  if s.r.valid && s.r.alcValid then
    if j = s.r.idx then some { read := true, off := s.r.off, req := i.r.req } else s.desc j
  else if s.w.valid && s.w.alcValid then
    if j = s.w.idx then some { read := false, off := s.w.off, req := i.w.req } else s.desc j
  else if s.w.validFf && s.wAlcFf then
    if j = s.wIdxFf then some { read := false, off := s.w.off, req := i.w.req } else s.desc j
  else s.desc j

/-- One cycle. -/
def step {α : Type} (s : Regs α) (i : In α) : Regs α where
  r := s.r.step i.r (decide (pick s = some true)) s.q.last
  w := s.w.step i.w (decide (pick s = some false)) s.q.last
  ownFf := i.own
  freeup := freeupNext s i
  dinFf := s.freeup
  req := grantReq s
  gvld := (lowest s.req).isSome
  gidx := (lowest s.req).getD 0
  q := s.q.next 16 ⟨s.gvld, s.rden, s.gidx⟩
  rden := (pick s).isSome
  wAlcFf := s.w.alcValid
  wIdxFf := s.w.idx
  desc := descNext s i

end Verif.RtlTxn
