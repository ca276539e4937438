import Verif.RtlFifo.Spec

/-!
# The receiving channels of the ACE RTL bridges: model

What comes in on a channel goes through a FIFO, gets a descriptor which
software has given to the bridge, is written to its registers, and the index of
the descriptor goes to a FIFO from which software takes it.  One module does
this for read requests and snoop responses of the slave bridge, and for write
responses and snoop requests of the master bridge.

Files, in `/repo/rtl-bridges/pcie-host/ace/rtl/common`:
* `ace_ctrl_ready.v`, the channels `SLV_RD_REQ`, `SLV_SN_RESP`, `MST_SN_REQ`
  and `MST_WR_RESP`, which have no data and for which `infbus_last` is 1 (50),
* `ace_desc_allocator.v`, the whole,
* `grant_controller.v` with `EDGE_TYP` 1.

One `step` is one rising clock edge.  The FIFOs are the queues
`RtlFifo.fifo_is_queue` proves them to be; no early output is used on these
channels.

Simplifications: `MAX_DESC` is 16; the reset is the start state and does not
come back, and sets `desc_alc_valid` too, which the code leaves to the first
clock edge; vectors are functions of which indices 0 to 15 count; `req_avail`
and `xack_done`, in which never more than one bit is set, are an index or
nothing; everything a transfer carries is one value of a type `α`; full ACE;
`DESC_rden` and `desc_fifo`, which are assigned the same, are one register.
-/

namespace Verif.RtlAceRecv

open RtlFifo (Queue)

/-- `late` for `MST_WR_RESP`, where the acknowledge is given first (1291, 1372). -/
structure Cfg where
  late : Bool

structure In (α : Type) where
  /-- `desc_avail` -/
  own : Nat → Bool
  /-- `infbus_valid` with `infbus` -/
  req : Option α
  /-- `fifo_rden` -/
  pop : Bool

/-- `usr_state`; the states for more than one transfer are not reached. -/
inductive St where
  | idle | wait | txn | new
  deriving DecidableEq, Repr

structure Regs (α : Type) where
  /-- `infbus_ready`; `USR_wren` with `USR_din`; `USR_fifo`, `USR_rden` -/
  ready : Bool
  push : Option α
  usr : Queue α
  rden : Bool
  /-- `usr_state`, `xx_txn_valid`, `xx_idx` -/
  st : St
  valid : Bool
  idx : Nat
  /-- `req_avail`, `xack_done`, `inf_xack`, `descbus` -/
  avail : Option Nat
  xdone : Option Nat
  ack : Bool
  desc : Nat → Option α
  /-- `ace_desc_allocator.v`: `desc_avail_ff`, `desc_freeup` -/
  ownFf : Nat → Bool
  freeup : Nat → Bool
  /-- `grant_controller.v`: `din_ff`, `req_pos`, `gnt_vld`, `gnt_idx` -/
  dinFf : Nat → Bool
  greq : Nat → Bool
  gvld : Bool
  gidx : Nat
  /-- `DESC_fifo`; `txn_valid_ff`, `desc_txn_valid`, `DESC_rden`,
  `desc_alc_valid` -/
  q : Queue Nat
  validFf : Bool
  dreq : Bool
  drden : Bool
  alc : Bool
  /-- `ORDER_wren` with `ORDER_din`; `ORDER_fifo`, `ORDER_rden_ff` -/
  o : Option Nat
  oq : Queue Nat
  oFf : Bool

section
variable {α : Type}

def reset : Regs α :=
  { ready := false, push := none, usr := ⟨[], none⟩, rden := false, st := .idle, valid := false, idx := 0, avail := none, xdone := none,
    ack := false, desc := fun _ => none, ownFf := fun _ => false, freeup := fun _ => false, dinFf := fun _ => false, greq := fun _ => false,
    gvld := false, gidx := 0, q := ⟨[], none⟩, validFf := false, dreq := false, drden := false, alc := false, o := none, oq := ⟨[], none⟩,
    oFf := false }

/-- `USR_fifo`, 882-903, with room for eight. -/
def usrNext (s : Regs α) : Queue α :=
  match s.push with
  | some x => s.usr.next 8 ⟨true, s.rden, x⟩
  | none => ⟨if s.rden then s.usr.items.drop 1 else s.usr.items, if s.rden && !s.usr.items.isEmpty then s.usr.items.head? else s.usr.last⟩

/-- The allocator answers, 1051. -/
def answered (s : Regs α) : Bool := s.valid && s.alc

/-- `usr_state`, 994-1110. -/
def stNext (s : Regs α) : St :=
  match s.st with
  | .idle => if !s.usr.items.isEmpty && !s.valid then .wait else .idle
  | .wait => if answered s then .txn else .wait
  | .txn => .new
  | .new => .idle

/-- `xx_txn_valid`, 998, 1007 and 1053. -/
def validNext (s : Regs α) : Bool :=
  match s.st with
  | .idle => !s.usr.items.isEmpty && !s.valid
  | .wait => if answered s then false else s.valid
  | _ => s.valid

/-- `USR_rden`, 1056 and 1066. -/
def rdenNext (s : Regs α) : Bool :=
  match s.st with
  | .wait => answered s
  | _ => false

/-- `xx_idx`, 1055. -/
def idxNext (s : Regs α) : Nat :=
  match s.st with
  | .wait => if answered s then s.q.last.getD 0 else s.idx
  | _ => s.idx

/-- `req_avail`, 954 and 1124. -/
def availNext (s : Regs α) : Option Nat :=
  match s.st with
  | .idle => none
  | .new => some s.idx
  | _ => s.avail

/-- `descbus`, 1097. -/
def descNext (s : Regs α) : Nat → Option α := fun k =>
  match s.st with
  | .new => if k = s.idx then s.usr.last else s.desc k
  | _ => s.desc k

/-- The lowest bit set: `gnt_arb`, `grant_controller.v` 188-245. -/
def lowest (f : Nat → Bool) : Option Nat := (List.range 16).find? f

/-- `req_pos`, `grant_controller.v` 137-143. -/
def greqNext (s : Regs α) (j : Nat) : Bool :=
  if s.greq j then !decide (lowest s.greq = some j) else s.freeup j && !s.dinFf j

/-- `desc_freeup`, `ace_desc_allocator.v` 95-106. -/
def freeupNext (s : Regs α) (i : In α) (j : Nat) : Bool := i.own j && !s.ownFf j

/-- `desc_txn_valid`, 150-159. -/
def dreqNext (s : Regs α) : Bool := if s.drden then false else if s.valid && !s.validFf then true else s.dreq

/-- `DESC_rden`, 163-178. -/
def drdenNext (s : Regs α) : Bool := !s.drden && !s.q.items.isEmpty && s.dreq

/-- `ORDER_rden`, `ace_ctrl_ready.v` 1278. -/
def oPop (s : Regs α) (i : In α) : Bool := !s.oq.items.isEmpty && i.pop

/-- One clock edge; `ready` and `push` are 854-878, `ack` 1291, `xdone` 1372, `o` 1241-1248. -/
def step (c : Cfg) (s : Regs α) (i : In α) : Regs α :=
  { ready := !decide (6 ≤ s.usr.items.length)
    push := if s.ready then i.req else none
    usr := usrNext s
    rden := rdenNext s
    st := stNext s
    valid := validNext s
    idx := idxNext s
    avail := availNext s
    xdone := if c.late then s.avail else none
    ack := c.late && s.avail.isSome
    desc := descNext s
    ownFf := i.own
    freeup := freeupNext s i
    dinFf := s.freeup
    greq := greqNext s
    gvld := (lowest s.greq).isSome
    gidx := (lowest s.greq).getD 0
    q := s.q.next 16 ⟨s.gvld, s.drden, s.gidx⟩
    validFf := s.valid
    dreq := dreqNext s
    drden := drdenNext s
    alc := s.drden
    o := if c.late then s.xdone else s.avail
    oq := s.oq.next 16 ⟨s.o.isSome, oPop s i, s.o.getD 0⟩
    oFf := oPop s i }

/-- What software gets from the FIFO, 1280-1282: `fifo_dout` with
`fifo_dout_valid`. -/
def shown (s : Regs α) : Option Nat := if s.oFf then some (s.oq.last.getD 0) else none

end

end Verif.RtlAceRecv
