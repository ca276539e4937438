import Verif.Cxs.Flit
import Verif.ChiHw.Model
/-!
# The CXS hardware bridge

Models `/repo/rtl-bridges/pcie-host/cxs/tlm/tlm2cxs-hw-bridge.h`: a class that moves CCIX
packets between TLM sockets and a CXS bridge in hardware, through 15 descriptors in each
direction. Packets, flits and their reassembly are those of `Verif.Cxs` (the same
`pkts.h`; `processRxCntl` and `processRxData` have the text of `rxlink.h`).

Register accesses are atomic; between any two of them every other process and the
hardware may run. The hardware (`/repo/rtl-bridges/pcie-host/cxs/rtl/common`) is modelled
by what its registers and memories do, not by its clock cycles. Not modelled: link
activation and credits (a flit arrives only into a free descriptor), low power mode,
`bridge_configure`, time.
-/

namespace Verif.CxsHw
open Verif.Cxs (Cfg Msg Hdr Tlp Asm fill rxFlit tlpBytes)
open Verif.ChiHw (clearNext upd)

/-- A flit: its bytes, bits 7 to 0 first, and its control word. -/
abbrev Flit := List Byte × BitVec 64

/-- `NUM_RX_DESC_EN`, `NUM_TX_DESC_EN` (45-46). -/
def ndesc : Nat := 15

/-- `FW` (166). -/
def fw (c : Cfg) : Nat := 4 * c.words

/-- `FCW` (171). -/
def fcw (c : Cfg) : Nat := if c.cntlW > 32 then 8 else 4

/-- `to_regs` (177-185). -/
def toRegs (len : Nat) : Nat := len / 4 + if len % 4 ≠ 0 then 1 else 0

/-! ## Words -/

/-- Word `i` of the flit: `txdata.range(32 * i + 31, 32 * i).to_uint()` (208-220). -/
def dataWord (d : List Byte) (i : Nat) : BitVec 32 :=
  (d.getD (4 * i + 3) 0 ++ d.getD (4 * i + 2) 0 ++ d.getD (4 * i + 1) 0 ++ d.getD (4 * i) 0 : BitVec 32)

/-- `cntl.to_uint64() >> shift`, cut to 32 bits (225-230). -/
def cntlWord (w : BitVec 64) (i : Nat) : BitVec 32 := (w >>> (32 * i)).setWidth 32

/-- Bytes of a word, least significant first (`TLPAssembler::PushBack`, pkts.h
1724-1730). -/
def wordBytes (v : BitVec 32) : List Byte :=
  [v.extractLsb' 0 8, v.extractLsb' 8 8, v.extractLsb' 16 8, v.extractLsb' 24 8]

/-- The loop over the control words (412-420): `rx_cntl |= r << shift` with `r` of 32
bits. `none`: a shift by 32 or more (undefined). -/
def gather : Nat → List (BitVec 32) → Option (BitVec 64)
  | _, [] => some 0
  | i, r :: rs => if i * 32 < 32 then (gather (i + 1) rs).map ((r <<< (i * 32)).setWidth 64 ||| ·) else none

/-! ## Addresses and memories -/

/-- A word of a descriptor. -/
inductive Slot where
  | data (d w : Nat)
  | cntl (d w : Nat)
deriving DecidableEq, Repr

/-- `TX_BASE_DATA`, `TX_BASE_CNTL`, `RX_BASE_DATA`, `RX_BASE_CNTL` (cxs-regs.h 94-98). -/
def txBaseData : Nat := 0x4100
def txBaseCntl : Nat := 0x4C00
def rxBaseData : Nat := 0x3100
def rxBaseCntl : Nat := 0x3C00

/-- Word `i` of descriptor `d`: `base + d * size + i * 4` (195-196, 219, 228; 390-391, 404,
413). -/
def slotAddr (base size d i : Nat) : Nat := base + d * size + i * 4

/-- `BASE_DATA_LSW`, `BASE_DATA_LSB` (cxs_register_interface.v 1630-1635). -/
def lsw (words : Nat) : Nat := if words = 8 then 8 else if words = 16 then 4 else if words = 32 then 2 else 0
def lsb (words : Nat) : Nat := if words = 8 then 5 else if words = 16 then 6 else if words = 32 then 7 else 0

/-- The address decoder (cxs_register_interface.v 1649-1670, 1725-1728 for reads;
1973-1990, 2033-2035 for writes): page in bits 15:12, then data in 0x100 to 0x8ff and
control words in 0xc00 to 0xcff. -/
def decode (c : Cfg) (page a : Nat) : Option Slot :=
  if a / 4096 % 16 ≠ page then none
  else if 1 ≤ a / 256 % 16 ∧ a / 256 % 16 ≤ 8 then
    if lsw c.words ≤ a % 4096 / 2 ^ lsb c.words ∧ a % 4096 / 2 ^ lsb c.words ≤ lsw c.words + 0xE then
      some (.data (a % 4096 / 2 ^ lsb c.words - lsw c.words) (a / 4 % c.words))
    else none
  else if a / 256 % 16 = 0xC then
    if fcw c = 4 then some (.cntl (a / 4 % 16) 0) else some (.cntl (a / 8 % 16) (a / 4 % 2))
  else none

/-- The descriptor memories of one direction. -/
abbrev Ram := Slot → BitVec 32

def Ram.write (c : Cfg) (m : Ram) (a : Nat) (v : BitVec 32) : Ram :=
  match decode c 4 a with
  | some s => fun s' => if s' = s then v else m s'
  | none => m

def Ram.read (c : Cfg) (m : Ram) (a : Nat) : BitVec 32 :=
  match decode c 3 a with
  | some s => m s
  | none => 0

/-- The flit the hardware sends from a descriptor (cxs_register_interface.v 2088-2130):
its words side by side, the control word cut to its width. -/
def hwFlit (c : Cfg) (m : Ram) (d : Nat) : Flit :=
  ((List.range c.words).flatMap fun i => wordBytes (m (.data d i)),
   (((m (.cntl d 0)).setWidth 64 ||| if fcw c = 8 then (m (.cntl d 1)).setWidth 64 <<< 32 else 0).setWidth c.cntlW).setWidth 64)

/-- What the hardware stores of a flit received (cxs_register_interface.v 1900-1945). -/
def hwStore (m : Ram) (d : Nat) (f : Flit) : Ram
  | .data d' i => if d' = d then dataWord f.1 i else m (.data d' i)
  | .cntl d' i => if d' = d then cntlWord f.2 i else m (.cntl d' i)

/-- The register writes of `SetupFlit` for descriptor `d` (193-231). -/
def flitWrites (c : Cfg) (d : Nat) (f : Flit) : List (Nat × BitVec 32) :=
  ((List.range (toRegs (fw c))).map fun i => (slotAddr txBaseData (fw c) d i, dataWord f.1 i)) ++
  ((List.range (toRegs (fcw c))).map fun i => (slotAddr txBaseCntl (fcw c) d i, cntlWord f.2 i))

/-- The addresses read by `receive_flit` for descriptor `d` (403-420). -/
def flitReads (c : Cfg) (d : Nat) : List Nat :=
  ((List.range (toRegs (fw c))).map fun i => slotAddr rxBaseData (fw c) d i) ++
  ((List.range (toRegs (fcw c))).map fun i => slotAddr rxBaseCntl (fcw c) d i)

/-! ## Everything going on -/

/-- Where a call of `b_transport` on `txlink_tgt_socket` (265-280) is. -/
inductive Call where
  | idle
  /-- before `m_mutex.lock()` (241) -/
  | wants (m : Msg)
  /-- at the head of the loop (245) -/
  | filling (t : Tlp) (flip : BitVec 32)
  /-- in `SetupFlit`, register writes left (251) -/
  | writing (t : Tlp) (flip : BitVec 32) (ws : List (Nat × BitVec 32))
  /-- before the write of the ownership register (256) -/
  | flipping (flip : BitVec 32)
  /-- before the test of `m_txDone` (258) -/
  | checking
  /-- in `wait(m_txDoneEvent)` (259) -/
  | waiting
  /-- woken up, about to unlock (262) -/
  | ready
deriving DecidableEq, Repr

/-- Where `work_thread` (478-526) is. -/
inductive Work where
  /-- before the status is read (487-502) -/
  | idle
  /-- it was read (502): transmit and receive flag -/
  | seen (t r : Bool)
  /-- and cleared (504) -/
  | cleared (t r : Bool)
  /-- before the ownership register is read (518) -/
  | owning
  /-- at the head of the loop of `process_rx_flits` (450); `left` is `num_flits` -/
  | serving (left : BitVec 32)
  /-- in `receive_flit`, words read so far (403-420) -/
  | fetching (left : BitVec 32) (ws : List (BitVec 32))
  /-- at the head of the loop over the messages (455) -/
  | delivering (left : BitVec 32)
  /-- in `rxlink_init_socket->b_transport` (462-464) -/
  | handing (left : BitVec 32)
deriving DecidableEq, Repr

structure St where
  /-- transmitting hardware: memory, ownership, next descriptor, flit read but not yet on
  the link, flits put on the link, interrupt flag -/
  tmem : Ram
  own : BitVec 32
  rd : Nat
  reg : Option Flit
  out : List Flit
  tflag : Bool
  /-- receiving hardware: memory, ownership, next descriptor, flits arrived, interrupt
  flag -/
  rmem : Ram
  rown : BitVec 32
  wr : Nat
  arrived : List Flit
  rflag : Bool
  /-- `m_tx_idx`, `m_rx_idx`, `m_txDone`, owner of `m_mutex` -/
  tidx : Nat
  ridx : Nat
  done : Bool
  owner : Option Nat
  /-- the calls and the worker -/
  call : Nat → Call
  work : Work
  /-- `m_assemblers`, `m_ccixMsgs` -/
  asms : List Asm
  msgs : List Msg
  /-- for the statements: messages in the order in which they got the mutex, flits set up,
  flits read from the descriptors, messages handed to the socket -/
  sent : List Msg
  built : List Flit
  fetched : List Flit
  got : List Msg

def St.init : St :=
  { tmem := fun _ => 0, own := 0, rd := 0, reg := none, out := [], tflag := false, rmem := fun _ => 0, rown := 0,
    wr := 0, arrived := [], rflag := false, tidx := 0, ridx := 0, done := true, owner := none,
    call := fun _ => .idle, work := .idle, asms := [], msgs := [], sent := [], built := [], fetched := [], got := [] }

inductive Move where
  /-- process `p` calls `b_transport`; process 0 is the worker itself, in the handler of a
  message it hands over -/
  | call (p : Nat) (m : Msg)
  /-- the call of `p` goes on -/
  | step (p : Nat)
  /-- the worker goes on -/
  | work
  /-- the handler of the message returns -/
  | handled
  /-- the hardware reads a descriptor for sending -/
  | take
  /-- and puts it on the link -/
  | emit
  /-- a flit arrives from the link -/
  | arrive (f : Flit)
  /-- hardware and bridge are reset (528-545, 559-568) -/
  | reset

/-- The calls after `m_txDoneEvent.notify()`. -/
def wake (call : Nat → Call) : Nat → Call := fun p => match call p with | .waiting => .ready | x => x

/-- `transmitTLP` (233-263), one step. `none`: the process is waiting, or an assertion
failed in `CreateFlit`, or undefined behaviour in `to_uint64`. -/
def St.step (c : Cfg) (k : Hdr) (s : St) (p : Nat) : Option St :=
  match s.call p with
  | .idle => none
  | .wants m =>
    if s.owner = none then
      (tlpBytes k m).map fun b =>
        { s with owner := some p, done := false, sent := s.sent ++ [m], call := upd s.call p (.filling { bytes := b } 0) }
    else none
  | .filling t flip =>
    if t.done then some { s with call := upd s.call p (.flipping flip) }
    else
      (fill (List.replicate (fw c) 0) 0 t {}).bind fun r => (r.2.2.toWord c).map fun w =>
        { s with built := s.built ++ [(r.1, w)],
                 call := upd s.call p (.writing r.2.1 (flip ||| (1#32 <<< s.tidx)) (flitWrites c s.tidx (r.1, w))) }
  | .writing t flip [] => some { s with tidx := (s.tidx + 1) % ndesc, call := upd s.call p (.filling t flip) }
  | .writing t flip (w :: ws) =>
    some { s with tmem := s.tmem.write c w.1 w.2, call := upd s.call p (.writing t flip ws) }
  | .flipping flip => some { s with own := s.own ||| flip, call := upd s.call p .checking }
  | .checking =>
    if s.done then some { s with owner := none, call := upd s.call p .idle }
    else some { s with call := upd s.call p .waiting }
  | .waiting => none
  | .ready => some { s with owner := none, call := upd s.call p .idle }

/-- `work_thread`, one step. `none`: undefined behaviour or a failed assertion while a flit
is taken apart. The order of lines 422-427 (give the descriptor back, then take the flit
apart) cannot be told from one step. -/
def St.worker (c : Cfg) (k : Hdr) (s : St) : Option St :=
  match s.work with
  | .idle => some (if s.tflag || s.rflag then { s with work := .seen s.tflag s.rflag } else s)
  | .seen t r => some { s with tflag := s.tflag && !t, rflag := s.rflag && !r, work := .cleared t r }
  | .cleared t r =>
    let next := if r then Work.owning else Work.idle
    some (if t then { s with done := true, call := wake s.call, work := next } else { s with work := next })
  | .owning => some { s with work := .serving s.rown }
  | .serving left => some { s with work := if left = 0 then .idle else .fetching (clearNext left) [] }
  | .fetching left ws =>
    match (flitReads c s.ridx)[ws.length]? with
    | some a => some { s with work := .fetching left (ws ++ [s.rmem.read c a]) }
    | none =>
      (gather 0 (ws.drop (toRegs (fw c)))).bind fun w =>
        (rxFlit c k ((ws.take (toRegs (fw c))).flatMap wordBytes) w s.asms s.msgs).map fun r =>
          { s with rown := s.rown &&& ~~~(1#32 <<< s.ridx), ridx := (s.ridx + 1) % ndesc,
                   fetched := s.fetched ++ [((ws.take (toRegs (fw c))).flatMap wordBytes, w)],
                   asms := r.1, msgs := r.2, work := .delivering left }
  | .delivering left =>
    match s.msgs with
    | [] => some { s with work := .serving left }
    | m :: ms => some { s with msgs := ms, got := s.got ++ [m], work := .handing left }
  | .handing _ => some s

def Work.isHanding : Work → Bool
  | .handing _ => true
  | _ => false

/-- One move. The hardware sends when it owns any descriptor, taking the one after the
last; the transmit flag is set when it owns none any more (cxs_txflit_mgmt.v 66-165,
cxs_register_interface.v 1525-1559). A flit that arrives is stored into the descriptor after
the last (1868-1896). The handler returns when it has no call open. -/
def St.move (c : Cfg) (k : Hdr) (s : St) : Move → Option St
  | .call p m =>
    match s.call p with
    | .idle => if p ≠ 0 ∨ s.work.isHanding = true then some { s with call := upd s.call p (.wants m) } else none
    | _ => none
  | .step p => s.step c k p
  | .work => s.worker c k
  | .handled =>
    match s.work with
    | .handing left => if s.call 0 = .idle then some { s with work := .delivering left } else none
    | _ => none
  | .take =>
    match s.reg with
    | some _ => none
    | none =>
      if s.own = 0 then none
      else
        let own := s.own &&& ~~~(1#32 <<< s.rd)
        some { s with reg := some (hwFlit c s.tmem s.rd), own := own, rd := (s.rd + 1) % ndesc,
                      tflag := s.tflag || decide (own = 0) }
  | .emit =>
    match s.reg with
    | some f => some { s with reg := none, out := s.out ++ [f] }
    | none => none
  | .arrive f =>
    if s.rown.getLsbD s.wr = true then none
    else some { s with rmem := hwStore s.rmem s.wr f, rown := s.rown ||| (1#32 <<< s.wr), wr := (s.wr + 1) % ndesc,
                       rflag := true, arrived := s.arrived ++ [f] }
  | .reset => some { s with own := 0, rd := 0, reg := none, tflag := false, rown := 0, wr := 0, rflag := false,
                            tidx := 0, ridx := 0 }

def St.runs (c : Cfg) (k : Hdr) : St → List Move → Option St
  | s, [] => some s
  | s, m :: ms =>
    match s.move c k m with
    | some s' => St.runs c k s' ms
    | none => none

end Verif.CxsHw
