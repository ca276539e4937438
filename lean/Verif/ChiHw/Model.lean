import Verif.ChiFlit.Model
/-!
# The CHI hardware bridges

Models `/repo/rtl-bridges/pcie-host/chi/tlm/chi2tlm-hwb-rnf.h` (`chi2tlm`) and
`/repo/rtl-bridges/pcie-host/chi/tlm/tlm2chi-hwb-rnf.h` (`tlm2chi`): two classes that
move CHI flits between TLM sockets and a bridge in hardware, through 15
descriptors for each channel and direction. The two files have the same text up
to the names of the request and snoop channels; line numbers are those of
`chi2tlm`.

A flit of width `W` is a number below `2 ^ W` (`sc_bv<W>`). Register accesses are
atomic; their order is that of the code. The hardware
(`/repo/rtl-bridges/pcie-host/chi/rtl/common`) is modelled by what its registers and
descriptor memories do, not by its clock cycles. Not modelled: credits on the
link (a flit arrives only into a free descriptor), configuration, low power
mode, the coherency handshake, and the TLM packets around the flits (those are
in `Verif.ChiFlit`).
-/

namespace Verif.ChiHw

/-- The channels; `req` stands for the request and the snoop channel, which share
registers and memories (chi-regs.h 93-133). -/
inductive Ch where
  | req
  | rsp
  | dat
deriving DecidableEq, Repr

/-- `NUM_CREDITS` (37). -/
def credits : Nat := 15

/-- `TXSNP_DESC_SZ` … `RXDAT_DESC_SZ` (52-58). -/
def descSz : Ch → Nat
  | .req => 0x10
  | .rsp => 0x8
  | .dat => 0x60

/-- `RXREQ_RAM`, `RXRSP_RAM`, `RXDAT_RAM` (chi-regs.h 121-123). -/
def rxRam : Ch → Nat
  | .req => 0x3100
  | .rsp => 0x3400
  | .dat => 0x3600

/-- `TXSNP_RAM`, `TXRSP_RAM`, `TXDAT_RAM` (chi-regs.h 125-127). -/
def txRam : Ch → Nat
  | .req => 0x4100
  | .rsp => 0x4200
  | .dat => 0x4400

/-! ## Flits as words and bytes -/

/-- `to_bytes` (685-693). -/
def toBytes (len : Nat) : Nat := len / 8 + if len % 8 ≠ 0 then 1 else 0

/-- `to_regs` (695-703). -/
def toRegs (len : Nat) : Nat := len / 32 + if len % 32 ≠ 0 then 1 else 0

/-- `flit.range(last, first).to_uint()` of SystemC. -/
def rangeOf (f last first : Nat) : Nat := f / 2 ^ first % 2 ^ (last + 1 - first)

/-- One step of the loop of `transmitRspPkt` (196-208, the same at 247-259 and
298-310): the value written into word `i`. -/
def flitWord (W f i : Nat) : BitVec 32 :=
  BitVec.ofNat 32 (rangeOf f (if 32 * i + 31 ≥ W then W - 1 else 32 * i + 31) (32 * i))

/-- Digits put side by side: `g 0 + g 1 * 2 ^ k + … `, `n` of them. -/
def digits (k : Nat) (g : Nat → Nat) : Nat → Nat
  | 0 => 0
  | n + 1 => digits k g n + g n * 2 ^ (k * n)

/-- Byte `i` of an array of bytes filled with 32-bit words, least significant byte
first (a little-endian host). -/
def byteOf (ws : List (BitVec 32)) (i : Nat) : Nat := (ws.getD (i / 4) 0).toNat / 2 ^ (8 * (i % 4)) % 256

/-- The second loop of `get_rxreq` (430-439, the same at 495-504 and 572-581): byte
`i` is put into bits `8 i … 8 i + 7` of the flit, or as many as there are. `none`:
a byte behind the array is read. -/
def flitOf (c : Ch) (W : Nat) (ws : List (BitVec 32)) : Option Nat :=
  if toBytes W ≤ descSz c then
    some (digits 8 (fun i => byteOf ws i % 2 ^ ((if 8 * i + 7 > W - 1 then W - 1 else 8 * i + 7) + 1 - 8 * i)) (toBytes W))
  else none

/-! ## Addresses -/

/-- Where word `i` of descriptor `d` is written (192, 207; 243, 258; 294, 309). -/
def txAddr (c : Ch) (d i : Nat) : Nat := txRam c + d * descSz c + i * 4

/-- Where word `i` of descriptor `d` is read from (411, 422; 476, 487; 553, 564): the
offset of the word is or-ed to the address of the descriptor. -/
def rxAddr (c : Ch) (d i : Nat) : Nat := (rxRam c + d * descSz c) ||| (i <<< 2)

/-! ## The memories of the hardware -/

/-- Words kept for a descriptor (chi_register_interface.v 228-231, with data of 512
bits). -/
def hwWords : Ch → Nat
  | .req => 4
  | .rsp => 2
  | .dat => 23

/-- The descriptor memories of one direction: channel, descriptor, word. -/
abbrev Ram := Ch → Nat → Nat → BitVec 32

/-- The address decoder (chi_register_interface.v 2005-2014, 2028-2106, 2127-2148 for
reads; 2470-2484, 2496-2564, 2590-2610 for writes): page in bits 15:12, then requests
and responses by bits 11:8, data by its own range. -/
def decode (page reqLo rspLo datLo : Nat) (a : Nat) : Option (Ch × Nat × Nat) :=
  if a / 4096 % 16 ≠ page then none
  else if a / 256 % 16 = reqLo then some (.req, a / 16 % 16, a / 4 % 4)
  else if a / 256 % 16 = rspLo then some (.rsp, a / 8 % 16, a / 4 % 2)
  else
    match (List.range 15).find? fun j => decide (datLo + 0x60 * j ≤ a % 4096 ∧ a % 4096 < datLo + 0x60 * j + 0x60) with
    | some j => some (.dat, j, (a % 4096 - (datLo + 0x60 * j)) / 4)
    | none => none

def decodeRx (a : Nat) : Option (Ch × Nat × Nat) := decode 3 1 4 0x600 a

def decodeTx (a : Nat) : Option (Ch × Nat × Nat) := decode 4 1 2 0x400 a

/-- A register write into the descriptor memories; words not kept are dropped. -/
def busWrite (m : Ram) (a : Nat) (v : BitVec 32) : Ram :=
  match decodeTx a with
  | some (c, d, w) => if w < hwWords c then fun c' d' w' => if c' = c ∧ d' = d ∧ w' = w then v else m c' d' w' else m
  | none => m

/-- A register read; words not kept read as zero (`non_impl_access`,
chi_register_interface.v 1571-1600, 2326). -/
def busRead (m : Ram) (a : Nat) : BitVec 32 :=
  match decodeRx a with
  | some (c, d, w) => if w < hwWords c then m c d w else 0
  | none => 0

/-- The flit the hardware puts on the link from a descriptor: the low bits of its
words (chi_txflit_ram.v). -/
def hwFlit (c : Ch) (W : Nat) (words : Nat → BitVec 32) : Nat :=
  digits 32 (fun i => (words i).toNat) (hwWords c) % 2 ^ W

/-- The words the hardware stores of a flit received (chi_register_interface.v
244-247, 2340-2375): padded with zeroes. -/
def hwWord (f i : Nat) : BitVec 32 := BitVec.ofNat 32 (f / 2 ^ (32 * i) % 2 ^ 32)

/-! ## Sending: one call -/

/-- The words of a flit written to descriptor `d`, one by one (196-208). -/
def putWords (c : Ch) (W f d : Nat) (m : Ram) : Nat → Ram
  | 0 => m
  | n + 1 => busWrite (putWords c W f d m n) (txAddr c d n) (flitWord W f n)

/-! ## Receiving: one descriptor -/

/-- The words read from descriptor `d` (419-425, 484-490, 561-567). -/
def getWords (c : Ch) (m : Ram) (d : Nat) : List (BitVec 32) :=
  (List.range (descSz c / 4)).map fun i => busRead m (rxAddr c d i)

/-- `get_rxreq`, `get_rxrsp`, `get_rxdat` (407-442, 472-507, 549-584). -/
def getRx (c : Ch) (W : Nat) (m : Ram) (d : Nat) : Option Nat := flitOf c W (getWords c m d)

/-- `clear_next_bit` (510-523): the shift of up to 32 places, then bit 0 cleared. -/
def shiftOut : Nat → Nat → Nat
  | 0, x => x
  | n + 1, x => if x % 2 = 1 then x else shiftOut n (x / 2)

def clearNext (x : BitVec 32) : BitVec 32 := BitVec.ofNat 32 (shiftOut 32 x.toNat / 2 * 2)

/-! ## Sending: everything going on -/

/-- Where a call of `transmitRspPkt` (177-213; the same at 229-264 and 280-315) is: the
bridge it is a call of, the flit, the bit computed at the start (`rsp_bit`, 188), and
the descriptor whose address is in use (192). -/
inductive Phase where
  | idle
  | waiting (b f bit : Nat)
  | writing (b f bit d i : Nat)
  | flipping (b bit : Nat)
deriving DecidableEq, Repr

/-- One sending channel of all bridges of a class: memories, ownership registers,
the descriptor the hardware takes next, what it has sent; the index
(`static`, so one for all bridges, 179); the calls going on; and every flit ever handed
over, in order. -/
structure Tx where
  mem : Nat → Ram
  own : Nat → BitVec 32
  rd : Nat → Nat
  out : Nat → List Nat
  idx : Nat
  call : Nat → Phase
  asked : Nat → List Nat

def Tx.init : Tx :=
  { mem := fun _ _ _ _ => 0, own := fun _ => 0, rd := fun _ => 0, out := fun _ => [], idx := 0,
    call := fun _ => .idle, asked := fun _ => [] }

/-- Updating a function at one place. -/
def upd {α : Type} (f : Nat → α) (k : Nat) (v : α) : Nat → α := fun i => if i = k then v else f i

inductive TxMove where
  /-- process `p` calls the bridge `b` with flit `f` -/
  | start (p b f : Nat)
  /-- one read of the ownership register by `wait_for_descr_free` -/
  | poll (p : Nat)
  /-- one word written -/
  | put (p : Nat)
  /-- ownership handed to the hardware, the call returns -/
  | flip (p : Nat)
  /-- the hardware of bridge `b` sends a flit -/
  | send (b : Nat)
  /-- the hardware of bridge `b` is reset (`bridge_reset` 642-648) -/
  | reset (b : Nat)
deriving DecidableEq, Repr

/-- One step. The hardware sends whenever it owns any descriptor, and takes the one
after the last it took (chi_txflit_mgmt.v 66-86, 105-160). -/
def Tx.move (c : Ch) (W : Nat) (s : Tx) : TxMove → Option Tx
  | .start p b f =>
    match s.call p with
    | .idle => some { s with call := upd s.call p (.waiting b f s.idx), asked := upd s.asked b (s.asked b ++ [f]) }
    | _ => none
  | .poll p =>
    match s.call p with
    | .waiting b f bit =>
      if (s.own b).getLsbD bit = true then some s
      else some { s with call := upd s.call p (.writing b f bit s.idx 0) }
    | _ => none
  | .put p =>
    match s.call p with
    | .writing b f bit d i =>
      if i < toRegs W then
        some { s with mem := upd s.mem b (busWrite (s.mem b) (txAddr c d i) (flitWord W f i)),
                      call := upd s.call p (.writing b f bit d (i + 1)) }
      else some { s with call := upd s.call p (.flipping b bit) }
    | _ => none
  | .flip p =>
    match s.call p with
    | .flipping b bit =>
      some { s with own := upd s.own b (s.own b ||| (1#32 <<< bit)), idx := (s.idx + 1) % credits,
                    call := upd s.call p .idle }
    | _ => none
  | .send b =>
    if s.own b = 0 then none
    else some { s with out := upd s.out b (s.out b ++ [hwFlit c W (s.mem b c (s.rd b))]),
                       own := upd s.own b (s.own b &&& ~~~(1#32 <<< s.rd b)),
                       rd := upd s.rd b ((s.rd b + 1) % credits) }
  | .reset b => some { s with own := upd s.own b 0, rd := upd s.rd b 0 }

def Tx.runs (c : Ch) (W : Nat) : Tx → List TxMove → Option Tx
  | s, [] => some s
  | s, m :: ms =>
    match s.move c W m with
    | some s' => Tx.runs c W s' ms
    | none => none

/-! ## Receiving: everything going on -/

/-- Where `work_thread` (342-405) is with one channel. -/
inductive RPhase where
  /-- at the top of the loop (353-363) -/
  | idle
  /-- the status was read with the channel's flag set (366) -/
  | seen
  /-- the status was cleared (369) -/
  | cleared
  /-- in the loop over the flits (`process_rx…_ch`); `left` counts -/
  | serving (snap left : BitVec 32)
  /-- reading the words of a descriptor -/
  | reading (snap left : BitVec 32) (ws : List (BitVec 32))
  /-- about to give the descriptors back (382-401) -/
  | giving (snap : BitVec 32)
deriving DecidableEq, Repr

/-- One receiving channel of one bridge: memory, ownership register, the descriptor
the hardware fills next, the interrupt flag; the index of the software, its place in
the loop, the flits passed on; and every flit that ever arrived. -/
structure Rx where
  mem : Ram
  own : BitVec 32
  wr : Nat
  flag : Bool
  idx : Nat
  phase : RPhase
  got : List Nat
  arrived : List Nat

def Rx.init : Rx :=
  { mem := fun _ _ _ => 0, own := 0, wr := 0, flag := false, idx := 0, phase := .idle, got := [], arrived := [] }

inductive RxMove where
  /-- a flit arrives from the link -/
  | arrive (f : Nat)
  /-- the next step of the software -/
  | step
deriving DecidableEq, Repr

/-- One step of the software. Flags of other channels only delay it. -/
def Rx.step (c : Ch) (W : Nat) (s : Rx) : Option Rx :=
  match s.phase with
  | .idle => some (if s.flag then { s with phase := .seen } else s)
  | .seen => some { s with flag := false, phase := .cleared }
  | .cleared => some { s with phase := if s.own = 0 then .idle else .serving s.own s.own }
  | .serving snap left =>
    some { s with phase := if left = 0 then .giving snap else .reading snap (clearNext left) [] }
  | .reading snap left ws =>
    if ws.length < descSz c / 4 then
      some { s with phase := .reading snap left (ws ++ [busRead s.mem (rxAddr c s.idx ws.length)]) }
    else
      match flitOf c W ws with
      | some f => some { s with idx := (s.idx + 1) % credits, got := s.got ++ [f], phase := .serving snap left }
      | none => none
  | .giving snap => some { s with own := s.own &&& ~~~snap, phase := .idle }

/-- A flit is stored into the descriptor after the last one, if that is free
(chi_register_interface.v 1214-1229, 1351-1366, 2350-2372). -/
def Rx.move (c : Ch) (W : Nat) (s : Rx) : RxMove → Option Rx
  | .arrive f =>
    if s.own.getLsbD s.wr = true then none
    else some { s with mem := fun c' d i => if c' = c ∧ d = s.wr then hwWord f i else s.mem c' d i,
                       own := s.own ||| (1#32 <<< s.wr), wr := (s.wr + 1) % credits, flag := true,
                       arrived := s.arrived ++ [f] }
  | .step => s.step c W

def Rx.runs (c : Ch) (W : Nat) : Rx → List RxMove → Option Rx
  | s, [] => some s
  | s, m :: ms =>
    match s.move c W m with
    | some s' => Rx.runs c W s' ms
    | none => none

end Verif.ChiHw
