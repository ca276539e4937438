import Verif.Base.Range

/-!
# The QDMA device model

Transcription of `/repo/soc/pci/xilinx/qdma.h` and of the bit layouts in
`/repo/soc/pci/xilinx/qdma-ctx.inc`, in the shipped configuration
(`QDMA_SOFT_IP` not defined, qdma.h:48).  Simplifications:

* One call of `b_transport` on the configuration BAR runs to its end before the
  next one starts; the targets behind `dma` and `card_bus` are memories that
  accept or refuse each access (`Env`).
* `SC_REPORT_ERROR` throws (SystemC's default action), so a reported error ends
  the call: outcome `Fault.error`.
* Out-of-range array accesses, reads of uninitialised stack bytes and failed
  asserts are separate outcomes, not values.
* The event log (`S.log`) is bookkeeping for the statements: one entry for each
  descriptor, status, interrupt-ring and MSI-X action, in the order taken.
-/

namespace Verif.Qdma

/-- `qdma_cpm4` / `qdma_cpm5` (qdma.h:950-1024). -/
inductive Ver | cpm4 | cpm5
  deriving DecidableEq, Repr

/-- How a call can end other than normally. -/
inductive Fault
  /-- `SC_REPORT_ERROR` -/
  | error
  /-- failed `assert` -/
  | assert
  /-- access outside an array -/
  | oob
  /-- use of an uninitialised byte -/
  | uninit
  deriving DecidableEq, Repr

/-- A bit-field read: `n` bits from bit `lo`, bit 0 being the first declared
(packed bit-fields on the little-endian host, qdma-ctx.inc). -/
def getF {w : Nat} (c : BitVec w) (lo n : Nat) : Nat := (c.extractLsb' lo n).toNat

/-- A bit-field assignment; the value is truncated to the field. -/
def setF {w : Nat} (c : BitVec w) (lo n x : Nat) : BitVec w :=
  (c &&& ~~~((BitVec.allOnes n).setWidth w <<< lo)) |||
    ((BitVec.ofNat n x).setWidth w <<< lo)

/-- `queue_contexts[q][sel].data`: eight 32-bit words (qdma.h:192-195), word 0 in
the low bits. -/
abbrev Ctx := BitVec 256

/-- Context selectors (qdma.h:232-248). -/
def swSel (h2c : Bool) : Nat := if h2c then 1 else 0
def hwSel (h2c : Bool) : Nat := if h2c then 3 else 2
def intSel : Nat := 8
def vecSel : Nat := 12

/-- `QDMA_QUEUE_COUNT` (qdma.h:111). -/
def queueCount : Nat := 2

/-- What is written down about a run. -/
inductive Ev
  /-- descriptor `i` of a queue's ring was executed -/
  | desc (q : Nat) (h2c : Bool) (i : Nat)
  /-- the status descriptor was written back -/
  | status (q : Nat) (h2c : Bool)
  /-- an interrupt-ring entry was written -/
  | entry (ring addr : Nat) (e : BitVec 64)
  /-- `msix_trig[v].notify()` -/
  | msix (v : Nat)
  deriving DecidableEq, Repr

/-- The device and the two memories it moves data between. -/
structure S where
  /-- `regs.u32` (qdma.h:863-868) -/
  regs : Nat → BitVec 32
  /-- `axi_regs.u32` (qdma.h:870-872) -/
  axi : Nat → BitVec 32
  /-- `queue_contexts` (qdma.h:192-195) -/
  ctx : Nat → Nat → Ctx
  /-- `irq_ring_entry_idx` (qdma.h:917) -/
  slot : Nat → Nat
  /-- behind `dma` -/
  host : Mem
  /-- behind `card_bus` -/
  card : Mem
  log : List Ev

/-- The surroundings: which accesses the two buses accept, and what the stack
held where `entry` (qdma.h:528) is declared without initialiser. -/
structure Env where
  hostOk : Cmd → Nat → Nat → Bool
  cardOk : Cmd → Nat → Nat → Bool
  junk : BitVec 64

def S.setCtx (s : S) (q sel : Nat) (c : Ctx) : S :=
  { s with ctx := fun a b => if a = q ∧ b = sel then c else s.ctx a b }

def S.storeHost (s : S) (a : Nat) (d : List Byte) : S := { s with host := s.host.store a d }

def S.emit (s : S) (e : Ev) : S := { s with log := s.log ++ [e] }

/-! ### Fields -/

/-- `sw_ctx_cpm4`/`sw_ctx_cpm5` (qdma-ctx.inc:27-92): the fields the code uses sit
at the same bits in both. -/
def S.pidx (s : S) (q : Nat) (h2c : Bool) : Nat := getF (s.ctx q (swSel h2c)) 0 16
def S.irqArm (s : S) (q : Nat) (h2c : Bool) : Bool := getF (s.ctx q (swSel h2c)) 16 1 != 0
def S.ringCode (s : S) (q : Nat) (h2c : Bool) : Nat := getF (s.ctx q (swSel h2c)) 44 4
def S.descCode (s : S) (q : Nat) (h2c : Bool) : Nat := getF (s.ctx q (swSel h2c)) 48 2
def S.wbEn (s : S) (q : Nat) (h2c : Bool) : Bool := getF (s.ctx q (swSel h2c)) 52 1 != 0
def S.irqEn (s : S) (q : Nat) (h2c : Bool) : Bool := getF (s.ctx q (swSel h2c)) 53 1 != 0
def S.base (s : S) (q : Nat) (h2c : Bool) : Nat :=
  getF (s.ctx q (swSel h2c)) 96 32 * 2 ^ 32 + getF (s.ctx q (swSel h2c)) 64 32

/-- `hw_ctx::hw_cidx` (qdma.h:178-190). -/
def S.cidx (s : S) (q : Nat) (h2c : Bool) : Nat := getF (s.ctx q (hwSel h2c)) 0 16

/-- `irq_aggregation_enabled` (qdma.h:962-967, 998-1005). -/
def S.aggr (s : S) (v : Ver) (q : Nat) (h2c : Bool) : Bool :=
  match v with
  | .cpm5 => getF (s.ctx q (swSel h2c)) 139 1 != 0
  | .cpm4 => getF (s.ctx q vecSel) (if h2c then 17 else 8) 1 != 0

/-- `get_vec` (qdma.h:969-974, 1007-1013). -/
def S.vec (s : S) (v : Ver) (q : Nat) (h2c : Bool) : Nat :=
  match v with
  | .cpm5 => getF (s.ctx q (swSel h2c)) 128 11
  | .cpm4 => getF (s.ctx q vecSel) (if h2c then 9 else 0) 8

/-- `intr_ctx_*` (qdma-ctx.inc:96-121): everything above `vector` moves by the six
bits by which that field is wider in CPM5. -/
def icOff : Ver → Nat
  | .cpm4 => 0
  | .cpm5 => 6
def icValid (c : Ctx) : Bool := getF c 0 1 != 0
def icVector (v : Ver) (c : Ctx) : Nat :=
  match v with
  | .cpm4 => getF c 1 5
  | .cpm5 => getF c 1 11
def icColor (v : Ver) (c : Ctx) : Nat := getF c (8 + icOff v) 1
def icBaddr (v : Ver) (c : Ctx) : Nat := getF c (9 + icOff v) 52
def icPage (v : Ver) (c : Ctx) : Nat := getF c (61 + icOff v) 3
def icPidx (v : Ver) (c : Ctx) : Nat := getF c (64 + icOff v) 12

/-- `ring_sizes` (qdma.h:436-438). -/
def ringSizes : List Nat :=
  [2048, 64, 128, 192, 256, 384, 512, 768, 1024,
   1536, 3072, 4096, 6144, 8192, 12288, 16384]

def S.ringSize (s : S) (q : Nat) (h2c : Bool) : Nat := ringSizes.getD (s.ringCode q h2c) 0

/-- `desc_size = 8 << sw_ctx->desc_size` (qdma.h:462). -/
def S.descSize (s : S) (q : Nat) (h2c : Bool) : Nat := 8 <<< s.descCode q h2c

/-- 64-bit addresses wrap. -/
def w64 (a : Nat) : Nat := a % 2 ^ 64

/-! ### Bus accesses -/

/-- `fetch_descriptor` (qdma.h:598-620), `n` words of four bytes. -/
def fetch (env : Env) (m : Mem) : Nat → Nat → Except Fault (List Byte)
  | 0, _ => .ok []
  | n + 1, a =>
    if env.hostOk .read a 4 then
      match fetch env m n (w64 (a + 4)) with
      | .ok r => .ok (m.range a 4 ++ r)
      | .error e => .error e
    else .error .error

/-- The copy loop of `do_mm_dma` (qdma.h:388-421), `n` words of four bytes from
`a` in `src` to `b` in the other memory. -/
def copy (rd wr : Nat → Bool) (src : Mem) : Nat → Nat → Nat → Mem → Except Fault Mem
  | 0, _, _, d => .ok d
  | n + 1, a, b, d =>
    if !rd a then .error .error
    else if !wr b then .error .error
    else copy rd wr src n (w64 (a + 4)) (w64 (b + 4)) (d.store b (src.range a 4))

/-- `do_mm_dma` (qdma.h:366-425): `for (i = 0; i < size; i += 4)`. -/
def doMmDma (env : Env) (s : S) (a b size : Nat) (h2c : Bool) : Except Fault S :=
  if h2c then
    match copy (env.hostOk .read · 4) (env.cardOk .write · 4) s.host ((size + 3) / 4) a b s.card with
    | .ok m => .ok { s with card := m }
    | .error e => .error e
  else
    match copy (env.cardOk .read · 4) (env.hostOk .write · 4) s.card ((size + 3) / 4) a b s.host with
    | .ok m => .ok { s with host := m }
    | .error e => .error e

/-- A fetched `x2c_mm_descriptor` (qdma.h:346-352): source, byte count,
destination.  Descriptors of 8 or 16 bytes leave the destination field of the
local buffer unwritten (qdma.h:434, 440). -/
def parse (d : List Byte) : Except Fault (Nat × Nat × Nat) :=
  if d.length < 24 then .error .uninit
  else .ok (leDec (d.take 8), leDec ((d.drop 8).take 8) % 2 ^ 28, leDec ((d.drop 16).take 8))

/-- Address of ring entry `i` (qdma.h:479-482, 503-506). -/
def S.descAddr (s : S) (q : Nat) (h2c : Bool) (i : Nat) : Nat :=
  w64 (s.base q h2c + s.descSize q h2c * i)

/-- `hw_ctx->hw_cidx = …` (qdma.h:489-491), a 16-bit field. -/
def nextIdx (n i : Nat) : Nat := if i = n - 1 then 0 else (i + 1) % 65536

/-- One pass through the loop of `run_mm_dma` up to the index update
(qdma.h:478-491). -/
def one (env : Env) (q : Nat) (h2c : Bool) (s : S) : Except Fault S := do
  let i := s.cidx q h2c
  let d ← fetch env s.host (s.descSize q h2c / 4) (s.descAddr q h2c i)
  let p ← parse d
  let s ← doMmDma env s p.1 p.2.2 p.2.1 h2c
  .ok ((s.setCtx q (hwSel h2c) (setF (s.ctx q (hwSel h2c)) 0 16
    (nextIdx (s.ringSize q h2c) i))).emit (.desc q h2c i))

/-- `x2c_wb_descriptor` assignments (qdma.h:355-363, 510-512) on the fetched
bytes: `err`, `cidx` and `pidx`, everything else kept. -/
def putStatus (d : List Byte) (c p : Nat) : List Byte :=
  [d.getD 0 0 &&& 0xFC#8, d.getD 1 0] ++ leEnc 2 c ++ leEnc 2 p ++ d.drop 6

/-- The status write-back (qdma.h:501-520) and `descriptor_writeback`
(qdma.h:622-638). -/
def writeStatus (env : Env) (q : Nat) (h2c : Bool) (p : Nat) (s : S) : Except Fault S :=
  match fetch env s.host (s.descSize q h2c / 4) (s.descAddr q h2c (s.ringSize q h2c)) with
  | .error e => .error e
  | .ok d =>
    if env.hostOk .write (s.descAddr q h2c (s.ringSize q h2c)) (s.descSize q h2c) then
      .ok ((s.storeHost (s.descAddr q h2c (s.ringSize q h2c))
        (putStatus d (s.cidx q h2c) p)).emit (.status q h2c))
    else .error .error

/-- The entry written to an interrupt ring (qdma.h:549-557; layouts
qdma-ctx.inc:124-148).  Bits no assignment covers keep what the stack held. -/
def mkEntry (v : Ver) (junk : BitVec 64) (q : Nat) (h2c : Bool) (color cidx pidx : Nat) :
    BitVec 64 :=
  match v with
  | .cpm4 =>
    let e := setF junk 52 11 q
    let e := setF e 51 1 (if h2c then 0 else 1)
    let e := setF e 63 1 color
    let e := setF e 35 4 0
    let e := setF e 33 2 0
    let e := setF e 32 1 color
    let e := setF e 16 16 cidx
    setF e 0 16 pidx
  | .cpm5 =>
    let e := setF junk 39 24 q
    let e := setF e 38 1 (if h2c then 0 else 1)
    let e := setF e 63 1 color
    let e := setF e 35 2 0
    let e := setF e 33 2 0
    let e := setF e 32 1 color
    let e := setF e 16 16 cidx
    setF e 0 16 pidx

/-- `write_irq_ring_entry` (qdma.h:645-681). -/
def writeEntry (v : Ver) (env : Env) (r : Nat) (e : BitVec 64) (s : S) : Except Fault S :=
  let c := s.ctx r intSel
  let a := w64 (w64 (icBaddr v c * 4096) + 8 * s.slot r)
  if env.hostOk .write a 8 then
    let s1 := (s.storeHost a (leEnc 8 e.toNat)).emit (.entry r a e)
    let n := s.slot r + 1
    if n * 8 = (1 + icPage v c) * 4096 then
      .ok (({ s1 with slot := fun x => if x = r then 0 else s.slot x }).setCtx r intSel
        (setF c (8 + icOff v) 1 (if icColor v c != 0 then 0 else 1)))
    else .ok { s1 with slot := fun x => if x = r then n else s.slot x }
  else .error .error

/-- `NR_QDMA_IRQ` (qdma.h:41). -/
def nrIrq : Nat := 8

/-- `msix_trig[i].notify()`. -/
def notify (i : Nat) (s : S) : Except Fault S :=
  if i < nrIrq then .ok (s.emit (.msix i)) else .error .oob

/-- Interrupt aggregation (qdma.h:526-562). -/
def aggregate (v : Ver) (env : Env) (q : Nat) (h2c : Bool) (p : Nat) (s : S) : Except Fault S :=
  let r := s.vec v q h2c
  if queueCount ≤ r then .error .oob
  else
    let s := s.setCtx r intSel (setF (s.ctx r intSel) (64 + icOff v) 12 p)
    let c := s.ctx r intSel
    if !icValid c then .error .error
    else do
      let s ← writeEntry v env r
        (mkEntry v env.junk q h2c (icColor v c) (s.cidx q h2c) (icPidx v c)) s
      notify (icVector v (s.ctx r intSel)) s

/-- Telling the driver (qdma.h:518-573). -/
def signal (v : Ver) (env : Env) (q : Nat) (h2c : Bool) (p : Nat) (s : S) : Except Fault S :=
  if !s.irqArm q h2c || !s.irqEn q h2c then .ok s
  else if s.aggr v q h2c then aggregate v env q h2c p s
  else notify (s.vec v q h2c) s

/-- What happens once the consumer index has met the producer index
(qdma.h:499-573). -/
def finish (v : Ver) (env : Env) (q : Nat) (h2c : Bool) (p : Nat) (s : S) : Except Fault S :=
  if s.wbEn q h2c then
    match writeStatus env q h2c p s with
    | .ok s => signal v env q h2c p s
    | .error e => .error e
  else signal v env q h2c p s

/-- The loop of `run_mm_dma` (qdma.h:478-574).  A 16-bit index meets any other
within 65536 steps, so that fuel is never used up (`run_meets`). -/
def loop (v : Ver) (env : Env) (q : Nat) (h2c : Bool) (p : Nat) : Nat → S → Except Fault S
  | 0, s => .ok s
  | f + 1, s =>
    if s.pidx q h2c = s.cidx q h2c then .ok s
    else
      match one env q h2c s with
      | .error e => .error e
      | .ok s =>
        if s.pidx q h2c = s.cidx q h2c then finish v env q h2c p s
        else loop v env q h2c p f s

/-- `R_DMAP_SEL_INT_CIDX(v, 0) << 2` (qdma.h:146). -/
def dmap : Ver → Nat
  | .cpm4 => 0x6400
  | .cpm5 => 0x18000

/-- Word index of the producer-index register (qdma.h:148-151). -/
def pidxReg (v : Ver) (h2c : Bool) (q : Nat) : Nat :=
  (dmap v + (if h2c then 4 else 8) + 0x10 * q) / 4

/-- `run_mm_dma` (qdma.h:429-575). -/
def run (v : Ver) (env : Env) (q : Nat) (h2c : Bool) (s : S) : Except Fault S :=
  if q > queueCount then .error .error
  else if queueCount ≤ q then .error .oob
  else
    let p := (s.regs (pidxReg v h2c q)).toNat % 65536
    let s := s.setCtx q (swSel h2c) (setF (s.ctx q (swSel h2c)) 0 16 p)
    if s.ringSize q h2c ≤ s.pidx q h2c then .error .error
    else loop v env q h2c p 65536 s

/-! ### Context commands -/

/-- The eight data registers as one context: `&regs.u32[R_IND_CTXT_DATA]`
(qdma.h:142). -/
def dataCtx (r : Nat → BitVec 32) : Ctx :=
  r 0x208 ++ r 0x207 ++ r 0x206 ++ r 0x205 ++ r 0x204 ++ r 0x203 ++ r 0x202 ++ r 0x201

/-- `memcpy(&regs.u32[R_IND_CTXT_DATA], data, 32)`. -/
def putData (r : Nat → BitVec 32) (c : Ctx) : Nat → BitVec 32 := fun w =>
  if 0x201 ≤ w ∧ w < 0x209 then c.extractLsb' (32 * (w - 0x201)) 32 else r w

/-- `handle_irq_ctxt_cmd` (qdma.h:307-343). -/
def irqCtxCmd (r cmd : Nat) (s : S) : Except Fault S :=
  if queueCount ≤ r then .error .oob
  else
    match cmd with
    | 0 => .ok (s.setCtx r intSel 0)
    | 1 =>
      let c := dataCtx s.regs
      let s' := s.setCtx r intSel c
      if icValid c && !icValid (s.ctx r intSel) then
        .ok { s' with slot := fun x => if x = r then 0 else s.slot x }
      else .ok s'
    | 2 => .ok { s with regs := putData s.regs (s.ctx r intSel) }
    | _ => .ok (s.setCtx r intSel (setF (s.ctx r intSel) 0 1 0))

/-- The selectors `handle_ctxt_cmd` accepts (qdma.h:264-275). -/
def selOk (sel : Nat) : Bool := sel < 8 || sel == 12

/-- `handle_ctxt_cmd` (qdma.h:250-303). -/
def ctxCmd (reg : BitVec 32) (s : S) : Except Fault S :=
  let q := getF reg 7 13
  let cmd := getF reg 5 2
  let sel := getF reg 1 4
  if sel = intSel then irqCtxCmd q cmd s
  else if queueCount ≤ q then .error .assert
  else if !selOk sel then .error .error
  else
    match cmd with
    | 0 => .ok (s.setCtx q sel 0)
    | 1 => .ok (s.setCtx q sel (dataCtx s.regs))
    | 2 => .ok { s with regs := putData s.regs (s.ctx q sel) }
    | _ => .ok s

/-! ### The BARs -/

def S.setReg (s : S) (w : Nat) (x : BitVec 32) : S :=
  { s with regs := fun y => if y = w then x else s.regs y }

/-- `R_IND_CTXT_CMD` (qdma.h:145). -/
def cmdReg : Ver → Nat
  | .cpm4 => 0x209
  | .cpm5 => 0x211

/-- `qdma_get_version` (qdma.h:976-979, 1015-1018). -/
def version : Ver → BitVec 32
  | .cpm4 => 0x10000000
  | .cpm5 => 0x21000000

/-- Words in `regs.u32`. -/
def nRegs : Nat := 0x18000

/-- The write half of `config_bar_b_transport` (qdma.h:747-850). -/
def cfgWrite (v : Ver) (env : Env) (addr : Nat) (x : BitVec 32) (s : S) : Except Fault S :=
  let w := addr / 4
  if dmap v / 4 ≤ w ∧ w ≤ (dmap v + 0xC + 0x10 * queueCount) / 4 then
    let q := (addr - dmap v) / 0x10
    let s := s.setReg w x
    if addr % 0x10 = 4 then run v env q true s
    else if addr % 0x10 = 8 then run v env q false s
    else .ok s
  else if w = cmdReg v then
    match ctxCmd x s with
    | .ok s => .ok (s.setReg w (x &&& 0xFFFFFFFE#32))
    | .error e => .error e
  else if w = 0 ∨ w = 0x134 / 4 then .ok s
  else if w = 0x2c4 / 4 then .ok (s.setReg w (x &&& ~~~2#32))
  else if w < nRegs then .ok (s.setReg w x)
  else .error .oob

/-- The read half (qdma.h:738-746). -/
def cfgRead (v : Ver) (addr : Nat) (s : S) : Except Fault (BitVec 32) :=
  if addr / 4 = 0x134 / 4 then .ok (version v)
  else if addr / 4 < nRegs then .ok (s.regs (addr / 4))
  else .error .oob

/-- Refused before anything is looked at (qdma.h:734-736, 694-696). -/
def refused (g : Gp) : Bool := g.be != [] || decide (4 < g.len) || decide (g.sw < g.len)

/-- `memcpy(&v, data, len)` into a zeroed word. -/
def wordOf (d : List Byte) : BitVec 32 := BitVec.ofNat 32 (leDec d)

/-- `config_bar_b_transport` (qdma.h:724-859): new state, response, data. -/
def cfg (v : Ver) (env : Env) (g : Gp) (s : S) : Except Fault (S × Status × List Byte) :=
  if refused g then .ok (s, .generic, g.data)
  else
    match g.cmd with
    | .read =>
      match cfgRead v g.addr s with
      | .ok x => .ok (s, .ok, (leEnc 4 x.toNat).take g.len)
      | .error e => .error e
    | .write =>
      match cfgWrite v env g.addr (wordOf g.data) s with
      | .ok s => .ok (s, .ok, g.data)
      | .error e => .error e
    | .ignore => .ok (s, .generic, g.data)

/-- Words in `axi_regs.u32`. -/
def nAxi : Nat := 0xA8

/-- `axi_master_light_bar_b_transport` (qdma.h:683-722). -/
def user (g : Gp) (s : S) : Except Fault (S × Status × List Byte) :=
  if refused g then .ok (s, .generic, g.data)
  else
    match g.cmd with
    | .read =>
      if g.addr / 4 < nAxi then
        .ok (s, .ok, (leEnc 4 (s.axi (g.addr / 4)).toNat).take g.len)
      else .error .oob
    | .write =>
      if g.addr / 4 < nAxi then
        .ok ({ s with axi := fun y => if y = g.addr / 4 then wordOf g.data else s.axi y },
          .ok, g.data)
      else .error .oob
    | .ignore => .ok (s, .generic, g.data)

/-- `reset` (qdma.h:875-885), on either edge of `rst`. -/
def reset (s : S) : S :=
  ((((((s.setReg 0 0x1FD30001).setReg (0x104 / 4) 1).setReg (0x120 / 4) 2).setReg
    (0x118 / 4) 0x00030f0f).setReg (0x12C / 4) 0).setReg (0x10C / 4) 4)

/-! ### MSI-X strobes -/

/-- `msix_strobe` (qdma.h:202-219) for one vector: `ts` the times (in ns) of the
`notify()` calls, in order; `b` the time until which the thread is inside
`wait(10, SC_NS)`.  The result lists the times the line rises.  An immediate
notification only wakes a thread that is waiting for it.  Whether the thread is
back at exactly `b` depends on the order of processes: `tie`. -/
def strobe (tie : Nat → Bool) : Nat → List Nat → List Nat
  | _, [] => []
  | b, t :: ts =>
    if t < b ∨ (t = b ∧ b ≠ 0 ∧ tie t = false) then strobe tie b ts
    else t :: strobe tie (t + 10) ts

end Verif.Qdma
