import Verif.Crc32.Spec
import Verif.Crc32.Model
import Verif.Crc32.Props

/-!
# MRMAC Ethernet MAC

Models `/repo/soc/net/ethernet/xilinx/mrmac/mrmac.cc`, `mrmac.h` and
`/repo/soc/net/ethernet/ethernet.h`, on a little-endian host.  Register access
control (`regapi`) is modelled in `Verif.Regapi`; here the configuration fields
are given.
-/

namespace Verif.Mrmac
open Verif Verif.Crc32

/-- Size classes (mrmac.h 42-63). -/
inductive Bucket
  | small | p64 | p65 | p128 | p256 | p512 | p1024 | p1519 | p1523 | p1549 | p2048 | p4096 | p8192 | large
  deriving DecidableEq, Repr

/-- The counters of one direction (mrmac.h 42-71, 73-102). -/
inductive Ctr
  | total | good | bytes | goodBytes | size (b : Bucket) | badFcs | unicast | multicast | broadcast | vlan | pause
  deriving DecidableEq, Repr

abbrev Stats := Ctr → Nat

/-- The configuration fields read by the code, and the constructor argument. -/
structure Cfg where
  txEnable : Bool
  fcsIns : Bool
  txIgnoreFcs : Bool
  rxEnable : Bool
  rxDeleteFcs : Bool
  rxIgnoreFcs : Bool
  ext : Bool
  insertRxCrc : Bool
  deriving DecidableEq, Repr

/-- `stats_add` (mrmac.h 113-127), with `max = 2^w - 1`, in 64-bit arithmetic;
`c &= max` is a remainder. -/
def statsAdd (ext : Bool) (w c v : Nat) : Nat :=
  if (2 ^ w - 1 + 2 ^ 64 - c) % 2 ^ 64 < v ∧ ext = false then c else (c + v) % 2 ^ 64 % 2 ^ w

/-- `stats_add64` is used for the byte counters, `stats_add48` otherwise
(mrmac.h 129-137). -/
def Ctr.width : Ctr → Nat
  | .bytes | .goodBytes => 64
  | _ => 48

/-- One call of `stats_add48`/`stats_add64`. -/
def bump (ext : Bool) (s : Stats) (cv : Ctr × Nat) : Stats :=
  fun c => if c = cv.1 then statsAdd ext c.width (s c) cv.2 else s c

def bumpAll (ext : Bool) (s : Stats) (l : List (Ctr × Nat)) : Stats := l.foldl (bump ext) s

/-- `stats_update_tx_hist`, `stats_update_rx_hist` (mrmac.cc 100-164). -/
def bucket (len : Nat) : Bucket :=
  if len < 64 then .small
  else if len = 64 then .p64
  else if len < 128 then .p65
  else if len < 256 then .p128
  else if len < 512 then .p256
  else if len < 1024 then .p512
  else if len < 1519 then .p1024
  else if len < 1523 then .p1519
  else if len < 1549 then .p1523
  else if len < 2048 then .p1549
  else if len < 4096 then .p2048
  else if len < 8192 then .p4096
  else if len < 9216 then .p8192
  else .large

/-- `eth_is_multicast` (ethernet.h 39-41). -/
def isMulticast (f : List Byte) : Bool := f.getD 0 0 &&& 1 != 0

/-- `eth_is_unicast` (43-45). -/
def isUnicast (f : List Byte) : Bool := !isMulticast f

/-- `eth_is_broadcast` (47-51). -/
def isBroadcast (f : List Byte) : Bool := (f.take 6) == [0xff, 0xff, 0xff, 0xff, 0xff, 0xff]

/-- `eth_get_type` (53-61). -/
def ethType (f : List Byte) : BitVec 16 := ((f.getD 12 0).setWidth 16 <<< 8) ||| (f.getD 13 0).setWidth 16

/-- The `if (good)` statistics (mrmac.cc 267-287, 338-357). -/
def goodStats (f : List Byte) : List (Ctr × Nat) :=
  [(.good, 1), (.goodBytes, f.length), (.unicast, (isUnicast f).toNat),
   (.multicast, (isMulticast f && !isBroadcast f).toNat), (.broadcast, (isBroadcast f).toNat)] ++
  (if ethType f = 0x8100 then [(.vlan, 1)] else if ethType f = 0x8808 then [(.pause, 1)] else [])

/-- `total_packets`, `total_bytes` and the histogram (289-291, 332-334). -/
def allStats (f : List Byte) : List (Ctr × Nat) := [(.total, 1), (.bytes, f.length), (.size (bucket f.length), 1)]

/-- Whether the last four bytes equal the CRC of the others (256-264, 322-330). -/
def fcsOk (f : List Byte) : Bool := f.drop (f.length - 4) == crcBytes (crc32 0 (f.take (f.length - 4)))

/-- `txbuf` (up to `txpos`) and the transmit counters. -/
structure Tx where
  buf : List Byte
  stats : Stats

inductive TxOut
  | ok (s : Tx) (sent : Option (List Byte))
  /-- the assert of line 240 fails -/
  | abort
  /-- the FCS is written past the end of `txbuf` -/
  | overflow

/-- Frame completion (245-297). -/
def complete (cfg : Cfg) (st : Stats) (buf : List Byte) : TxOut :=
  if buf.length < 14 then .ok { buf := buf, stats := st } none
  else if cfg.fcsIns then
    if buf.length + 4 > 64 * 1024 then .overflow
    else
      let f := buf ++ crcBytes (crc32 0 buf)
      .ok { buf := [], stats := bumpAll cfg.ext st (goodStats f ++ allStats f) } (some f)
  else if !cfg.txIgnoreFcs && !fcsOk buf then
    .ok { buf := [], stats := bumpAll cfg.ext st ((.badFcs, 1) :: allStats buf) } (some buf)
  else .ok { buf := [], stats := bumpAll cfg.ext st (goodStats buf ++ allStats buf) } (some buf)

/-- `mac_b_transport` (224-301): `sent` is the frame pushed to the PHY. -/
def macTx (cfg : Cfg) (s : Tx) (data : List Byte) (eop : Bool) : TxOut :=
  if !cfg.txEnable then .ok s none
  else if data.length < 64 * 1024 - s.buf.length then
    if eop then complete cfg s.stats (s.buf ++ data)
    else .ok { s with buf := s.buf ++ data } none
  else .abort

/-- The statistics of a good received frame read its first 14 bytes: `none` if
it has fewer. -/
def rxGood (cfg : Cfg) (st : Stats) (f : List Byte) : Option (Stats × Option (List Byte)) :=
  if f.length < 14 then none
  else
    -- lines 357-362 only change the local `len`, the transaction keeps its length
    some (bumpAll cfg.ext st (allStats f ++ goodStats f), some f)

/-- One iteration of `phy_rx_thread` (303-370): the new counters and what is
delivered to the MAC client; `none`: bytes outside the frame are read. -/
def rxFrame (cfg : Cfg) (st : Stats) (f : List Byte) : Option (Stats × Option (List Byte)) :=
  if !cfg.rxEnable then some (st, none)
  else if cfg.rxIgnoreFcs then rxGood cfg st f
  else if f.length < 4 then none
  else if fcsOk f then rxGood cfg st f
  else some (bumpAll cfg.ext st ((.badFcs, 1) :: allStats f), none)

/-- `phy_b_transport` (372-394): the frame put in the FIFO. -/
def wireFrame (cfg : Cfg) (f : List Byte) : List Byte :=
  if cfg.insertRxCrc then f ++ crcBytes (crc32 0 f) else f

/-- Depth of `rxfifo` (51). -/
def fifoDepth : Nat := 2

structure Rx where
  fifo : List (List Byte)
  stats : Stats
  out : List (List Byte)

inductive RxOp
  | arrive (f : List Byte)
  | take

/-- One step of the receive side. -/
def rxStep (cfg : Cfg) (s : Rx) : RxOp → Option Rx
  | .arrive f => some (if s.fifo.length < fifoDepth then { s with fifo := s.fifo ++ [wireFrame cfg f] } else s)
  | .take =>
    match s.fifo with
    | [] => some s
    | f :: fs => (rxFrame cfg s.stats f).map fun r => { fifo := fs, stats := r.1, out := s.out ++ r.2.toList }

def rxRun (cfg : Cfg) (s : Rx) (ops : List RxOp) : Option Rx := ops.foldlM (rxStep cfg) s

/-! ## Registers -/

inductive Dir | tx | rx
  deriving DecidableEq, Repr

/-- The `stats_update64` calls of `tick` (166-222), with the register addresses of
`regs-mrmac.h` 532-627, 928-1023. -/
def tickTable : List (Dir × Ctr × Nat) := [
  (.tx, .total, 0x818), (.tx, .good, 0x820), (.tx, .bytes, 0x828), (.tx, .goodBytes, 0x830),
  (.tx, .size .p64, 0x838), (.tx, .size .p65, 0x840), (.tx, .size .p128, 0x848), (.tx, .size .p256, 0x850),
  (.tx, .size .p512, 0x858), (.tx, .size .p1024, 0x860), (.tx, .size .p1519, 0x868), (.tx, .size .p1523, 0x870),
  (.tx, .size .p1549, 0x878), (.tx, .size .p2048, 0x880), (.tx, .size .p4096, 0x888), (.tx, .size .p8192, 0x890),
  (.tx, .size .large, 0x898), (.tx, .size .small, 0x8a0), (.tx, .badFcs, 0x8d0), (.tx, .unicast, 0x8e8),
  (.tx, .multicast, 0x8f0), (.tx, .broadcast, 0x8f8), (.tx, .vlan, 0x900), (.tx, .pause, 0x908),
  (.rx, .total, 0xe30), (.rx, .good, 0xe38), (.rx, .bytes, 0xe40), (.rx, .goodBytes, 0xe48),
  (.rx, .size .p64, 0xe50), (.rx, .size .p65, 0xe58), (.rx, .size .p128, 0xe60), (.rx, .size .p256, 0xe68),
  (.rx, .size .p512, 0xe70), (.rx, .size .p1024, 0xe78), (.rx, .size .p1519, 0xe80), (.rx, .size .p1523, 0xe88),
  (.rx, .size .p1549, 0xe90), (.rx, .size .p2048, 0xe98), (.rx, .size .p4096, 0xea0), (.rx, .size .p8192, 0xea8),
  (.rx, .size .large, 0xeb0), (.rx, .size .small, 0xeb8), (.rx, .badFcs, 0xee8), (.rx, .unicast, 0xf00),
  (.rx, .multicast, 0xf08), (.rx, .broadcast, 0xf10), (.rx, .vlan, 0xf18), (.rx, .pause, 0xf20)]

/-- Register file and the accumulators of both directions. -/
structure Regs where
  regs : Nat → BitVec 32
  stats : Dir → Stats

/-- `stats_update64` (mrmac.h 142-149); `rb.regs` is indexed by address / 4. -/
def update64 (r : Regs) (e : Dir × Ctr × Nat) : Regs :=
  let v := r.stats e.1 e.2.1
  { regs := fun i => if i = e.2.2 / 4 + 1 then BitVec.ofNat 32 (v / 2 ^ 32)
                     else if i = e.2.2 / 4 then BitVec.ofNat 32 v else r.regs i
    stats := fun d c => if d = e.1 ∧ c = e.2.1 then 0 else r.stats d c }

def tick (r : Regs) : Regs := tickTable.foldl update64 r

/-- `reg_b_transport` (396-416) after the register block handled the access: the
tick is taken for any access, read or write, to the tick register.  `none`: more
than four bytes are copied into the 32-bit local. -/
def regAccess (r : Regs) (addr len : Nat) : Option Regs :=
  if len > 4 then none
  else if addr = 0x2c then some (tick r) else some r

end Verif.Mrmac
