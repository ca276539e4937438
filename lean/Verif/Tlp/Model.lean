import Verif.Base.Bytes
import Verif.Base.Range

/-! # The TLM to PCIe TLP bridge

tlm-bridges/tlm2tlp-bridge.h and tlm-bridges/pci.h.  Words of `m_hdr` are natural numbers (below `2^32`
by construction), a failed assertion, a read outside a buffer and other undefined behaviour are `none`.
The host is little endian.  Sockets, delays and the texts of reports are not modelled. -/

namespace Verif.Tlp
open Verif

/-- A TLM access with the two identifiers of its `genattr_extension` (0 when it has none).  For a read
`gp.data` is the buffer before the access. -/
structure Req where
  gp : Gp
  master : Nat := 0
  tag : Nat := 0
  deriving Repr

/-- `GEN_TLP_HDR_FIELD_FUNCS`, `get_` (tlm2tlp-bridge.h 43-47). -/
def getF (x s w : Nat) : Nat := (x >>> s) &&& (2 ^ w - 1)

/-- `GEN_TLP_HDR_FIELD_FUNCS`, `set_` (tlm2tlp-bridge.h 48-52): asserts that the value fits. -/
def setF (v s w : Nat) : Option Nat := if v < 2 ^ w then some (v <<< s) else none

/-- Four bytes of a TLP as a word, first byte uppermost (e.g. 585-588). -/
def word (a b c d : Byte) : Nat := a.toNat <<< 24 ||| b.toNat <<< 16 ||| c.toNat <<< 8 ||| d.toNat

/-- Bits [31:0] of every header the bridge builds (e.g. 273-290); the fields set to 0 are left out. -/
def hdr0 (fmt type len : Nat) : Option Nat := do
  let f ← setF fmt 29 3
  let t ← setF type 24 5
  let l ← setF len 0 10
  some (f ||| t ||| l)

/-- Bits [63:32] of a request (319-323, 512-516). -/
def hdr1 (master tag last first : Nat) : Option Nat := do
  let r ← setF master 16 16
  let t ← setF tag 8 8
  let l ← setF last 4 4
  let f ← setF first 0 4
  some (r ||| t ||| l ||| f)

/-- The loops that collect byte enables: bit `sh i` for each enabled byte `i` of the list (304-317,
482-491, 498-507). -/
def beBits (be : List Bool) (sh : Nat → Nat) (is : List Nat) : Nat :=
  is.foldl (fun acc i => if beEnabled be i then acc ||| 1 <<< sh i else acc) 0

/-! ## Configuration requests -/

/-- The data word of a configuration write (339-350).  The shift `(3 - start - i) * 8` is computed
without sign; where it would be negative the behaviour is undefined. -/
def confData (start : Nat) : Nat → List Byte → Option Nat
  | _, [] => some 0
  | i, d :: ds =>
    if start + i ≤ 3 then (confData start (i + 1) ds).map (d.toNat <<< ((3 - start - i) * 8) ||| ·) else none

/-- `TLP_Conf(gp)` (257-374). -/
def conf (r : Req) : Option (List Nat) := do
  let addr := r.gp.addr % 2 ^ 32
  let w := r.gp.cmd == .write
  let h0 ← hdr0 (if w then 2 else 0) 4 1
  let dlen := min r.gp.len 4
  let h1 ← hdr1 r.master r.tag 0 (beBits r.gp.be (fun i => getF addr 0 2 + i) (List.range dlen))
  let b ← setF (getF addr 20 8) 24 8
  let d ← setF (getF addr 15 5) 19 5
  let f ← setF (getF addr 12 3) 16 3
  let e ← setF (getF addr 8 4) 8 4
  let n ← setF (getF addr 2 6) 2 6
  let h2 := b ||| d ||| f ||| e ||| n
  if w then do
    let v ← confData (getF addr 0 2) 0 (r.gp.data.take dlen)
    some [h0, h1, h2, v]
  else some [h0, h1, h2]

/-! ## Memory requests -/

/-- The data words of a memory write (539-559) when there are at least four bytes: every round reads
four. -/
def quads : List Byte → Option (List Nat)
  | [] => some []
  | a :: b :: c :: d :: t => (quads t).map (word a b c d :: ·)
  | _ => none

/-- The data words of a memory write (539-559): `if (len > k)` looks at the length of the whole buffer. -/
def memData : List Byte → Option (List Nat)
  | [a] => some [word a 0 0 0]
  | [a, b] => some [word a b 0 0]
  | [a, b, c] => some [word a b c 0]
  | d => quads d

/-- Number of words that hold the data (437, 446-452). -/
def dwLen (g : Gp) : Nat := g.len / 4 + (if g.len % 4 ≠ 0 then 1 else 0)

/-- `TLP_Mem(gp)` (420-589).  A shift `1 << i` with `i ≥ 32` is undefined; here its bit also makes the
assertion of `set_lastDWBE` fail. -/
def mem (r : Req) : Option (List Nat) := do
  let addr := r.gp.addr
  let w := r.gp.cmd == .write
  let wide := addr >>> 32 ≠ 0
  let n := dwLen r.gp
  let h0 ← hdr0 ((if w then 2 else 0) + (if wide then 1 else 0)) 0 (if n = 1024 then 0 else n)
  let first := if 1 ≤ n then (if r.gp.be = [] then 15 else beBits r.gp.be (fun i => i) (List.range 4)) else 0
  let last := if 1 < n then
      (if r.gp.be = [] then 15 else beBits r.gp.be (fun i => i) (List.range' ((n - 1) * 4) 4)) else 0
  let h1 ← hdr1 r.master r.tag last first
  let a ← setF (getF (addr % 2 ^ 32) 2 30) 2 30
  let hdr := [h0, h1] ++ (if wide then [addr >>> 32] else []) ++ [a]
  if w then (memData r.gp.data).map (hdr ++ ·) else some hdr

/-- The TLP as it is in memory after `ByteSwap` (197-208), which is what the other side receives. -/
def wire (ws : List Nat) : List Byte := ws.flatMap (beEnc 4)

/-- `byteswap` (186-195). -/
def swap (w : Nat) : Nat := leDec (beEnc 4 w)

/-! ## Completions received -/

/-- `TLP_Cpl(hdr, len)` (826-854): the header, and the first word of data without a look at the
length. -/
def rxCpl (d : List Byte) : Option (List Nat) :=
  match d with
  | a0 :: a1 :: a2 :: a3 :: b0 :: b1 :: b2 :: b3 :: c0 :: c1 :: c2 :: c3 :: t =>
    let h := [word a0 a1 a2 a3, word b0 b1 b2 b3, word c0 c1 c2 c3]
    if getF (word a0 a1 a2 a3) 29 3 = 2 then
      match t with
      | d0 :: d1 :: d2 :: d3 :: _ => some (h ++ [word d0 d1 d2 d3])
      | _ => none
    else some h
  | _ => none

/-- `TLP_Cpl::GetTxID` (856-860). -/
def cplTx (h : List Nat) : Nat :=
  getF (h.getD 2 0) 16 16 <<< 16 ||| getF (h.getD 0 0) 23 1 <<< 9 ||| getF (h.getD 0 0) 19 1 <<< 8 |||
    getF (h.getD 2 0) 8 8

/-- `GetTxID` of a request (379-383, 660-664). -/
def reqTx (h : List Nat) : Nat :=
  getF (h.getD 1 0) 16 16 <<< 16 ||| getF (h.getD 0 0) 23 1 <<< 9 ||| getF (h.getD 0 0) 19 1 <<< 8 |||
    getF (h.getD 1 0) 8 8

/-- `ExpectsData` (131-142). -/
def expectsData (h : List Nat) : Bool :=
  let ty := getF (h.getD 0 0) 24 5
  (ty == 4 || ty == 0) && getF (h.getD 0 0) 30 1 == 0

/-- `IsCplD` (862-865). -/
def isCplD (h : List Nat) : Bool := getF (h.getD 0 0) 29 3 == 2

/-- `GetTLPData` (146-156): asserts that the word exists. -/
def tlpData (h : List Nat) (k : Nat) : Option Nat :=
  h[(if getF (h.getD 0 0) 29 3 = 2 then 3 else 4) + k]?

/-- One round of `CopyData` (164-183): word `k` of the completion, shifted by the byte offset of the
address; at most four of its bytes are used. -/
def copyWord (off : Nat) (c : List Nat) (k : Nat) : Option (List Byte) :=
  let n := getF (c.getD 0 0) 0 10
  let n := if n = 0 then 1024 else n
  let v := if k < n then tlpData c k else some 0
  v.map fun v => beEnc 4 ((v <<< (off * 8)) % 2 ^ 32)

/-- The loop of `CopyData` from word `k` on. -/
def copyWords (off : Nat) (c : List Nat) (k : Nat) : Nat → Option (List Byte)
  | 0 => some []
  | n + 1 => do
    let w ← copyWord off c k
    let ws ← copyWords off c (k + 1) n
    some (w ++ ws)

/-- `CopyData` (163-184): the buffer afterwards. -/
def copyData (g : Gp) (c : List Nat) : Option (List Byte) :=
  (copyWords (g.addr % 4) c 0 (dwLen g)).map (·.take g.len)

/-- What `b_transport` does with a completion for the request `r` whose `m_hdr` is `h` (1011-1038): the
status and the data of the access. -/
def complete (r : Req) (h c : List Nat) : Option (Status × List Byte) :=
  if expectsData h && isCplD c then (copyData r.gp c).map (.ok, ·)
  else if !expectsData h && !isCplD c then some (.ok, r.gp.data)
  else some (.generic, r.gp.data)

/-! ## Memory requests received (DMA) -/

/-- What the DMA thread gets out of a memory TLP.  `data` is `m_tlp_data`: absent when the format says
there is none. -/
structure Dma where
  read : Bool
  addr : Nat
  dw : Nat
  master : Nat
  tag : Nat
  data : Option (List Byte)
  deriving DecidableEq, Repr

/-- `TLP_Mem(hdr, b_len)` (591-651) with `IsMemRd` (666-680), `GetAddress` (682-699) and `get_genattr`
(1068-1076). -/
def rxMem (d : List Byte) : Option Dma :=
  match d with
  | a0 :: a1 :: a2 :: a3 :: b0 :: b1 :: b2 :: b3 :: c0 :: c1 :: c2 :: c3 :: t =>
    let h0 := word a0 a1 a2 a3
    let h1 := word b0 b1 b2 b3
    let h2 := word c0 c1 c2 c3
    let fmt := getF h0 29 3
    let n := if getF h0 0 10 = 0 then 1024 else getF h0 0 10
    let rest := if fmt = 1 ∨ fmt = 3 then
        match t with
        | e0 :: e1 :: e2 :: e3 :: u => some (h2 <<< 32 ||| getF (word e0 e1 e2 e3) 2 30 <<< 2, u)
        | _ => none
      else some (getF h2 2 30 <<< 2, t)
    rest.bind fun (addr, u) =>
      if fmt = 2 ∨ fmt = 3 then
        if n * 4 ≤ u.length then
          some ⟨false, addr, n, getF h1 16 16, getF h1 8 8, some (u.take (n * 4))⟩
        else none
      else some ⟨fmt == 0 || fmt == 1, addr, n, getF h1 16 16, getF h1 8 8, none⟩
  | _ => none

/-- The words of a buffer, the last one filled up with zeros (782-804). -/
def padQuads : List Byte → List Nat
  | [] => []
  | [a] => [word a 0 0 0]
  | [a, b] => [word a b 0 0]
  | [a, b, c] => [word a b c 0]
  | a :: b :: c :: d :: t => word a b c d :: padQuads t

/-- `TLP_Cpl(gp)` (714-824) for a read `gp` that returned `data` with `TLM_OK_RESPONSE`; there are no
byte enables, so the lower address is 0. -/
def cpl (master tag : Nat) (data : List Byte) : Option (List Nat) := do
  let n := data.length / 4 + (if data.length % 4 ≠ 0 then 1 else 0)
  let h0 ← hdr0 2 10 (if n = 1024 then 0 else n)
  let h1 ← setF (if data.length = 4096 then 0 else data.length) 0 12
  let r ← setF master 16 16
  let t ← setF tag 8 8
  some ([h0, h1, r ||| t] ++ padQuads data)

/-- `ProcessReadDMA` and `ProcessWriteDMA` (1078-1138) on the memory behind `dma_init_socket`, which
answers OK: the memory afterwards and the TLP sent.  A write without data is a null pointer. -/
def dma (m : Mem) (t : Dma) : Option (Mem × Option (List Byte)) :=
  if t.read then (cpl t.master t.tag (m.range t.addr (t.dw * 4))).map fun ws => (m, some (wire ws))
  else t.data.map fun d =>
    ((({ cmd := .write, addr := t.addr, data := d, sw := t.dw * 4 } : Gp).run m).1, none)

end Verif.Tlp
