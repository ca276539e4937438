import Verif.Cxs.Msg

/-!
Packets on flits: `CXSCntl`, `TLP::CreateFlit` and `TLPAssembler` of
`/repo/tlm-bridges/private/ccix/pkts.h`, `processRxCntl` and `processRxData` of
`rxlink.h`.

A flit is the list of its bytes, bits 7 to 0 first; positions are in bytes (the
code counts bits). The receiver takes the flit 32 bits at a time and splits the
value into bytes again, least significant first: the same bytes in order.
-/
namespace Verif.Cxs

/-- Template parameters of the bridge (`/repo/tlm-bridges/tlm2cxs-bridge.h`
45-49): flit width in 32-bit words, packets per flit. -/
structure Cfg where
  words : Nat
  maxPkt : Nat

/-- `CXS_LOG2` (`tlm2cxs-bridge.h` 39-43). -/
def cxsLog2 (x : Nat) : Nat :=
  if x = 2 then 1 else if x = 4 then 2 else if x = 8 then 3 else if x = 16 then 4 else 5

/-- `START_PTR_WIDTH`, `END_PTR_WIDTH`, `CNTL_WIDTH` (70-80). -/
def Cfg.startW (c : Cfg) : Nat := cxsLog2 (c.words / 4)
def Cfg.endW (c : Cfg) : Nat := cxsLog2 c.words
def Cfg.cntlW (c : Cfg) : Nat := 3 * c.maxPkt + c.maxPkt * c.startW + c.maxPkt * c.endW

/-- `EndBits_Shift`, `EndPtrs_Shift` (pkts.h 1340-1348). -/
def Cfg.endBits (c : Cfg) : Nat := c.maxPkt + c.maxPkt * c.startW
def Cfg.endPtrs (c : Cfg) : Nat := c.endBits + c.maxPkt + c.maxPkt

/-- `CXSCntl`: `m_startPtrs`, `m_endPtrs` (1461-1462). -/
structure Cntl where
  starts : List Nat := []
  ends : List Nat := []
  deriving DecidableEq, Repr

/-- One start or end of `to_uint64` (1380-1413): flag and pointer. Both shifts
are done in 32 bits; `none` when the flag reaches the sign bit or the pointer's
shift reaches 32 (undefined). -/
def ptrTerm (flag shift width ptr : Nat) : Option (BitVec 64) :=
  if flag < 31 ∧ shift < 32 then
    some ((1#32 <<< flag).setWidth 64 ||| (BitVec.ofNat 32 (ptr % 2 ^ width) <<< shift).setWidth 64)
  else none

/-- The terms of a list of pointers, from index `i`. -/
def ptrTerms (flag0 shift0 width : Nat) : Nat → List Nat → Option (BitVec 64)
  | _, [] => some 0
  | i, p :: ps => (ptrTerm (flag0 + i) (shift0 + i * width) width p).bind fun t =>
      (ptrTerms flag0 shift0 width (i + 1) ps).map (t ||| ·)

/-- `to_uint64` (1375-1415), then the width of the `txcntl` port. -/
def Cntl.toWord (c : Cfg) (n : Cntl) : Option (BitVec 64) :=
  (ptrTerms 0 c.maxPkt c.startW 0 n.starts).bind fun s =>
    (ptrTerms c.endBits c.endPtrs c.endW 0 n.ends).map fun e =>
      ((s ||| e).setWidth c.cntlW).setWidth 64

/-- One loop of `ParseCntl` (1429-1458). -/
def parsePtrs (w : BitVec 64) (flag0 shift0 width n : Nat) : List Nat :=
  (List.range n).filterMap fun i =>
    if w.getLsbD (flag0 + i) then some (w.toNat / 2 ^ (shift0 + i * width) % 2 ^ width) else none

/-- `ParseCntl` (1427-1459). -/
def Cntl.parse (c : Cfg) (w : BitVec 64) : Cntl :=
  ⟨parsePtrs w 0 c.maxPkt c.startW c.maxPkt, parsePtrs w c.endBits c.endPtrs c.endW c.maxPkt⟩

/-- A packet being sent (`TLP` 1466-1703): `m_tlp`, `m_pos`, `m_tlpDone`. -/
structure Tlp where
  bytes : List Byte
  pos : Nat := 0
  done : Bool := false
  deriving DecidableEq, Repr

/-- `CreateFlit` (1504-1546) called with position 0 (`txlink.h` 132); the first
argument is what is left of the previous content of `txdata`, `p` the position.
`none`: the assertion on `m_pos` fails. -/
def fill : List Byte → Nat → Tlp → Cntl → Option (List Byte × Tlp × Cntl)
  | [], _, t, n => some ([], t, n)
  | o :: old, p, t, n =>
    if t.done then some (o :: old, t, n)
    else match t.bytes[t.pos]? with
      | none => none
      | some b =>
        let n := if t.pos = 0 then { n with starts := n.starts ++ [p / 16] } else n
        let n := if t.pos + 4 = t.bytes.length then { n with ends := n.ends ++ [p / 4] } else n
        (fill old (p + 1) { t with pos := t.pos + 1, done := t.pos + 1 = t.bytes.length } n).map
          fun r => (b :: r.1, r.2)

/-- `TLPAssembler` (1706-1739): start and end positions in bytes. -/
structure Asm where
  start : Nat
  stop : Option Nat := none
  data : List Byte := []
  deriving DecidableEq, Repr

/-- Assigning the end pointers (`rxlink.h` 210-230); more ends than assemblers
fail an assertion. -/
def setEnds : List Asm → List Nat → Option (List Asm)
  | as, [] => some as
  | [], _ :: _ => none
  | a :: as, e :: es => (setEnds as es).map ({ a with stop := some (e * 4) } :: ·)

/-- `processRxCntl` (`rxlink.h` 182-231). -/
def rxCntl (n : Cntl) (as : List Asm) : Option (List Asm) :=
  setEnds (as ++ n.starts.map fun s => { start := s * 16 }) n.ends

/-- The end of `processRxData` (274-281): at most one packet continues. -/
def rxEnd : List Asm → List Msg → Option (List Asm × List Msg)
  | [], msgs => some ([], msgs)
  | [a], msgs => some ([{ a with start := 0 }], msgs)
  | _, _ => none

/-- `processRxData` (236-282) from position `p` on. -/
def rxData (k : Hdr) : List Byte → Nat → List Asm → List Msg → Option (List Asm × List Msg)
  | b0 :: b1 :: b2 :: b3 :: rest, p, as, msgs =>
    match as with
    | [] => rxData k rest (p + 4) [] msgs
    | a :: as =>
      if a.start ≤ p then
        let a := { a with data := a.data ++ [b0, b1, b2, b3] }
        if a.stop = some p then
          (extract k a.data msgs).bind fun msgs => rxData k rest (p + 4) as msgs
        else rxData k rest (p + 4) (a :: as) msgs
      else rxData k rest (p + 4) (a :: as) msgs
  | _, _, as, msgs => rxEnd as msgs

/-- Reception of a flit (`rxlink.h` 134-136). -/
def rxFlit (c : Cfg) (k : Hdr) (data : List Byte) (w : BitVec 64) (as : List Asm) (msgs : List Msg) :
    Option (List Asm × List Msg) :=
  (rxCntl (Cntl.parse c w) as).bind fun as => rxData k data 0 as msgs

end Verif.Cxs
