import Verif.Base.Bytes

/-!
# AXI-Stream bridges

Models `/repo/tlm-bridges/tlm2axis-bridge.h` (`b_transport`, 79-140) and
`/repo/tlm-bridges/axis2tlm-bridge.h` (`get_last_byte`, `run_tlm`, `axis_thread`,
77-169).  Reset and `tuser` are not modelled.
-/

namespace Verif.Axis
open Verif

/-- `tdata`/`tstrb` lane by lane, and `tlast`. -/
structure Beat where
  lanes : List (Byte × Bool)
  last : Bool
  deriving DecidableEq, Repr

/-- A stream write: data and end-of-packet (`genattr` absent counts as `true`). -/
structure Wr where
  data : List Byte
  eop : Bool
  deriving DecidableEq, Repr

/-- One beat (tlm2axis 103-119): fresh zeroed vectors, then the next bytes. -/
def mkBeat (w : Nat) (data : List Byte) (eop : Bool) : Beat :=
  { lanes := (data.take w).map (fun b => (b, true)) ++ List.replicate (w - data.length) (0, false)
    last := decide (data.length ≤ w) && eop }

/-- The `do … while (pos < len)` loop (tlm2axis 102-131); `fuel` bounds it (one
beat even for an empty write). -/
def beatsN : Nat → Nat → List Byte → Bool → List Beat
  | 0, w, data, eop => [mkBeat w data eop]
  | fuel + 1, w, data, eop =>
    mkBeat w data eop :: (if data.length ≤ w then [] else beatsN fuel w (data.drop w) eop)

def beats (w : Nat) (x : Wr) : List Beat := beatsN x.data.length w x.data x.eop

/-- `MAX_DATA` (axis2tlm 75). -/
def maxData : Nat := 4 * 1024

/-- Collector state: bytes gathered (`data[0..pos)`) and writes issued. -/
structure Rx where
  buf : List Byte
  out : List Wr
  deriving DecidableEq, Repr

/-- `get_last_byte` (axis2tlm 77-90). -/
def lastByte (b : Beat) : Nat :=
  (List.range b.lanes.length).foldl (fun acc i => if (b.lanes.getD i (0, false)).2 then i else acc) 0

/-- The lane loop (axis2tlm 145-160).  `cur` are the wires as read by this
iteration: `run_tlm` waits (at least a delta cycle), after which the wires
carry `next`, whatever the transmitter drives by then.  `lb` was computed before
the loop. -/
def laneLoop (w lb : Nat) (next : Beat) : Nat → Nat → Beat → Rx → Beat × Rx
  | 0, _, cur, r => (cur, r)
  | n + 1, i, cur, r =>
    let l := cur.lanes.getD i (0, false)
    if l.2 then
      let buf := r.buf ++ [l.1]
      if buf.length = maxData then
        laneLoop w lb next n (i + 1) next { buf := [], out := r.out ++ [⟨buf, cur.last && decide (i = lb)⟩] }
      else laneLoop w lb next n (i + 1) cur { r with buf := buf }
    else laneLoop w lb next n (i + 1) cur r

/-- One accepted beat (axis2tlm 141-167). -/
def rxBeat (w : Nat) (r : Rx) (cur next : Beat) : Rx :=
  let p := laneLoop w (lastByte cur) next w 0 cur r
  if p.1.last ∧ p.2.buf ≠ [] then { buf := [], out := p.2.out ++ [⟨p.2.buf, true⟩] } else p.2

/-! ## Clock level: the ready/valid handshake -/

/-- Both endpoints.  `blk1`: clocks the collector is still inside its target's
`b_transport`, with `tready` still high; `blk2`: clocks it spends in
`wait(delay)` with `tready` low (axis2tlm 100-104). -/
structure Sys where
  pending : List Beat
  rx : Rx
  blk1 : Nat
  blk2 : Nat

/-- What the transmitter drives after the handshake of `b` (tlm2axis 102-135):
the next beat, or the old lanes with `tlast` taken down. -/
def wiresAfter (b : Beat) : List Beat → Beat
  | [] => { b with last := false }
  | n :: _ => n

/-- One rising clock edge.  `k1`, `k2`: how long the target blocks if the
collector issues a write in this clock. -/
def step (w : Nat) (s : Sys) (k : Nat × Nat) : Sys :=
  if s.blk1 > 0 then { s with blk1 := s.blk1 - 1, pending := s.pending.tail }
  else if s.blk2 > 0 then { s with blk2 := s.blk2 - 1 }
  else
    match s.pending with
    | [] => s
    | b :: bs =>
      let rx := rxBeat w s.rx b (wiresAfter b bs)
      if rx.out.length = s.rx.out.length then { s with pending := bs, rx := rx }
      else { pending := bs, rx := rx, blk1 := k.1, blk2 := k.2 }

def run (w : Nat) (s : Sys) (ks : List (Nat × Nat)) : Sys := ks.foldl (step w) s

def Sys.init (l : List Beat) : Sys := { pending := l, rx := ⟨[], []⟩, blk1 := 0, blk2 := 0 }

end Verif.Axis
