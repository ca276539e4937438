import Verif.Axi.Spec
import Verif.Tlm2Axi.Spec

/-! # AXI to TLM bridge: bursts

`tlm-bridges/axi2tlm-bridge.h`.  `db` is `DATA_WIDTH / 8`.  The payload is the
record of `Verif.Tlm2Axi`, so that its byte meaning is the shared specification.
ACE transactions without data are not modelled. -/

namespace Verif.Axi2Tlm
open Verif Verif.Axi

/-- `Align` (366-369). -/
def align (addr to : Nat) : Nat := addr / to * to

/-- Data length of the transaction (278-289, `GetDataLen` 371-378). -/
def dataLen (db : Nat) (a : Ax) : Nat :=
  if a.burst = .fixed then a.beats * db
  else a.nb - (a.addr - align a.addr a.nb) + (a.beats - 1) * a.nb

/-- Address put in the payload (316-320). -/
def gpAddr (db : Nat) (a : Ax) : Nat := if a.burst = .fixed then align a.addr db else a.addr

/-- Streaming width (333-341). -/
def gpSw (db : Nat) (a : Ax) : Nat :=
  match a.burst with
  | .incr => dataLen db a
  | .fixed => db
  | .wrap => a.nb * a.beats

/-- `FillData` (394-426) for the beat number `beat`, counted from 1: the payload
bytes so far, `none` for a disabled byte. -/
def fillBeat (db : Nat) (a : Ax) (beat : Nat) (acc : List (Option Byte)) (w : WBeat) : List (Option Byte) :=
  let i := if beat = 1 then gpAddr db a - align (gpAddr db a) db else 0
  acc ++ (List.range' i (min (db - i) (dataLen db a - acc.length))).map fun l => if w.strb l then some (w.data l) else none

/-- `write_data_phase` (1184-1197): all beats of one transaction. -/
def fillAll (db : Nat) (a : Ax) : Nat → List (Option Byte) → List WBeat → List (Option Byte)
  | _, acc, [] => acc
  | beat, acc, w :: ws => fillAll db a (beat + 1) (fillBeat db a beat acc w) ws

/-- `TryDropBE` (512-532). -/
def tryDropBE (be : List Bool) : List Bool := if be.all id then [] else be

/-- The write handed to the target.  Disabled bytes are uninitialised memory;
here 0. -/
def writeGp (db : Nat) (a : Ax) (bs : List WBeat) : Tlm2Axi.Gp :=
  let acc := fillAll db a 1 [] bs
  { addr := gpAddr db a
    len := dataLen db a
    sw := gpSw db a
    data := fun i => (acc.getD i none).getD 0
    be := tryDropBE (acc.map Option.isSome)
    wrap := a.burst = .wrap
    burstWidth := a.nb }

/-- The read handed to the target: no byte enables (265-276, 329-332). -/
def readGp (db : Nat) (a : Ax) (data : Nat → Byte) : Tlm2Axi.Gp :=
  { addr := gpAddr db a, len := dataLen db a, sw := gpSw db a, data := data, be := [], wrap := a.burst = .wrap, burstWidth := a.nb }

/-- Lanes that `GetData` (429-478) fills in beat `beat`, counted from 1. -/
def getLanes (db : Nat) (a : Ax) (beat : Nat) : Nat × Nat :=
  let addr := gpAddr db a
  if a.burst = .fixed then (0, db - 1)
  else if beat = 1 then (addr - align addr db, align addr a.nb + (a.nb - 1) - align addr db)
  else
    let x := align addr a.nb + (beat - 1) * a.nb
    (x - align x db, x - align x db + (a.nb - 1))

/-- Number of buffer bytes `GetData` uses in a beat. -/
def getCount (db : Nat) (a : Ax) (beat : Nat) : Nat :=
  let p := getLanes db a beat
  min (p.2 + 1) db - p.1

/-- Where in the buffer the beat starts (`m_dataIdx`). -/
def getIdx (db : Nat) (a : Ax) : Nat → Nat
  | 0 => 0
  | 1 => 0
  | beat + 1 => getIdx db a beat + getCount db a beat

/-- The read data bus in beat `beat`; lanes outside keep what they carried before. -/
def getBeat (db : Nat) (a : Ax) (data : Nat → Byte) (prev : Nat → Byte) (beat : Nat) : Nat → Byte :=
  let p := getLanes db a beat
  fun l => if p.1 ≤ l ∧ l ≤ p.2 then data (getIdx db a beat + (l - p.1)) else prev l

end Verif.Axi2Tlm
