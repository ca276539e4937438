import Verif.Ccix.Model

/-! What it means for a CHI request, its data, a response or a snoop to cross from
one chip to the other. Written in terms of CHI only. -/
namespace Verif.Ccix.Spec
open Verif.Ccix

/-- `q'` is the same kind of access to memory as `q`. -/
structure SameMem (q q' : ChiReq) : Prop where
  device : q'.device = q.device
  cacheable : q'.cacheable = q.cacheable
  allocate : q'.allocate = q.allocate
  ewa : q.device = true → q'.ewa = q.ewa
  endpoint : q.device = true → (q'.order = 3 ↔ q.order = 3)

/-- `q'` is the request `q`. -/
structure SameReq (q q' : ChiReq) : Prop where
  opcode : q'.opcode = q.opcode
  addr : q'.addr = q.addr
  tgtID : q'.tgtID = q.tgtID
  srcID : q'.srcID = q.srcID
  txnID : q'.txnID = q.txnID
  nonSecure : q'.nonSecure = q.nonSecure
  qos : q'.qos = q.qos
  mem : SameMem q q'

/-- Byte `i` of a line of data is enabled. -/
def on (d : Dat) (i : Nat) : Bool := d.be.getD i false

/-- `d'` has the same bytes enabled as `d`, with the same values. -/
def SameBytes (d d' : Dat) : Prop :=
  ∀ i, i < 64 → on d' i = on d i ∧ (on d i = true → d'.data.getD i 0 = d.data.getD i 0)

/-- The attributes CHI allows for memory: device memory is neither cacheable nor
allocated, and without endpoint order its writes are acknowledged early; only
cacheable memory is allocated. -/
structure MemOk (q : ChiReq) : Prop where
  device : q.device = true → q.cacheable = false ∧ q.allocate = false
  early : q.device = true → q.order ≠ 3 → q.ewa = true
  allocate : q.allocate = true → q.cacheable = true

/-- The bytes of its line that a request for `len` bytes at `addr` is about: from
the address (device memory) or the address aligned to the length (other memory,
and compare operations) up to the end of the aligned block. -/
def about (q : ChiReq) (i : Nat) : Bool :=
  let lo := if q.device ∧ q.opcode ≠ 0x39 then q.addr.toNat else q.addr.toNat - q.addr.toNat % q.len
  let hi := q.addr.toNat - q.addr.toNat % q.len + q.len
  let base := q.addr.toNat - q.addr.toNat % 64
  decide (lo ≤ base + i ∧ base + i < hi)

/-- The bytes of its line that the answer to a request is about: a compare returns
half as many as it was given. -/
def answered (q : ChiReq) (i : Nat) : Bool :=
  about { q with len := if q.opcode = 0x39 then q.len / 2 else q.len } i

/-- CHI reads. -/
def reads : List (BitVec 8) := [0x01, 0x02, 0x03, 0x04, 0x07, 0x24, 0x25, 0x26]

/-- CHI requests without data, other than stashing ones. -/
def dataless : List (BitVec 8) := [0x08, 0x09, 0x0A, 0x0B, 0x0C, 0x0D, 0x27]

/-- CHI writes that are not copy-backs, other than stashing ones: partial and full
`WriteNoSnp` and `WriteUnique`. -/
def plainWrites : List (BitVec 8) := [0x18, 0x19, 0x1C, 0x1D]

/-- CHI writes of a part of a line. -/
def partialWrites : List (BitVec 8) := [0x18, 0x1A, 0x1C]

/-- CHI atomics. -/
def atomics : List (BitVec 8) := (List.range 18).map fun i => BitVec.ofNat 8 (0x28 + i)

/-- Identifiers that CCIX has room for. -/
structure IdsOk (q : ChiReq) : Prop where
  tgtID : q.tgtID.toNat < 64
  srcID : q.srcID.toNat < 64

/-- The demand a snoop makes on a cache: what may remain of the line, and whether
dirty data may be thrown away. -/
inductive Demand
  | nothing
  | shared
  | clean
  | gone
  | discarded
  deriving DecidableEq

/-- The demand of a CHI snoop (CHI specification, table of snoop requests). -/
def demand (op : BitVec 8) : Option Demand :=
  match op.toNat with
  | 0x03 => some .nothing
  | 0x01 => some .shared
  | 0x02 => some .shared
  | 0x04 => some .shared
  | 0x08 => some .clean
  | 0x07 => some .gone
  | 0x09 => some .gone
  | 0x0A => some .discarded
  | _ => none

/-- The answers to a snoop that CHI has: without data, any state that is not unique
and dirty; with data, any state, with or without responsibility for it except that a
cache keeps dirty data it does not pass on; with partial data, only dirty. -/
def answers : List SnpAns :=
  [.resp 0, .resp 1, .resp 2, .resp 3, .data 0, .data 1, .data 2, .data 3, .data 4, .data 5, .data 6,
    .partialData 4, .partialData 2, .compAck]

end Verif.Ccix.Spec
