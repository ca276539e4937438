import Verif.PcChi.Model

/-! # What a request has to look like

One row per opcode (4.2, tables 2.7, 2.8, 2.14, sections 2.8.5, 6.3, 8.1.4 and 12.9.27 of the CHI specification, the ones
named by the comments of the checker): the kind of transaction, whether `ExpCompAck` and `SnpAttr` have to be set, whether the
request may be ordered and whether the exclusive bit (`SnoopMe` of an atomic request) may be set. -/

namespace Verif.PcChi

inductive Rule | must | never | free
  deriving DecidableEq, Repr

def Rule.Ok : Rule → Bool → Prop
  | .must, b => b = true
  | .never, b => b = false
  | .free, _ => True

instance (r : Rule) (b : Bool) : Decidable (r.Ok b) := by cases r <;> unfold Rule.Ok <;> infer_instance

structure Row where
  kind : Option Kind
  ack : Rule
  attr : Rule
  order : Bool
  excl : Bool

def row : Nat → Option Row
  | 0x00 /- ReqLCrdReturn -/ => some ⟨none, .free, .free, false, false⟩
  | 0x01 /- ReadShared -/ => some ⟨some .read, .must, .must, false, true⟩
  | 0x02 /- ReadClean -/ => some ⟨some .read, .must, .must, false, true⟩
  | 0x03 /- ReadOnce -/ => some ⟨some .read, .free, .must, true, false⟩
  | 0x04 /- ReadNoSnp -/ => some ⟨some .read, .free, .never, true, true⟩
  | 0x05 /- PCrdReturn -/ => some ⟨none, .free, .free, false, false⟩
  | 0x07 /- ReadUnique -/ => some ⟨some .read, .must, .must, false, false⟩
  | 0x08 /- CleanShared -/ => some ⟨some .dataless, .never, .free, false, false⟩
  | 0x09 /- CleanInvalid -/ => some ⟨some .dataless, .never, .free, false, false⟩
  | 0x0a /- MakeInvalid -/ => some ⟨some .dataless, .never, .free, false, false⟩
  | 0x0b /- CleanUnique -/ => some ⟨some .dataless, .must, .must, false, true⟩
  | 0x0c /- MakeUnique -/ => some ⟨some .dataless, .must, .must, false, false⟩
  | 0x0d /- Evict -/ => some ⟨some .dataless, .never, .must, false, false⟩
  | 0x14 /- DVMOp -/ => some ⟨some .write, .free, .free, false, false⟩
  | 0x15 /- WriteEvictFull -/ => some ⟨some .write, .never, .must, false, false⟩
  | 0x17 /- WriteCleanFull -/ => some ⟨some .write, .never, .must, false, false⟩
  | 0x18 /- WriteUniquePtl -/ => some ⟨some .write, .free, .must, true, false⟩
  | 0x19 /- WriteUniqueFull -/ => some ⟨some .write, .free, .must, true, false⟩
  | 0x1a /- WriteBackPtl -/ => some ⟨some .write, .never, .must, false, false⟩
  | 0x1b /- WriteBackFull -/ => some ⟨some .write, .never, .must, false, false⟩
  | 0x1c /- WriteNoSnpPtl -/ => some ⟨some .write, .never, .never, true, true⟩
  | 0x1d /- WriteNoSnpFull -/ => some ⟨some .write, .never, .never, true, true⟩
  | 0x20 /- WriteUniqueFullStash -/ => some ⟨some .write, .free, .must, true, false⟩
  | 0x21 /- WriteUniquePtlStash -/ => some ⟨some .write, .free, .must, true, false⟩
  | 0x22 /- StashOnceShared -/ => some ⟨some .dataless, .never, .must, false, false⟩
  | 0x23 /- StashOnceUnique -/ => some ⟨some .dataless, .never, .must, false, false⟩
  | 0x24 /- ReadOnceCleanInvalid -/ => some ⟨some .read, .free, .must, true, false⟩
  | 0x25 /- ReadOnceMakeInvalid -/ => some ⟨some .read, .free, .must, true, false⟩
  | 0x26 /- ReadNotSharedDirty -/ => some ⟨some .read, .must, .must, false, true⟩
  | 0x27 /- CleanSharedPersist -/ => some ⟨some .dataless, .never, .free, false, false⟩
  | 0x3a /- PrefetchTgt -/ => some ⟨none, .free, .free, false, false⟩
  | op =>
    if 0x28 ≤ op ∧ op ≤ 0x2f /- AtomicStore, eight operations -/ then some ⟨some .write, .never, .free, true, true⟩
    else if 0x30 ≤ op ∧ op ≤ 0x39 /- AtomicLoad, eight operations, AtomicSwap, AtomicCompare -/ then
      some ⟨some .atomic, .never, .free, true, true⟩
    else none

/-- Atomic operations (2.10.5, 4.2.4): of one to eight bytes, at a multiple of their size; of `AtomicCompare`, which carries two
values, the size counts both: two to thirty-two bytes, at a multiple of the size of one value. -/
def AtomicOk (r : Req) : Prop :=
  (0x28 ≤ r.op → r.op ≤ 0x38 → r.size ≤ 3 ∧ 2 ^ r.size ∣ r.addr) ∧
  (r.op = 0x39 → 1 ≤ r.size ∧ r.size ≤ 5 ∧ 2 ^ (r.size - 1) ∣ r.addr)

/-- A `DVMOp` (8.1.4): eight bytes, everything else zero. -/
def DvmOk (r : Req) : Prop :=
  r.op = 0x14 → r.retNid = 0 ∧ r.stashValid = false ∧ r.retTxn = 0 ∧ r.size = 3 ∧ r.ns = false ∧ r.likely = false ∧ r.order = 0 ∧
    r.alloc = false ∧ r.cacheable = false ∧ r.device = false ∧ r.ewa = false ∧ r.snpAttr = false ∧ r.excl = false

/-- A request that may be told to retry (2.11.2) is sent without a credit; a prefetch and the return of a credit never are. -/
def RetryOk (r : Req) : Prop := r.retry = true → r.pcrd = 0 ∧ r.op ≠ 0x3a ∧ r.op ≠ 5

def ReqOk (r : Req) : Prop :=
  (∃ w, row r.op = some w ∧ w.ack.Ok r.ack ∧ w.attr.Ok r.snpAttr ∧ (r.order ≠ 0 → w.order = true) ∧ (r.excl = true → w.excl = true)) ∧
  r.order ≠ 1 ∧ r.size ≠ 7 ∧ RetryOk r ∧ AtomicOk r ∧ DvmOk r

/-- Requests on which the checker is right: not those of `requests_faults`. -/
def ReqPlain (r : Req) : Prop :=
  (0x29 ≤ r.op → r.op ≤ 0x37 → r.op ≠ 0x30 → r.ack = false ∧ r.order = 0) ∧
  (r.op = 0x39 → r.size = 1 ∨ r.size = 2 ∨ 6 ≤ r.size) ∧
  (r.op = 0x14 → 3 ≤ r.size) ∧
  (r.op = 0x1c ∨ r.op = 0x1d ∨ r.op = 0x20 ∨ r.op = 0x21 → r.order = 0)

end Verif.PcChi
