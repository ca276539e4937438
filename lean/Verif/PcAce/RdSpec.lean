import Verif.PcAce.Model

/-! # C72: what ACE allows on the read channels

The rules of the protocol, stated per kind of transaction and per identifier rather than per signal check.
The section numbers are those which the comments of the checker name; the AMBA document itself is not part of
the repository. -/

namespace Verif.PcAce

/-- The read transactions (table C3-7). -/
inductive Rd
  | readNoSnoop | readOnce | readShared | readClean | readNotSharedDirty | readUnique
  | cleanUnique | makeUnique | cleanShared | cleanInvalid | makeInvalid
  | dvmComplete | dvmMessage | barrier
  deriving DecidableEq, Repr

/-- Table C3-7: `ARSNOOP`, the domains, the transaction. -/
def rdTable : List (Nat × List Nat × Rd) :=
  [(0x0, [0, 3], .readNoSnoop), (0x0, [1, 2], .readOnce), (0x1, [1, 2], .readShared), (0x2, [1, 2], .readClean),
   (0x3, [1, 2], .readNotSharedDirty), (0x7, [1, 2], .readUnique), (0xb, [1, 2], .cleanUnique),
   (0xc, [1, 2], .makeUnique), (0x8, [0, 1, 2], .cleanShared), (0x9, [0, 1, 2], .cleanInvalid),
   (0xd, [0, 1, 2], .makeInvalid), (0xe, [1, 2], .dvmComplete), (0xf, [1, 2], .dvmMessage)]

/-- The transaction meant by the signals.  `ARBAR` is 0 or 2 for accesses, which respect or ignore
barriers, and 1 or 3 for the memory and the synchronisation barrier. -/
def rdOf (snoop domain bar : Nat) : Option Rd :=
  if bar % 2 = 1 then (if snoop = 0 then some .barrier else none)
  else (rdTable.find? fun x => x.1 == snoop && x.2.1.contains domain).map (·.2.2)

/-- The transactions of ACE-Lite (C11.2). -/
def Rd.lite : Rd → Bool
  | .readNoSnoop | .readOnce | .cleanShared | .cleanInvalid | .makeInvalid | .barrier => true
  | _ => false

/-- Transactions on a whole cache line (C3.1.5). -/
def Rd.wholeLine : Rd → Bool
  | .readShared | .readClean | .readNotSharedDirty | .readUnique | .cleanUnique | .makeUnique
  | .cleanShared | .cleanInvalid | .makeInvalid => true
  | _ => false

/-- Transactions answered by a single beat that carries no data (C3.2.1). -/
def Rd.oneBeat : Rd → Bool
  | .cleanUnique | .makeUnique | .cleanShared | .cleanInvalid | .makeInvalid
  | .dvmComplete | .dvmMessage | .barrier => true
  | _ => false

def Rd.dvm : Rd → Bool
  | .dvmComplete | .dvmMessage => true
  | _ => false

/-- The transactions that may be answered with `IsShared`, and with `PassDirty` (C3.2.1). -/
def Rd.mayShare : Rd → Bool
  | .readOnce | .readShared | .readClean | .readNotSharedDirty | .cleanShared => true
  | _ => false

def Rd.mayDirty : Rd → Bool
  | .readShared | .readNotSharedDirty | .readUnique => true
  | _ => false

/-- Transactions that may be exclusive (C3.2.1). -/
def Rd.mayExcl : Rd → Bool
  | .readNoSnoop | .readShared | .readClean | .cleanUnique => true
  | _ => false

/-- Barriers, DVM and other transactions do not share an identifier (C8.4.1, C12.3.5). -/
def Rd.kind : Rd → Nat
  | .barrier => 0
  | .dvmComplete | .dvmMessage => 1
  | _ => 2

/-- Table C3-3: only modifiable memory outside the system domain, only
uncacheable memory inside it. -/
def CacheOk (a : Ax) : Prop :=
  (a.domain = 3 ∨ a.cache / 2 % 2 = 1) ∧ (a.domain = 3 → a.cache / 4 % 4 = 0)

/-- A burst for a whole cache line: as wide as the bus, as long as the line, `INCR` from the start of
the line or `WRAP` from any bus word. -/
def LineOk (line bus : Nat) (a : Ax) : Prop :=
  2 ^ a.size = bus ∧ bus * (a.len + 1) = line ∧ a.cache / 2 % 2 = 1 ∧
    ((a.burst = 1 ∧ line ∣ a.addr) ∨ (a.burst = 2 ∧ bus ∣ a.addr))

/-- C8.4.1. -/
def BarOk (a : Ax) : Prop := a.addr = 0 ∧ a.len = 0 ∧ a.burst = 1 ∧ a.cache = 2 ∧ a.lock = 0

/-- C12.6. -/
def DvmOk (bus : Nat) (a : Ax) : Prop := a.len = 0 ∧ 2 ^ a.size = bus ∧ a.burst = 1 ∧ a.cache = 2 ∧ a.lock = 0

/-- `t` may be asked for with the signals `a`. -/
def ArOk (ace : Bool) (line bus : Nat) (a : Ax) (t : Rd) : Prop :=
  rdOf a.snoop a.domain a.bar = some t ∧ (ace = true ∨ t.lite = true) ∧ CacheOk a ∧
    (t.wholeLine = true → LineOk line bus a) ∧ (t = .barrier → BarOk a) ∧
    (t.dvm = true → DvmOk bus a) ∧ (t = .dvmComplete → a.addr = 0)

/-- A DVM message that is a synchronisation or a hint (bits 14 to 12 of the address). -/
def syncOrHint (addr : Nat) : Prop := addr / 4096 % 8 = 4 ∨ addr / 4096 % 8 = 6

/-- An answer to `t`, of `n` beats before it, whose first one was `first`. -/
def RespOk (ace : Bool) (t : Rd) (a : Ax) (n first resp : Nat) : Prop :=
  (resp % 4 = 0 ∨ (a.lock = 1 ∧ resp % 4 = 1)) ∧ (a.lock = 1 → t.mayExcl = true) ∧
  (t = .barrier → resp = 0) ∧
  (ace = true →
    (resp / 8 % 2 = 1 → t.mayShare = true) ∧ (resp / 4 % 2 = 1 → t.mayDirty = true) ∧
    (t = .readNotSharedDirty → ¬ (resp / 8 % 2 = 1 ∧ resp / 4 % 2 = 1)) ∧
    (t = .dvmComplete → resp = 0) ∧ (t = .dvmMessage → syncOrHint a.addr → resp = 0) ∧
    (0 < n → resp / 4 % 4 = first / 4 % 4))

/-- The number of beats that answer `t`. -/
def Rd.beats (t : Rd) (len : Nat) : Nat := if t.oneBeat then 1 else len + 1

/-- A transaction under way: what it is, its signals, the beats so far, the first answer. -/
structure Open where
  t : Rd
  a : Ax
  n : Nat := 0
  first : Nat := 0

abbrev Ev := Ax ⊕ R

/-- What one identifier may see, with its transactions under way, oldest first. -/
def Legal (ace : Bool) (line bus : Nat) : List Open → List Ev → Prop
  | _, [] => True
  | q, .inl a :: es =>
    ∃ t, ArOk ace line bus a t ∧ (∀ o ∈ q, o.t.kind = t.kind) ∧ Legal ace line bus (q ++ [{ t := t, a := a }]) es
  | [], .inr _ :: _ => False
  | o :: q, .inr r :: es =>
    RespOk ace o.t o.a o.n o.first r.resp ∧ (r.last = true ↔ o.n + 1 = o.t.beats o.a.len) ∧
      Legal ace line bus
        (if r.last then q else { o with n := o.n + 1, first := if o.n = 0 then r.resp else o.first } :: q) es

def Ev.id : Ev → Nat
  | .inl a => a.id
  | .inr r => r.id

/-- The handshakes of a trace, in order; an address comes before a beat of the same cycle. -/
def events : List RdCycle → List Ev
  | [] => []
  | .reset :: t => events t
  | .clk ar r :: t => ar.toList.map .inl ++ r.toList.map .inr ++ events t

def Ev.isAr : Ev → Bool
  | .inl _ => true
  | .inr _ => false

def Ev.isLast : Ev → Bool
  | .inl _ => false
  | .inr r => r.last

/-- Never more than `depth` transactions outstanding. -/
def Within (depth : Nat) (evs : List Ev) : Prop :=
  ∀ pre, pre <+: evs → pre.countP Ev.isAr ≤ pre.countP Ev.isLast + depth

/-- The signals have their widths. -/
structure Ax.Wf (a : Ax) : Prop where
  snoop : a.snoop < 16
  domain : a.domain < 4
  bar : a.bar < 4
  burst : a.burst < 4
  lock : a.lock < 2

end Verif.PcAce
