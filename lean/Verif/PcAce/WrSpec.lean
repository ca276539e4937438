import Verif.PcAce.RdSpec
import Verif.PcAxi.Strobes

/-! # C72: what ACE allows on the write channels -/

namespace Verif.PcAce

/-- The write transactions (table C3-8). -/
inductive WrT
  | writeNoSnoop | writeUnique | writeLineUnique | writeClean | writeBack | evict | barrier
  deriving DecidableEq, Repr

/-- Table C3-8: `AWSNOOP`, the domains, the transaction. -/
def wrTable : List (Nat × List Nat × WrT) :=
  [(0, [0, 3], .writeNoSnoop), (0, [1, 2], .writeUnique), (1, [1, 2], .writeLineUnique), (2, [0, 1, 2], .writeClean),
   (3, [0, 1, 2], .writeBack), (4, [1, 2], .evict)]

def wrOf (snoop domain bar : Nat) : Option WrT :=
  if bar % 2 = 1 then (if snoop = 0 then some .barrier else none)
  else (wrTable.find? fun x => x.1 == snoop && x.2.1.contains domain).map (·.2.2)

/-- The transactions of ACE-Lite (C11.2). -/
def WrT.lite : WrT → Bool
  | .writeNoSnoop | .writeUnique | .writeLineUnique | .barrier => true
  | _ => false

/-- Transactions on a whole cache line (C3.1.5). -/
def WrT.wholeLine : WrT → Bool
  | .writeLineUnique | .evict => true
  | _ => false

def WrT.data : WrT → Bool
  | .evict | .barrier => false
  | _ => true

/-- The two families that must not be under way together (C4.8.6). -/
def WrT.unique : WrT → Bool
  | .writeUnique | .writeLineUnique => true
  | _ => false

def WrT.back : WrT → Bool
  | .writeBack | .writeClean => true
  | _ => false

/-- `WriteBack` and `WriteClean` stay inside one cache line (C3.1.5): as wide as the bus, `INCR` of at most
16 beats or `WRAP` of 2, 4, 8 or 16. -/
def BackOk (line bus : Nat) (a : Ax) : Prop :=
  2 ^ a.size = bus ∧ bus * (a.len + 1) ≤ line ∧ a.cache / 2 % 2 = 1 ∧ a.lock = 0 ∧ bus ∣ a.addr ∧
    ((a.burst = 1 ∧ a.len < 16 ∧ (a.addr + bus * (a.len + 1) - 1) / line = a.addr / line) ∨
     (a.burst = 2 ∧ (a.len = 1 ∨ a.len = 3 ∨ a.len = 7 ∨ a.len = 15)))

/-- `t` may be asked for with the signals `a`. -/
def AwOk (ace : Bool) (line bus : Nat) (a : Ax) (t : WrT) : Prop :=
  wrOf a.snoop a.domain a.bar = some t ∧ (ace = true ∨ t.lite = true) ∧ CacheOk a ∧
    (t.wholeLine = true → LineOk line bus a ∧ a.lock = 0) ∧
    (t = .writeUnique → (a.burst = 1 ∨ a.burst = 2) ∧ a.cache / 2 % 2 = 1 ∧ a.lock = 0) ∧
    (t.back = true → BackOk line bus a) ∧ (t = .barrier → BarOk a)

def Ax.burstOf (a : Ax) : Verif.Axi.Ax := ⟨a.addr, 2 ^ a.size, a.len + 1, PcAxi.toBurst a.burst⟩

/-- The strobes of beat `n`, from 0: all lanes for `WriteLineUnique` (C3.1.5). -/
def StrbOk (bus : Nat) (gaps : Bool) (t : WrT) (a : Ax) (n : Nat) (strb : List Bool) : Prop :=
  if t = .writeLineUnique then ∀ l < bus, PcAxi.bit strb l = true
  else PcAxi.StrobesOk bus gaps a.burstOf n (PcAxi.bit strb)

/-- The answer to `t`. -/
def BrespOk (t : WrT) (a : Ax) (resp : Nat) : Prop :=
  (resp = 0 ∨ (a.lock = 1 ∧ resp = 1)) ∧ (a.lock = 1 → t = .writeNoSnoop)

/-- A write under way: what it is, its signals, the beats of data so far. -/
structure Wo where
  t : WrT
  a : Ax
  n : Nat := 0

/-- It waits for more data. -/
def Wo.waits (o : Wo) : Bool := o.t.data && decide (o.n < o.a.len + 1)

inductive WEv
  | aw (a : Ax)
  | w (w : W)
  | b (b : B)
  deriving DecidableEq, Repr

/-- A beat arrives for the first write that waits. -/
def feed : List Wo → List Wo
  | [] => []
  | o :: q => if o.waits then { o with n := o.n + 1 } :: q else o :: feed q

/-- What the write channels may see, with the writes under way in the order of their addresses.  Data come
in that order too, and never before the address (AXI4 would allow that); answers come in order for each
identifier, when all the data have been given. -/
def WLegal (c : Cfg) : List Wo → List WEv → Prop
  | _, [] => True
  | q, .aw a :: es =>
    ∃ t, AwOk c.ace c.line c.bus a t ∧
      (t.unique = true → ∀ o ∈ q, o.t.back = false) ∧ (t.back = true → ∀ o ∈ q, o.t.unique = false) ∧
      (∀ o ∈ q, o.a.id = a.id → (o.t = .barrier ↔ t = .barrier)) ∧ WLegal c (q ++ [{ t := t, a := a }]) es
  | q, .w w :: es =>
    (∃ o, q.find? Wo.waits = some o ∧ StrbOk c.bus c.gaps o.t o.a o.n w.strb ∧ (w.last = true ↔ o.n = o.a.len)) ∧
      WLegal c (feed q) es
  | q, .b b :: es =>
    (∃ o, (q.find? fun o => o.a.id == b.id) = some o ∧ o.waits = false ∧ BrespOk o.t o.a b.resp) ∧
      WLegal c (q.eraseP fun o => o.a.id == b.id) es

def wevents : List WrClk → List WEv
  | [] => []
  | x :: t => x.aw.toList.map .aw ++ x.w.toList.map .w ++ x.b.toList.map .b ++ wevents t

end Verif.PcAce
