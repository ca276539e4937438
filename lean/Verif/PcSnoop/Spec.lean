import Verif.PcSnoop.Model

/-! # What the two sides owe each other

Counted from the signals alone; histories have the newest cycle first. -/

namespace Verif.PcSnoop

/-- A cycle in which nothing happens. -/
def idle : Cyc := {}

/-- Handshakes since the last reset, of a kind. -/
def count (f : Cyc → Bool) : List Cyc → Nat
  | [] => 0
  | c :: h => if c.rst then 0 else if f c then count f h + 1 else count f h

def acHs (c : Cyc) : Bool := c.acv && c.acr
def crHs (c : Cyc) : Bool := c.crv && c.crr
def crdHs (c : Cyc) : Bool := c.crv && c.crr && c.data
def cdHs (c : Cyc) : Bool := c.cdv && c.cdr

/-- A snoop has been taken and not yet answered. -/
def OwesCr (h : List Cyc) : Prop := count crHs h < count acHs h

/-- Data has been announced and not yet all sent. -/
def OwesCd (per : Nat) (h : List Cyc) : Prop := count cdHs h < per * count crdHs h

instance (h : List Cyc) : Decidable (OwesCr h) := inferInstanceAs (Decidable (_ < _))
instance (per : Nat) (h : List Cyc) : Decidable (OwesCd per h) := inferInstanceAs (Decidable (_ < _))

/-- How many cycles an owed answer has been waited for since the last answer or reset. -/
def waitedCr : List Cyc → Nat
  | [] => 0
  | c :: h =>
    if c.rst || crHs c then 0
    else if c.crv = false ∧ OwesCr h then waitedCr h + 1 else waitedCr h

/-- How many cycles an owed data beat has been waited for since the last beat or reset. -/
def waitedCd (per : Nat) : List Cyc → Nat
  | [] => 0
  | c :: h =>
    if c.rst || cdHs c then 0
    else if c.cdv = false ∧ OwesCd per h then waitedCd per h + 1 else waitedCd per h

/-- How many cycles an answer has been offered and not taken since the last answer or reset. -/
def heldCr : List Cyc → Nat
  | [] => 0
  | c :: h =>
    if c.rst || crHs c then 0 else if c.crv then heldCr h + 1 else heldCr h

/-- How many cycles a snoop has been offered and not taken since the last snoop taken or reset. -/
def heldAc : List Cyc → Nat
  | [] => 0
  | c :: h =>
    if c.rst || acHs c then 0 else if c.acv then heldAc h + 1 else heldAc h

/-- How many cycles a data beat has been offered and not taken since the last beat or reset. -/
def heldCd : List Cyc → Nat
  | [] => 0
  | c :: h =>
    if c.rst || cdHs c then 0 else if c.cdv then heldCd h + 1 else heldCd h

/-- At all times since the start no more has been answered than asked, nor more data sent than
announced. -/
def Orderly (per : Nat) : List Cyc → Prop
  | [] => True
  | c :: h => count crHs (c :: h) ≤ count acHs (c :: h) ∧
      count cdHs (c :: h) ≤ per * count crdHs (c :: h) ∧ Orderly per h

end Verif.PcSnoop
