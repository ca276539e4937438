import Verif.Base.Range

/-! # PCIe transaction layer packets, as bytes on the link

PCI Express Base Specification 5.0, 2.2.1 to 2.2.9: the parts of request and completion headers that
matter here, read directly from the bytes.  Nothing of the bridge is used. -/

namespace Verif.Tlp.Spec
open Verif

/-- Byte `i` of the packet. -/
def at_ (l : List Byte) (i : Nat) : Nat := (l.getD i 0).toNat

def fmt (l : List Byte) : Nat := at_ l 0 / 32
def typ (l : List Byte) : Nat := at_ l 0 % 32

/-- Length in words of four bytes; 0 stands for 1024. -/
def len (l : List Byte) : Nat :=
  if at_ l 2 % 4 * 256 + at_ l 3 = 0 then 1024 else at_ l 2 % 4 * 256 + at_ l 3

/-- Header of four words (rather than three), with data. -/
def wide (l : List Byte) : Bool := fmt l % 2 == 1
def withData (l : List Byte) : Bool := fmt l / 2 == 1

def payload (l : List Byte) : List Byte := l.drop (if wide l then 16 else 12)

/-- Bits 9 and 8 of the tag. -/
def tagHigh (l : List Byte) : Nat := at_ l 1 / 128 * 2 + at_ l 1 / 8 % 2

/-! ## Requests -/

def requester (l : List Byte) : Nat := at_ l 4 * 256 + at_ l 5
def tag (l : List Byte) : Nat := at_ l 6
def lastBE (l : List Byte) : Nat := at_ l 7 / 16
def firstBE (l : List Byte) : Nat := at_ l 7 % 16

def be32 (l : List Byte) (i : Nat) : Nat := at_ l i * 2 ^ 24 + at_ l (i + 1) * 2 ^ 16 + at_ l (i + 2) * 2 ^ 8 + at_ l (i + 3)

/-- Address of a memory request. -/
def address (l : List Byte) : Nat :=
  if wide l then be32 l 8 * 2 ^ 32 + be32 l 12 / 4 * 4 else be32 l 8 / 4 * 4

/-- Address of a configuration request in the enhanced configuration space: bus, device, function,
extended register, register. -/
def cfgAddress (l : List Byte) : Nat :=
  at_ l 8 * 2 ^ 20 + at_ l 9 / 8 * 2 ^ 15 + at_ l 9 % 8 * 2 ^ 12 + at_ l 10 % 16 * 2 ^ 8 + at_ l 11 / 4 * 4

/-- Whether byte `i` of the data of a request is enabled. -/
def lane (l : List Byte) (i : Nat) : Bool :=
  if i / 4 = 0 then (firstBE l).testBit (i % 4)
  else if i / 4 = len l - 1 then (lastBE l).testBit (i % 4) else true

/-- The effect of a write request on the space it addresses. -/
def effect (l : List Byte) (a : Nat) (m : Mem) : Mem := fun x =>
  if a ≤ x ∧ x < a + 4 * len l ∧ lane l (x - a) = true then (payload l).getD (x - a) 0 else m x

def IsMemWrite (l : List Byte) : Prop := typ l = 0 ∧ withData l = true ∧ fmt l < 4 ∧ (payload l).length = 4 * len l
def IsMemRead (l : List Byte) : Prop := typ l = 0 ∧ withData l = false ∧ fmt l < 4 ∧ payload l = []
def IsCfgWrite (l : List Byte) : Prop := typ l = 4 ∧ fmt l = 2 ∧ len l = 1 ∧ (payload l).length = 4
def IsCfgRead (l : List Byte) : Prop := typ l = 4 ∧ fmt l = 0 ∧ len l = 1 ∧ payload l = []

/-! ## Completions -/

def cplRequester (l : List Byte) : Nat := at_ l 8 * 256 + at_ l 9
def cplTag (l : List Byte) : Nat := at_ l 10
def cplStatus (l : List Byte) : Nat := at_ l 6 / 32
def byteCount (l : List Byte) : Nat :=
  if at_ l 6 % 16 * 256 + at_ l 7 = 0 then 4096 else at_ l 6 % 16 * 256 + at_ l 7
def lowerAddress (l : List Byte) : Nat := at_ l 11 % 128

/-- `c` belongs to the request `l`. -/
def Answers (l c : List Byte) : Prop :=
  12 ≤ c.length ∧ typ c = 10 ∧ cplRequester c = requester l ∧ cplTag c = tag l ∧ tagHigh c = tagHigh l

/-- `c` completes the request `l` successfully with all of its data `d`. -/
def AnswersData (l c : List Byte) (d : List Byte) : Prop :=
  Answers l c ∧ fmt c = 2 ∧ cplStatus c = 0 ∧ d.length = 4 * len l ∧ len c = len l ∧ payload c = d

end Verif.Tlp.Spec
