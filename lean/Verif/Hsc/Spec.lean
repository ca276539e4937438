import Verif.Base.Range
import Verif.Crc32.Spec

/-!
# What the crypto block promises

Written from IEEE 802.1AE's frame layout and the block's own documentation (its
comments), independently of the model.  The cipher is the simulation's stand-in,
an exclusive-or with a repeating key.
-/

namespace Verif.Hsc
open Verif

/-- `l` masked with a key of `ks` bytes repeated, starting at phase `i`. -/
def mask (key : List Byte) (ks i : Nat) : List Byte → List Byte
  | [] => []
  | b :: bs => (b ^^^ key.getD (i % ks) 0) :: mask key ks (i + 1) bs

/-- The 802.1AE SecTAG with an explicit SCI: EtherType 88-E5, TCI/AN, SL, then
packet number and SCI most significant byte first. -/
def secTag (tci an sl pn sci : Nat) : List Byte :=
  [0x88, 0xE5, BitVec.ofNat 8 (4 * tci + an), BitVec.ofNat 8 sl] ++ beEnc 4 pn ++ beEnc 8 sci

/-- What an output buffer may show where the block leaves memory uninitialised: any
byte; elsewhere the byte written. -/
def shows : List (Option Byte) → List Byte → Prop
  | [], [] => True
  | o :: os, b :: bs => (o = none ∨ o = some b) ∧ shows os bs
  | _, _ => False

/-! ### The key store -/

/-- The documented register interface: a word-wide register file and, per
direction, a table of 1024 keys of 32 bytes. -/
structure Abs where
  file : Nat → BitVec 32
  key : Bool → Nat → List Byte

/-- A word access of the driver: register byte address and, for a write, the word. -/
inductive Word
  | read (addr : Nat)
  | write (addr : Nat) (v : BitVec 32)
deriving DecidableEq

/-- The commands of the control register: bit 0 triggers, bit 1 selects write, bits
2-3 select the key group, bits 8-17 the key number. -/
inductive KeyCmd
  | none
  | store (n : Nat)
  | digest (n : Nat)
deriving DecidableEq

/-- Decode a control word. -/
def command (v : BitVec 32) : KeyCmd :=
  if v.toNat % 2 = 0 then .none
  else if v.toNat / 4 % 4 ≠ 0 then .none
  else if v.toNat / 2 % 2 = 1 then .store (v.toNat / 256 % 1024) else .digest (v.toNat / 256 % 1024)

/-- Base addresses: control register, write window, read window. -/
def ctrlAddr (tx : Bool) : Nat := if tx then 0x4000 else 0x6000
/-- Write window. -/
def wdataAddr (tx : Bool) : Nat := if tx then 0x4800 else 0x6800
/-- Read window. -/
def rdataAddr (tx : Bool) : Nat := if tx then 0x4C00 else 0x6C00

/-- The 32 bytes in the write window. -/
def Abs.window (s : Abs) (tx : Bool) : List Byte :=
  (List.range 8).flatMap fun i => leEnc 4 (s.file (wdataAddr tx + 4 * i)).toNat

/-- CRC-32 of a key (bit-serial register of C18). -/
def digestOf (k : List Byte) : BitVec 32 :=
  (Crc32.msgBits k).foldl Crc32.bitStep 0xFFFFFFFF ^^^ 0xFFFFFFFF

/-- Registers software cannot change: the revision and the two read windows. -/
def fixedReg (a : Nat) : Bool :=
  decide (a = 0) || (decide (0x4C00 ≤ a) && decide (a < 0x4C20)) ||
    (decide (0x6C00 ≤ a) && decide (a < 0x6C20))

/-- Write to a control register: the word is kept with the trigger bit cleared, and
the command, if any, is carried out. -/
def Abs.control (s : Abs) (tx : Bool) (v : BitVec 32) : Abs :=
  let s := { s with file := fun a => if a = ctrlAddr tx then BitVec.ofNat 32 (v.toNat / 2 * 2) else s.file a }
  match command v with
  | .none => s
  | .store n => { s with key := fun d m => if d = tx ∧ m = n then s.window tx else s.key d m }
  | .digest n =>
    { s with file := fun a =>
        if a = rdataAddr tx then digestOf (s.key tx n)
        else if rdataAddr tx < a ∧ a < rdataAddr tx + 32 then 0 else s.file a }

/-- One word access and the word it returns (a write returns nothing). -/
def Abs.step (s : Abs) : Word → Abs × Option (BitVec 32)
  | .read a => (s, some (if a = 0 then 1 else s.file a))
  | .write a v =>
    if fixedReg a then (s, none)
    else if a = ctrlAddr true then (s.control true v, none)
    else if a = ctrlAddr false then (s.control false v, none)
    else ({ s with file := fun b => if b = a then v else s.file b }, none)

/-- A sequence of word accesses. -/
def Abs.run (s : Abs) : List Word → Abs × List (Option (BitVec 32))
  | [] => (s, [])
  | w :: ws =>
    let r := s.step w
    let q := r.1.run ws
    (q.1, r.2 :: q.2)

/-- Address of an access. -/
def Word.addr : Word → Nat
  | .read a => a
  | .write a _ => a

/-- An access to a register of the map: word aligned, below 0x7D00. -/
def Word.inMap (w : Word) : Prop := w.addr % 4 = 0 ∧ w.addr < 0x7D00

/-- The key numbers a trace names in direction `tx`. -/
def names (tx : Bool) : List Word → List Nat
  | [] => []
  | .write a v :: ws =>
    (if a = ctrlAddr tx then
      match command v with
      | .none => []
      | .store n => [n]
      | .digest n => [n]
     else []) ++ names tx ws
  | .read _ :: ws => names tx ws

/-- Key numbers pairwise equal or at least eight apart. -/
def Spaced (ns : List Nat) : Prop := ∀ a ∈ ns, ∀ b ∈ ns, a = b ∨ a + 8 ≤ b ∨ b + 8 ≤ a

end Verif.Hsc
