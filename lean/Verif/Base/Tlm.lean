import Verif.Base.Bytes

/-!
# TLM-2.0 generic payload and the reference memory target

This file is the *specification* side shared by many properties: what a generic
payload is, and what an access means to a byte-addressed memory according to the
TLM-2.0 LRM (section 14: byte enables repeat with period
`byte_enable_length`; the address of byte `i` is `address + i mod
streaming_width`; read bytes that are disabled leave the initiator's buffer
unchanged).  No repository code is used.
-/

namespace Verif

/-- `tlm::tlm_command`. -/
inductive Cmd | read | write | ignore
  deriving DecidableEq, Repr

/-- `tlm::tlm_response_status`. -/
inductive Status
  | ok | incomplete | generic | address | command | burst | byteEnable
  deriving DecidableEq, Repr

/-- `tlm_generic_payload::is_response_error()`: everything that is not OK
(the numeric value of OK is the only positive one). -/
def Status.isError : Status → Bool
  | .ok => false
  | _ => true

/-- The part of `tlm::tlm_generic_payload` an access consists of.  `be = []`
means that the byte-enable pointer is null; otherwise entry `k` is whether
`byte_enable_ptr[k] == TLM_BYTE_ENABLED`. -/
structure Gp where
  cmd : Cmd
  addr : Nat
  data : List Byte
  be : List Bool := []
  sw : Nat
  deriving DecidableEq, Repr

/-- `get_data_length()`. -/
def Gp.len (g : Gp) : Nat := g.data.length

/-- Whether byte `i` takes part in the access. -/
def beEnabled (be : List Bool) (i : Nat) : Bool :=
  match be[i % be.length]? with
  | none => true
  | some b => b

/-- A byte-addressed memory. -/
abbrev Mem := Nat → Byte

def Mem.set (m : Mem) (a : Nat) (b : Byte) : Mem := fun x => if x = a then b else m x

/-- Reference write, one byte at a time in buffer order. -/
def writeFrom (m : Mem) (addr sw : Nat) (be : List Bool) : Nat → List Byte → Mem
  | _, [] => m
  | i, b :: bs =>
    writeFrom (if beEnabled be i then m.set (addr + i % sw) b else m) addr sw be (i + 1) bs

/-- Reference read: the resulting initiator buffer. -/
def readFrom (m : Mem) (addr sw : Nat) (be : List Bool) : Nat → List Byte → List Byte
  | _, [] => []
  | i, b :: bs =>
    (if beEnabled be i then m (addr + i % sw) else b) :: readFrom m addr sw be (i + 1) bs

/-- What an access does to a reference memory target: new memory, new initiator
buffer. -/
def Gp.run (g : Gp) (m : Mem) : Mem × List Byte :=
  match g.cmd with
  | .read => (m, readFrom m g.addr g.sw g.be 0 g.data)
  | .write => (writeFrom m g.addr g.sw g.be 0 g.data, g.data)
  | .ignore => (m, g.data)

@[simp] theorem readFrom_length (m : Mem) (a sw : Nat) (be : List Bool) (i : Nat)
    (d : List Byte) : (readFrom m a sw be i d).length = d.length := by
  induction d generalizing i with
  | nil => rfl
  | cons b bs ih => simp [readFrom, ih]

theorem writeFrom_append (m : Mem) (a sw : Nat) (be : List Bool) (i : Nat)
    (d e : List Byte) :
    writeFrom m a sw be i (d ++ e) =
      writeFrom (writeFrom m a sw be i d) a sw be (i + d.length) e := by
  induction d generalizing m i with
  | nil => rfl
  | cons b bs ih =>
    simp only [List.cons_append, writeFrom, ih, List.length_cons]
    congr 1
    omega

theorem readFrom_append (m : Mem) (a sw : Nat) (be : List Bool) (i : Nat)
    (d e : List Byte) :
    readFrom m a sw be i (d ++ e) =
      readFrom m a sw be i d ++ readFrom m a sw be (i + d.length) e := by
  induction d generalizing i with
  | nil => rfl
  | cons b bs ih =>
    simp only [List.cons_append, readFrom, ih, List.length_cons]
    congr 3
    omega

/-- Two walks with pointwise equal enables and addresses do the same writes. -/
theorem writeFrom_congr (m : Mem) {a a' sw sw' : Nat} {be be' : List Bool} {i i' : Nat}
    (d : List Byte)
    (he : ∀ k, k < d.length → beEnabled be (i + k) = beEnabled be' (i' + k))
    (ha : ∀ k, k < d.length → a + (i + k) % sw = a' + (i' + k) % sw') :
    writeFrom m a sw be i d = writeFrom m a' sw' be' i' d := by
  induction d generalizing m i i' with
  | nil => rfl
  | cons b bs ih =>
    simp only [writeFrom]
    have e0 := he 0 (by simp)
    have a0 := ha 0 (by simp)
    simp only [Nat.add_zero] at e0 a0
    rw [e0, a0]
    apply ih
    · intro k hk
      have := he (k + 1) (by simpa using hk)
      simpa [Nat.add_assoc, Nat.add_comm 1 k] using this
    · intro k hk
      have := ha (k + 1) (by simpa using hk)
      simpa [Nat.add_assoc, Nat.add_comm 1 k] using this

theorem readFrom_congr (m : Mem) {a a' sw sw' : Nat} {be be' : List Bool} {i i' : Nat}
    (d : List Byte)
    (he : ∀ k, k < d.length → beEnabled be (i + k) = beEnabled be' (i' + k))
    (ha : ∀ k, k < d.length → a + (i + k) % sw = a' + (i' + k) % sw') :
    readFrom m a sw be i d = readFrom m a' sw' be' i' d := by
  induction d generalizing i i' with
  | nil => rfl
  | cons b bs ih =>
    simp only [readFrom]
    have e0 := he 0 (by simp)
    have a0 := ha 0 (by simp)
    simp only [Nat.add_zero] at e0 a0
    rw [e0, a0]
    congr 1
    apply ih
    · intro k hk
      have := he (k + 1) (by simpa using hk)
      simpa [Nat.add_assoc, Nat.add_comm 1 k] using this
    · intro k hk
      have := ha (k + 1) (by simpa using hk)
      simpa [Nat.add_assoc, Nat.add_comm 1 k] using this

end Verif
