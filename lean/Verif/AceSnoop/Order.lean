import Verif.Base.Bytes

/-!
# Snoops and responses on the same line, and resets

Model of how `ACESnoopChannels_S` (`/repo/tlm-bridges/private/ace/snoop-channels.h`
430-520, 590-771, 893-905) and the response phases of `/repo/tlm-bridges/axi2tlm-bridge.h`
(826-834, 985-1047, 1273-1325) keep snoops and responses to one cache line apart; of what
a reset does to the counts of `ACESnoopChannels_M`; and of the DVM synchronisation of
`/repo/tlm-bridges/tlm2axi-bridge.h` 668-680.
-/

namespace Verif.AceSnoop
namespace Order

/-- `in_range`, 486-492, 696-702, with the 64-bit sum. -/
def inRange (start len a : Nat) : Bool := decide (start ≤ a ∧ a < (start + len) % 2 ^ 64)

/-- `addresses_overlap`, 677-694, and `range_overlap`, 474-485 (the same three tests). -/
def overlap (a1 l1 a2 l2 : Nat) : Bool :=
  let last2 := (a2 + l2 + (2 ^ 64 - 1)) % 2 ^ 64
  inRange a1 l1 a2 || inRange a1 l1 last2 || inRange a2 l2 a1

inductive Kind | snoop | read | write
deriving DecidableEq

/-- An entry of `m_overlapList`. -/
structure Ent where
  id : Nat
  kind : Kind
  addr : Nat
  len : Nat
deriving DecidableEq

def Ent.meets (a b : Ent) : Bool := overlap a.addr a.len b.addr b.len

/-- State: the list; the snoops that passed their waits and have not returned; the read and
write response being transferred or waiting for its acknowledge (one each, the phases are
single threads); the two locks in use (`m_ongoing` with address and length); waiting
snoop calls that gave up at a reset; the next identity. -/
structure St where
  list : List Ent := []
  active : List Ent := []
  rd : Option Ent := none
  wr : Option Ent := none
  lockSnoop : Option (Nat × Nat) := none
  lockRresp : Option (Nat × Nat) := none
  gone : List Ent := []
  next : Nat := 0
deriving DecidableEq

/-- `ACELock::trylock`, 451-459. -/
def free (l : Option (Nat × Nat)) (e : Ent) : Bool :=
  match l with
  | none => true
  | some (a, n) => !overlap a n e.addr e.len

/-- `wait_for_overlapping_tx`, 704-717: some earlier entry overlaps. -/
def blocked : List Ent → Ent → Bool
  | [], _ => false
  | x :: l, e => if x = e then false else x.meets e || blocked l e

inductive Move
  | enter (k : Kind) (addr len : Nat)
  | snoopGo (e : Ent) | snoopDone (e : Ent)
  | readGo (e : Ent) | readDone
  | writeGo (e : Ent) | writeDone
  | reset

def St.move (s : St) : Move → Option St
  -- a snoop call (739) or the end of the TLM access of a request (833)
  | .enter k addr len =>
    some { s with list := s.list ++ [⟨s.next, k, addr, len⟩], next := s.next + 1 }
  -- 741-764: earlier overlapping entries gone, response locks free (`lock_bresp` is never
  -- taken), then `lock_snoop.lock`, which overwrites a lock on another range
  | .snoopGo e =>
    if e ∈ s.list ∧ e.kind = .snoop ∧ e ∉ s.active ∧ e ∉ s.gone ∧ blocked s.list e = false ∧
        free s.lockRresp e = true ∧ free s.lockSnoop e = true then
      some { s with active := s.active ++ [e], lockSnoop := some (e.addr, e.len) }
    else none
  -- 766-770: `unlock` frees the lock whoever holds it
  | .snoopDone e =>
    if e ∈ s.active then
      some { s with active := s.active.erase e, list := s.list.erase e, lockSnoop := none }
    else none
  -- axi2tlm-bridge.h 992-1001
  | .readGo e =>
    if e ∈ s.list ∧ e.kind = .read ∧ s.rd = none ∧ free s.lockSnoop e = true then
      some { s with rd := some e, lockRresp := some (e.addr, e.len) }
    else none
  -- 1037-1044
  | .readDone =>
    match s.rd with
    | some e => some { s with rd := none, lockRresp := none, list := s.list.erase e }
    | none => none
  -- 1273-1300
  | .writeGo e => if e ∈ s.list ∧ e.kind = .write ∧ s.wr = none then some { s with wr := some e } else none
  -- 1304-1311
  | .writeDone =>
    match s.wr with
    | some e => some { s with wr := none, list := s.list.erase e }
    | none => none
  -- 745-748, 757-760: waiting calls return without leaving the list; active ones are
  -- aborted and leave it (766-770); the response phases end and leave it; locks are freed.
  -- Responses still in a fifo are left out.
  | .reset =>
    some { s with
      active := [], rd := none, wr := none, lockSnoop := none, lockRresp := none,
      list := s.list.filter fun e => !(s.active.contains e || s.rd == some e || s.wr == some e),
      gone := s.gone ++ s.list.filter fun e => decide (e.kind = .snoop) && !s.active.contains e }

inductive Reach : St → Prop
  | init : Reach {}
  | step {s t : St} (m : Move) : Reach s → s.move m = some t → Reach t

/-- With one snoop in flight at a time. -/
inductive Reach1 : St → Prop
  | init : Reach1 {}
  | step {s t : St} (m : Move) : Reach1 s → (∀ e, m = .snoopGo e → s.active = []) → s.move m = some t → Reach1 t

/-! ### Specification -/

/-- Two ranges share a byte. -/
def Shares (a b : Ent) : Prop := ∃ x, (a.addr ≤ x ∧ x < a.addr + a.len) ∧ (b.addr ≤ x ∧ x < b.addr + b.len)

/-- A range that does not reach the end of the address space. -/
def Ent.Ok (e : Ent) : Prop := 0 < e.len ∧ e.addr + e.len < 2 ^ 64

/-- `a` stands before `b` in the list. -/
def Before (l : List Ent) (a b : Ent) : Prop := ∃ l1 l2 l3, l = l1 ++ a :: (l2 ++ b :: l3)

/-- The overlap test is exact. -/
theorem overlap_right (a b : Ent) (ha : a.Ok) (hb : b.Ok) : a.meets b = true ↔ Shares a b := by
  unfold Ent.meets overlap inRange Shares
  unfold Ent.Ok at ha hb
  rw [Nat.mod_eq_of_lt ha.2, Nat.mod_eq_of_lt hb.2]
  have : (b.addr + b.len + (2 ^ 64 - 1)) % 2 ^ 64 = b.addr + b.len - 1 := by omega
  rw [this]
  simp only [Bool.or_eq_true, decide_eq_true_eq]
  constructor
  · rintro ((h | h) | h)
    · exact ⟨b.addr, by omega, by omega⟩
    · exact ⟨b.addr + b.len - 1, by omega, by omega⟩
    · exact ⟨a.addr, by omega, by omega⟩
  · rintro ⟨x, h1, h2⟩
    by_cases h : a.addr ≤ b.addr
    · left; left; omega
    · right; omega

example : (⟨0, .snoop, 0x40, 64⟩ : Ent).Ok ∧ (⟨0, .snoop, 0x40, 64⟩ : Ent).meets ⟨1, .read, 0x7f, 1⟩ = true :=
  ⟨⟨by decide, by decide⟩, by decide⟩

end Order
end Verif.AceSnoop
