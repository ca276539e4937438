import Verif.CcixSnoop.Model

/-! What a home must guarantee when caches are snooped over a link. -/
namespace Verif.CcixSnoop.Spec
open Verif.CcixSnoop

/-- At most one cache behind each CCIX port, and each cache listed once. -/
structure OneEach (c : Cfg) : Prop where
  nodup : c.agents.Nodup
  single : ∀ a ∈ c.agents, ∀ b ∈ c.agents, ∀ p, c.ccix a = some p → c.ccix b = some p → a = b

/-- Every copy is known to the filter. -/
def Known (s : St) : Prop := ∀ a, s.holds a = true → s.dir a = true

/-- Requests after which no other cache has a copy: those that make the requester's
the only one, those that clean and invalidate, those that write or update past the
caches, and the two reads that invalidate. -/
def exclusive (op : BitVec 8) : Prop :=
  op ∈ ([0x07, 0x09, 0x0A, 0x0B, 0x0C, 0x18, 0x19, 0x24, 0x25] : List (BitVec 8)) ∨ (0x28 ≤ op.toNat ∧ op.toNat ≤ 0x39)

/-- Requests that leave the requester with a copy (CHI): ReadShared, ReadClean,
ReadNotSharedDirty, ReadUnique, CleanUnique, MakeUnique. -/
def grants (op : BitVec 8) : Prop := op ∈ ([0x01, 0x02, 0x26, 0x07, 0x0B, 0x0C] : List (BitVec 8))

instance (op : BitVec 8) : Decidable (grants op) := by unfold grants; infer_instance

/-- What the one answer of a chip to a snoop must tell of the answers of its nodes:
that there is a copy if one of them keeps one, and the dirty data if one of them
passes it. -/
def keepsCopy : Ccix.SnpAns → Bool
  | .resp r => decide (r.toNat % 4 ≠ 0)
  | .data r => decide (r.toNat % 4 ≠ 0)
  | .partialData r => decide (r.toNat % 4 ≠ 0)
  | .compAck => false

/-- The answer carries dirty data for the home (bit 2 of the CHI response: `PassDirty`). -/
def passesDirty : Ccix.SnpAns → Bool
  | .data r => decide (4 ≤ r.toNat)
  | .partialData r => decide (4 ≤ r.toNat)
  | _ => false

end Verif.CcixSnoop.Spec
