import Verif.ChiStore.Model

/-! # What a load and a store are to do -/

namespace Verif.ChiStore

/-- Byte `i` of the access is enabled, by the rule of TLM: the byte enables repeat, and none of them
means all. -/
def Payload.Enabled (p : Payload) (i : Nat) : Prop :=
  p.be = [] ∨ p.be[i % p.be.length]? = some true

/-- Address `x` is one the access is to write or read. -/
def Payload.Touches (p : Payload) (x : Nat) : Prop :=
  p.addr ≤ x ∧ x < p.addr + p.data.length ∧ p.Enabled (x - p.addr)

/-- The access starts at a line, or lies within one. -/
def Payload.Simple (p : Payload) : Prop := p.addr % 64 = 0 ∨ p.addr % 64 + p.data.length ≤ 64

end Verif.ChiStore
