import Verif.Tlm2Axi.Model
import Verif.Base.Tlm

/-! # What a TLM access means, byte by byte -/

namespace Verif.Tlm2Axi
open Verif Verif.Axi

/-- Address TLM assigns to byte `i`: with the wrapping attribute the access wraps
inside its naturally aligned block, otherwise after every `streaming width`
bytes. -/
def tlmAddr (p : Gp) (i : Nat) : Nat :=
  if p.wrap then p.addr / p.len * p.len + (p.addr % p.len + i) % p.len else p.addr + i % p.sw

/-- The byte writes a TLM write performs, in buffer order. -/
def specWrites (p : Gp) : List (Nat × Byte) :=
  (List.range p.len).filterMap fun i => if beEnabled p.be i then some (tlmAddr p i, p.data i) else none

/-- The buffer after a TLM read of `mem`: enabled bytes are read, disabled bytes
and everything beyond the length keep their value. -/
def specRead (p : Gp) (mem : Nat → Byte) (i : Nat) : Byte :=
  if i < p.len ∧ beEnabled p.be i = true then mem (tlmAddr p i) else p.data i

end Verif.Tlm2Axi
