import Verif.Aligner.Model

/-!
# `tlm_wrap_expander`

Models `/repo/tlm-modules/tlm-wrap-expander.h` 53-160.
-/

namespace Verif.WrapExpander
open Verif
open Verif.Aligner (Target beWindow)

/-- `b_transport` (65-160).  `wrap` is the payload's wrap attribute
(`is_wrap`, 53-63), `two` the constructor argument.  `none`: division by a zero
length.  Result: target state, initiator's buffer, response status, and the
address left in the initiator's payload. -/
def transport {σ : Type} (two wrap : Bool) (T : Target σ) (g : Gp) (s : σ) :
    Option (σ × List Byte × Status × Nat) :=
  if wrap then
    if g.len = 0 then none
    else
      let base := g.addr / g.len * g.len
      let pos := g.addr - base
      if two ∧ pos ≠ 0 then
        let len1 := g.len - pos
        let r := T { g with data := g.data.take len1 } s
        let d1 := r.2.1 ++ g.data.drop len1
        if r.2.2 = .ok then
          let r2 := T { g with addr := base, data := (d1.drop len1).take pos, be := beWindow g.be len1 } r.1
          some (r2.1, d1.take len1 ++ r2.2.1, r2.2.2, g.addr)
        else some (r.1, d1, r.2.2, g.addr)
      else
        let r := T { g with addr := base } s
        some (r.1, r.2.1, r.2.2, base)
  else
    let r := T g s
    some (r.1, r.2.1, r.2.2, g.addr)

end Verif.WrapExpander
