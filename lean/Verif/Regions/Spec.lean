import Verif.Regions.Model

/-! # What a region means to its user -/

namespace Verif.Regions

/-- The region holds the address: in plain numbers, with the length asked for. -/
def Region.Holds (r : Region) (a : Nat) : Prop := r.start ≤ a ∧ a < r.start + r.len

/-- Less than 4 GiB long and ending below the last address. -/
def Region.Fits (r : Region) : Prop := r.len < 2 ^ 32 ∧ r.start + r.len < 2 ^ 64

/-- Made of whole lines. -/
def Region.Aligned (r : Region) : Prop := r.start % 64 = 0 ∧ r.len % 64 = 0

/-- Some region holds the address. -/
def Private (rs : List Region) (a : Nat) : Prop := ∃ r ∈ rs, r.Holds a

/-- An operation which does not run from outside the regions into one. -/
def Op.Clear (rs : List Region) : Op → Prop
  | .acc a n => ¬ Private rs a → ∀ i, i < n → ¬ Private rs (a + i)
  | .leave _ => True

end Verif.Regions
