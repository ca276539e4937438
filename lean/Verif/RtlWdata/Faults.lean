import Verif.RtlWdata.Props

/-!
# Write data of the AXI RTL slave bridge: where it goes wrong, and cases of
the theorems
-/

namespace Verif.RtlWdata

def ci : Cfg := { lite := false, words := 8 }

def giv (i o l : Nat) : In := { In.quiet with aw := some ⟨i, o, l⟩ }
def bt (d : Nat) (l f : Bool) : In := { In.quiet with w := some ⟨d, l, f⟩ }
def qs (n : Nat) : List In := List.replicate n .quiet

instance (c : Cfg) (w : World) (i : In) : Decidable (Polite c w i) := by
  unfold Polite
  cases i.aw with
  | none => exact isTrue (by simp)
  | some r =>
    exact decidable_of_iff (r.idx < 16 ∧ r.off < c.words ∧ r.len < 256 ∧ (c.lite = true → r.len = 0) ∧ ∀ q ∈ w.open, q.idx ≠ r.idx)
      (by simp)

instance decAll (c : Cfg) : (t : List In) → (w : World) → Decidable (AllPolite c w t)
  | [], _ => isTrue trivial
  | i :: t, w => @instDecidableAnd _ _ _ (decAll c t (w.next c i))

/-- Two bursts under one descriptor each: the first at 5 to 7 and, past the
end of the RAM, 0, the second, which waits for its second beat, at 2. -/
def two : List In :=
  [bt 10 false true, giv 3 5 3, bt 10 false true, bt 11 false true, giv 4 2 1, bt 12 false false, bt 13 true true, bt 20 false true] ++
    qs 20 ++ [bt 21 true true]

example : AllPolite ci .start two := by decide +kernel
example : (World.start.run ci (two ++ qs 46)).writes = [(5, 10), (6, 11), (7, 12), (0, 13), (2, 20), (3, 21)] := by decide +kernel
example : (World.start.run ci (two ++ qs 46)).told = [⟨3, true, false⟩, ⟨4, false, false⟩] := by decide +kernel
example : (World.start.run ci two).told ≠ [] ∧ (World.start.run ci (two ++ qs 46)).s.status = false := by decide +kernel

/-- The hypothesis of `data_there_partial`. -/
example : ⟨4, false, false⟩ ∈ (World.start.run ci (two ++ qs 4)).telling := by decide +kernel

/-- AXI4-Lite. -/
example : AllPolite { ci with lite := true } .start [giv 0 1 0, bt 7 false true, bt 8 false true, giv 1 4 0] ∧
    (World.start.run { ci with lite := true } ([giv 0 1 0, bt 7 false true, bt 8 false true, giv 1 4 0] ++ qs 46)).writes =
      [(1, 7), (4, 8)] := by decide +kernel

/-- A burst of two beats for a request of one, after a good one. -/
def long : List In := [giv 0 1 0, bt 7 true true, giv 1 0 0, bt 8 false true, bt 9 true true] ++ qs 40

/-- A burst longer than its request is written over the data of another
request, which was announced and is still in use: the data 7 of descriptor 0
at 1 is gone. -/
theorem long_burst_overwrites :
    AllPolite ci .start long ∧ (World.start.run ci long).told = [⟨0, false, false⟩, ⟨1, false, true⟩] ∧
      (World.start.run ci long).writes = [(1, 7), (0, 8), (1, 9)] ∧ (World.start.run ci long).s.ram 1 = 9 := by
  decide +kernel

/-- The hypotheses of `error_reaches_status_partial` and of
`error_only_if_wrong`. -/
example : ∃ n, (World.start.run ci (long.take n)).s.anyErr = true ∧ (World.start.run ci (long.take n)).prev = false :=
  ⟨9, by decide +kernel⟩
example : (∀ i ∈ long, i.other = false) ∧ (World.start.run ci long).s.status = true := by decide +kernel

/-- A burst of one beat for a request of two; software clears the error; later
there is an error of another kind. -/
def lost : List In :=
  [giv 0 1 1, bt 7 true true] ++ qs 20 ++ [{ In.quiet with clear := true }] ++ qs 20 ++
    [{ In.quiet with other := true }] ++ qs 20

/-- The error of length, meant to last one cycle, lasts until the next burst
if it comes with the last beat; meanwhile no other error gets to the
status. -/
theorem other_error_lost :
    AllPolite ci .start lost ∧ (World.start.run ci (lost.take 20)).s.status = true ∧
      (World.start.run ci lost).s.status = false ∧
      (World.start.run ci ([{ In.quiet with other := true }] ++ qs 20)).s.status = true := by
  decide +kernel

end Verif.RtlWdata
