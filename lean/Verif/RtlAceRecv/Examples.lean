import Verif.RtlAceRecv.Props

/-! # What the rule is for, and examples -/

namespace Verif.RtlAceRecv

set_option maxRecDepth 100000

instance {α : Type} (w : World α) (i : In α) : Decidable (Polite w i) := inferInstanceAs (Decidable (∀ j ∈ gives w i, w.givenOf j = w.seenOf j))

instance decAll {α : Type} (c : Cfg) : (w : World α) → (l : List (In α)) → Decidable (AllPolite c w l)
  | _, [] => isTrue trivial
  | w, i :: t =>
    have := decAll c (w.next c i) t
    inferInstanceAs (Decidable (_ ∧ _))

/-- A cycle: the ownership of descriptors 0 to 3, a transfer, and whether
software takes an index. -/
def cyc (own : List Nat) (req : Option Nat) (pop : Bool) : In Nat := { own := fun j => own.contains j, req := req, pop := pop }

/-- Three transfers; software has given two descriptors. -/
def two : List (In Nat) := [cyc [2, 1] none true, cyc [2, 1] (some 7) true, cyc [2, 1] (some 8) true, cyc [2, 1] (some 9) true]

def rest (n : Nat) : List (In Nat) := List.replicate n (cyc [2, 1] none true)

/-- Two of the three are seen, in order, the third waits; the rule is met. -/
example : AllPolite ⟨false⟩ World.start (two ++ rest 24) ∧
    (World.start.run ⟨false⟩ (two ++ rest 24)).seen = [(1, some 7), (2, some 8)] ∧
    (World.start.run ⟨false⟩ (two ++ rest 24)).accepted = [7, 8, 9] ∧
    (World.start.run ⟨false⟩ (two ++ rest 24)).acks = 0 := by decide +kernel

/-- With write responses there are two acknowledges. -/
example : AllPolite ⟨true⟩ World.start (two ++ rest 26) ∧
    (World.start.run ⟨true⟩ (two ++ rest 26)).seen = [(1, some 7), (2, some 8)] ∧
    (World.start.run ⟨true⟩ (two ++ rest 26)).acks = 2 := by decide +kernel

/-- Software gives descriptor 1 again, and the third comes there. -/
def again (n : Nat) : List (In Nat) := cyc [2] none true :: List.replicate n (cyc [2, 1] none true)

example : AllPolite ⟨false⟩ World.start (two ++ rest 24 ++ again 16) ∧
    (World.start.run ⟨false⟩ (two ++ rest 24 ++ again 16)).seen = [(1, some 7), (2, some 8), (1, some 9)] ∧
    (World.start.run ⟨false⟩ (two ++ rest 24 ++ again 16)).lastOf 2 = some (some 8) ∧
    (World.start.run ⟨false⟩ (two ++ rest 24 ++ again 16)).s.desc 2 = some 8 := by decide +kernel

/-- The hypotheses of `recv_all_seen` are met, too. -/
example : (World.start.run ⟨false⟩ (two ++ rest 24 ++ again 2)).accepted.length ≤
    (World.start.run ⟨false⟩ (two ++ rest 24 ++ again 2)).given.length := by decide +kernel

/-- **C89** What the rule is for: when software gives a descriptor again before
it has seen it, two transfers are written to the same registers, and what
software reads for the first is the second. -/
theorem given_twice :
    ∃ l : List (In Nat), (World.start.run ⟨false⟩ l).accepted = [7, 8] ∧
      (World.start.run ⟨false⟩ l).seen = [(1, some 8), (1, some 8)] ∧ ¬ AllPolite ⟨false⟩ World.start l := by
  refine ⟨[cyc [1] none false, cyc [1] (some 7) false, cyc [] (some 8) false] ++ List.replicate 22 (cyc [1] none false) ++
    List.replicate 4 (cyc [1] none true), ?_⟩
  decide +kernel

end Verif.RtlAceRecv
