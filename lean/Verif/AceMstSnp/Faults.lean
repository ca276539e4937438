import Verif.AceMstSnp.Props

/-! # Where it fails, and examples -/

namespace Verif.AceMstSnp

set_option maxRecDepth 100000

/-- An answer with a line of one word. -/
def line1 (b : Nat) : Ans := ⟨true, false, false, false, false, false, [b, b, b, b]⟩

/-- An answer without data. -/
def plain (shared : Bool) : Ans := ⟨false, false, shared, false, false, false, [0, 0, 0, 0]⟩

/-- From a snoop to the push of its response. -/
def respond (x : Nat) (a : Ans) : List Ev := [.snoop x, .take, .answer a, .setup, .push, .finish]

/-- From the hand-over of the data to its push. -/
def supply : List Ev := [.cdTake, .cdWord, .cdPush]

/-- **C90** The driver does not look how many responses the hardware still
holds.  When the interconnect does not take responses and sends a seventeenth
snoop, the answer to it replaces the answer to the first. -/
theorem overwritten :
    ∃ l : List Ev, Ev.reset ∉ l ∧
      (World.start.run 16 l).answers.map (fun p => p.2.shared) = true :: List.replicate 16 false ∧
      (World.start.run 16 l).sentCr.map (fun r => (Bits.of r).shared) = [false] := by
  refine ⟨respond 0 (plain true) ++ (List.range 16).flatMap (fun k => respond (k + 1) (plain false)) ++ [.hwCr], ?_⟩
  decide +kernel

/-- **C90** `cd_thread` is not stopped by the reset: a line whose last word was
not written goes out after it, and is taken for the data of the first snoop
after the reset. -/
theorem stale_line :
    ∃ l : List Ev, (World.start.run 1 l).answers = [(2, line1 2)] ∧ (World.start.run 1 l).sentCr.map Bits.of = [(line1 2).bits] ∧
      (World.start.run 1 l).sentCd.map bytesOf = [[1, 1, 1, 1]] := by
  refine ⟨respond 1 (line1 1) ++ [.hwCr, .cdTake, .cdWord, .reset, .cdPush] ++ respond 2 (line1 2) ++ supply ++ [.hwCr, .hwCd], ?_⟩
  decide +kernel

/-- **C90** And a reset between the notification and the moment `cr_thread`
runs leaves it with an empty list, of which it takes the first element. -/
theorem empty_list :
    ∃ l : List Ev, (World.start.run 1 l).s.bad = true ∧ (World.start.run 1 l).asked = [] :=
  ⟨[.take, .snoop 1, .reset, .take], rfl, rfl⟩

/-- Three snoops, of which two have data, as the theorems allow them. -/
def three : List Ev :=
  respond 7 (line1 1) ++ respond 8 (plain true) ++ supply ++ [.hwCr] ++ respond 9 (line1 3) ++ supply ++ [.hwCd, .hwCr, .hwCr, .hwCd, .take]

example : AllPolite 1 World.start three := by
  simp only [three, respond, supply, List.cons_append, List.nil_append, AllPolite, Polite, and_true, true_and]
  refine ⟨?_, ?_, ?_, ?_, ?_, ?_, ?_, ?_⟩ <;>
    first
    | (refine ⟨rfl, ?_⟩; decide)
    | decide +kernel

example : (World.start.run 1 three).answers.map (·.1) = [7, 8, 9] ∧
    (World.start.run 1 three).sentCd.map bytesOf = [[1, 1, 1, 1], [3, 3, 3, 3]] ∧
    (World.start.run 1 three).sentCr = [1, 8, 1] := by decide +kernel

/-- A DVM Sync answered, then a DVM Complete. -/
example : (World.start.run 1 (respond 1 ⟨false, false, false, false, false, true, [0, 0, 0, 0]⟩ ++ [.read true, .read true])).completes = 1 := by
  decide +kernel

end Verif.AceMstSnp
