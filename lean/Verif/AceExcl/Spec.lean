import Verif.AceExcl.Model

/-!
# What exclusive accesses and copies must do, from what was seen
-/

namespace Verif.AceExcl

/-- The states the caches and the interconnect can get to, with what was seen on the way, newest
first. -/
inductive Reach (n : Nat) : State → List Ev → Prop
  | init : Reach n init []
  | step {s h} (op : Op) : Reach n s h → Reach n (step n s op).1 ((op, (step n s op).2) :: h)

/-- Another master than `m` wrote the line `k`. -/
def otherWrote (m k : Nat) : Ev → Bool
  | (.store i k', .ok) => i != m && k' == k
  | (.stx i k' _, .ok) => i != m && k' == k
  | _ => false

/-- Master `m` got a copy of line `k`, or wrote it. -/
def gotCopy (m k : Nat) : Ev → Bool
  | (.load i k', .miss) => i == m && k' == k
  | (.ldx i k' _, .miss) => i == m && k' == k
  | (.store i k', .ok) => i == m && k' == k
  | (.stx i k' _, .ok) => i == m && k' == k
  | _ => false

/-- Master `m` loaded line `k` at offset `o` exclusively. -/
def loadedExcl (m k o : Nat) : Ev → Bool
  | (.ldx i k' o', _) => i == m && k' == k && o' == o
  | _ => false

/-- Master `m` stored to line `k` at offset `o` exclusively, with success. -/
def storedExcl (m k o : Nat) : Ev → Bool
  | (.stx i k' o', .ok) => i == m && k' == k && o' == o
  | _ => false

/-- Going back from now, `start` happened before anything with `bad`: nothing bad since. -/
def since (start bad : Ev → Bool) : List Ev → Bool
  | [] => false
  | e :: h => start e || (!bad e && since start bad h)

/-- The copy of `m` is of the last write by anybody else. -/
def Fresh (m k : Nat) (h : List Ev) : Prop := since (gotCopy m k) (otherWrote m k) h = true

/-- Nobody else wrote the line since `m` loaded from it exclusively. -/
def Untouched (m k o : Nat) (h : List Ev) : Prop :=
  since (loadedExcl m k o) (otherWrote m k) h = true

/-- `m` loaded exclusively at this address, and has not stored there with success since. -/
def Open (m k o : Nat) (h : List Ev) : Prop :=
  since (loadedExcl m k o) (storedExcl m k o) h = true

/-- The interconnect never answered an exclusive CleanUnique without EXOKAY. -/
def NoRefusal (h : List Ev) : Prop := ∀ e ∈ h, e.2 ≠ .refused

/-- Exclusive loads are at the start of a line, and no cache drops a line its master has loaded
from exclusively. -/
def Tame (h : List Ev) : Prop :=
  (∀ m k o r, (Op.ldx m k o, r) ∈ h → o = 0) ∧
  (∀ m k o r r', (Op.ldx m k o, r) ∈ h → (Op.evict m k, r') ∉ h)

/-- Only line `k` is loaded from exclusively, at its start, and no cache drops it. -/
def OneLock (k : Nat) (ops : List Op) : Prop :=
  (∀ m k' o, Op.ldx m k' o ∈ ops → k' = k ∧ o = 0) ∧ (∀ m, Op.evict m k ∉ ops)

end Verif.AceExcl
