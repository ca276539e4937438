import Verif.ChiExcl.Model

/-!
# What exclusive accesses and copies must do, from what was seen
-/

namespace Verif.ChiExcl

/-- The states the caches can get to, with what was seen on the way, newest
first. -/
inductive Reach (n : Nat) : State → List Ev → Prop
  | init : Reach n init []
  | step {s h} (op : Op) : Reach n s h → Reach n (step n s op).1 ((op, (step n s op).2) :: h)

/-- Another node than `m` wrote the line `k`. -/
def otherWrote (m k : Nat) : Ev → Bool
  | (.store i k', .ok) => i != m && k' == k
  | (.writeU i k', .ok) => i != m && k' == k
  | (.stx i k' _, .ok) => i != m && k' == k
  | _ => false

/-- Node `m` got a copy of line `k`, or wrote it. -/
def gotCopy (m k : Nat) : Ev → Bool
  | (.load i k', .miss) => i == m && k' == k
  | (.ldx i k' _, .miss) => i == m && k' == k
  | (.store i k', .ok) => i == m && k' == k
  | (.stx i k' _, .ok) => i == m && k' == k
  | _ => false

/-- Node `m` loaded line `k` at offset `o` exclusively. -/
def loadedExcl (m k o : Nat) : Ev → Bool
  | (.ldx i k' o', _) => i == m && k' == k && o' == o
  | _ => false

/-- Node `m` stored to line `k` at offset `o` exclusively, with success. -/
def storedExcl (m k o : Nat) : Ev → Bool
  | (.stx i k' o', .ok) => i == m && k' == k && o' == o
  | _ => false

/-- Going back from now, `start` happened before anything with `bad`: nothing bad since. -/
def since (start bad : Ev → Bool) : List Ev → Bool
  | [] => false
  | e :: h => start e || (!bad e && since start bad h)

/-- The copy of `m` is of the last write by anybody else. -/
def Fresh (m k : Nat) (h : List Ev) : Prop := since (gotCopy m k) (otherWrote m k) h = true

/-- Nobody else wrote the line since `m` loaded from it exclusively. -/
def Untouched (m k o : Nat) (h : List Ev) : Prop :=
  since (loadedExcl m k o) (otherWrote m k) h = true

/-- `m` loaded exclusively at this address, and has not stored there with success since. -/
def Open (m k o : Nat) (h : List Ev) : Prop :=
  since (loadedExcl m k o) (storedExcl m k o) h = true

/-- Exclusive loads are at the start of a line, and no cache drops a line its node has loaded
from exclusively. -/
def Tame (h : List Ev) : Prop :=
  (∀ m k o r, (Op.ldx m k o, r) ∈ h → o = 0) ∧
  (∀ m k o r r', (Op.ldx m k o, r) ∈ h → (Op.evict m k, r') ∉ h)

/-- The interconnect's states, with what the requests got, newest first. -/
inductive Served : List Nat → List (Rq × Got) → Prop
  | init : Served [] []
  | step {l h} (r : Rq) : Served l h → Served (route l r).1 ((r, (route l r).2) :: h)

/-- Going back from now, an exclusive read or CleanUnique of the logical processor `lp` comes no
later than the last exclusive store that passed. -/
def Entitled (lp : Nat) : List (Rq × Got) → Prop
  | [] => False
  | e :: h =>
    (e.1.excl = true ∧ isExcl e.1.opc = true ∧ e.1.lpid = lp) ∨
      (e.2.exokay = false ∧ Entitled lp h)

end Verif.ChiExcl
