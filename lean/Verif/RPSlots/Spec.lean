import Verif.RPSlots.Model

/-!
# Specification: outstanding requests as a map from id to "answer so far"

No slots.  An id is outstanding from issue until its waiter has taken the
answer; a waiter gets the most recent response that carried its id, and nothing
else.
-/

namespace Verif.RPSlots.Spec
open Verif Verif.RPSlots

structure State where
  /-- `none`: not outstanding; `some none`: waiting; `some (some p)`: answered -/
  out : BitVec 32 → Option (Option Resp)
  /-- number of outstanding requests -/
  cnt : Nat
  next : BitVec 32

def init (next : BitVec 32) : State := { out := fun _ => none, cnt := 0, next }

def step (s : State) : Op → Option (State × Out)
  | .issue =>
    if s.cnt < 256 then
      some ({ out := upd s.out s.next (some none), cnt := s.cnt + 1, next := s.next + 1 }, .issued s.next)
    else none
  | .arrive true _ => some (s, .nothing)
  | .arrive false p =>
    match s.out p.id with
    | none => none
    | some _ => some ({ s with out := upd s.out p.id (some (some p)) }, .nothing)
  | .poll id =>
    match s.out id with
    | some (some p) => some ({ s with out := upd s.out id none, cnt := s.cnt - 1 }, .got p)
    | _ => some (s, .nothing)

def run (s : State) : List Op → Option (List Out)
  | [] => some []
  | o :: os =>
    match step s o with
    | none => none
    | some (s', out) => (run s' os).map (out :: ·)

end Verif.RPSlots.Spec
