/-
The pool of CHI transaction ids: `/repo/tlm-modules/private/chi/txnids.h` 36-70.

Several simulation processes share one pool. A process that finds the pool empty
waits on the event that `ReturnID` notifies (immediate notification: every
waiting process becomes runnable); once it runs again it takes the front of the
list without looking again.
-/
namespace Verif.ChiIds

abbrev Thread := Nat

/-- `free`: `m_ids`; `waiting`: processes in `wait(m_returnIDEvent)`; `ready`:
processes that have been notified and have not run yet; `held`: ids handed out
and not returned, with the process that obtained them (latest first). The last
is a history variable, the code does not keep it. -/
structure St where
  free : List Nat
  waiting : List Thread
  ready : List Thread
  held : List (Thread × Nat)
  deriving DecidableEq, Repr

/-- `TxnIDs()` (41-46). -/
def init : St := ⟨List.range 256, [], [], []⟩

inductive Op
  /-- A process calls `GetID` (48-60). -/
  | get (t : Thread)
  /-- The scheduler runs a process that has been notified. -/
  | run (t : Thread)
  /-- A process calls `ReturnID` (62-66). -/
  | ret (id : Nat)
  deriving DecidableEq, Repr

/-- `m_ids.front(); m_ids.pop_front()` (56-57): undefined on an empty list. -/
def take (s : St) (t : Thread) : Option St :=
  match s.free with
  | [] => none
  | id :: rest => some { s with free := rest, held := (t, id) :: s.held }

/-- One step; `none` is undefined behaviour. A process inside `GetID` cannot call
it again and only a notified process runs: other requests of that kind change
nothing. Returned ids are a `uint8_t`. -/
def step (s : St) : Op → Option St
  | .get t =>
    if t ∈ s.waiting ∨ t ∈ s.ready then some s
    else if s.free = [] then some { s with waiting := s.waiting ++ [t] }
    else take s t
  | .run t => if t ∈ s.ready then take { s with ready := s.ready.erase t } t else some s
  | .ret id =>
    some
      { s with
        free := s.free ++ [id % 256]
        held := s.held.eraseP fun p => p.2 == id % 256
        ready := s.ready ++ s.waiting
        waiting := [] }

def exec (s : St) : List Op → Option St
  | [] => some s
  | o :: os => match step s o with | none => none | some s' => exec s' os

/-- An id that is returned is in use. -/
def retOk (s : St) : Op → Bool
  | .ret id => decide (id % 256 ∈ s.held.map (·.2))
  | _ => true

/-- The callers' side of the contract: only ids in use are returned. -/
def Fair (s : St) : List Op → Bool
  | [] => true
  | o :: os => retOk s o && (match step s o with | none => true | some s' => Fair s' os)

end Verif.ChiIds
