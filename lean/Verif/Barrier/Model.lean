/-!
# The processor of barriers: model

`BarrierProcesser` takes the transactions of an ACE master.  Barriers come in
pairs, as a read and a write.  The first of a pair is answered at once and sent
by a thread of its own; the second is sent by its caller, which is to return
when both are done.

File: `/repo/tlm-modules/bp-ace.h`, whole.

Simplifications: of the payload, what matters is whether it is a barrier, and
the attributes which `Setup` copies, as one value; a response status is OK,
incomplete or some error; the delay after the first barrier is the time between
two events.
-/

namespace Verif.Barrier

/-- A call of `b_transport`. -/
structure Call where
  id : Nat
  bar : Bool
  attr : Nat
  deriving DecidableEq, Repr

inductive St where
  | ok | incomplete
  | err (n : Nat)
  deriving DecidableEq, Repr

/-- The thread of `exec_tlm_gp` (154-170): not there, spawned, in the downstream
call, in its delay, after it has notified. -/
inductive Spawn where
  | none | ready | down | back | done
  deriving DecidableEq, Repr

structure State where
  /-- `m_ongoing`, and the attributes and the status of `m_gp` -/
  ongoing : Bool
  attr : Nat
  resp : St
  spawn : Spawn
  /-- Calls in the downstream call (198), and calls waiting for the event (205). -/
  inside : List Call
  waiting : List (Call × St)
  deriving DecidableEq, Repr

/-- 68-73, 111-134. -/
def start : State := { ongoing := false, attr := 0, resp := .incomplete, spawn := .none, inside := [], waiting := [] }

inductive Ev where
  | call (c : Call)
  /-- the thread runs; its downstream call returns; it notifies -/
  | enter | barRet (st : St) | notify
  /-- the downstream call of the `k`th of the calls inside returns -/
  | ret (k : Nat) (st : St)
  deriving DecidableEq, Repr

/-- 211-214: the status of the second barrier. -/
def merge (bar own : St) : St := if own = .ok ∧ bar ≠ .ok then bar else own

def step (s : State) : Ev → State
  -- 79-95, 183-198
  | .call c =>
    if c.bar && !s.ongoing then { s with ongoing := true, attr := c.attr, resp := .incomplete, spawn := .ready }
    else { s with inside := s.inside ++ [c] }
  -- 165
  | .enter => if s.spawn = .ready then { s with spawn := .down } else s
  | .barRet st => if s.spawn = .down then { s with spawn := .back, resp := st } else s
  -- 169; those who wait go on
  | .notify => if s.spawn = .back then { s with spawn := .done, waiting := [] } else s
  -- 198-206
  | .ret k st =>
    match s.inside[k]? with
    | none => s
    | some c =>
      if c.bar && s.ongoing then { s with inside := s.inside.eraseIdx k, waiting := s.waiting ++ [(c, st)] }
      else { s with inside := s.inside.eraseIdx k }

/-- The calls which return in an event, with their status. -/
def ended (s : State) : Ev → List (Call × St)
  -- 194
  | .call c => if c.bar && !s.ongoing then [(c, .ok)] else []
  | .ret k st =>
    match s.inside[k]? with
    | none => []
    | some c => if c.bar then if s.ongoing then [] else [(c, merge s.resp st)] else [(c, st)]
  | .notify => if s.spawn = .back then s.waiting.map fun p => (p.1, merge s.resp p.2) else []
  | _ => []

/-- What is sent downstream by the callers, and the attributes of the barrier
sent by the thread. -/
def sent (s : State) : Ev → List Call
  | .call c => if c.bar && !s.ongoing then [] else [c]
  | _ => []

def sentFirst (s : State) : Ev → List Nat
  | .enter => if s.spawn = .ready then [s.attr] else []
  | _ => []

end Verif.Barrier
