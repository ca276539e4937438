import Verif.Base.Tlm
/-
The TLM splitter: `/repo/tlm-modules/tlm-splitter.h` 37-95.
-/
namespace Verif.Splitter
open Verif

/-- The payload with its response status (`tlm_generic_payload`). -/
structure Pay where
  gp : Gp
  status : Status
  deriving DecidableEq, Repr

/-- A target: `b_transport` on its state. It may do anything to the payload. -/
abbrev Target (σ : Type) := σ → Pay → σ × Pay

/-- What has happened during the loop: the targets' new states and, for every
call made, the payload as the target received it and as it left it. `mismatch` is
the error report of the read-data comparison, which ends the call by an
exception. -/
structure Run (σ : Type) where
  states : List σ
  calls : List (Pay × Pay)
  mismatch : Bool

/-- Whether the read data differ from the reference (80-88). -/
def differs (ref : Option (List Byte)) (d : List Byte) : Bool :=
  match ref with
  | none => false
  | some r => decide (r ≠ d)

/-- The reference data after a call: the first target's. -/
def keepRef (ref : Option (List Byte)) (d : List Byte) : Option (List Byte) :=
  match ref with
  | none => some d
  | some r => some r

/-- The loop of `b_transport` (74-91). `p`: the payload; `resp`: `resp_status`;
`ref`: the reference data (none before the first target). The time annotation is
left out. -/
def loop {σ : Type} (check : Bool) :
    List (Target σ × σ) → Pay → Status → Option (List Byte) → Run σ × Pay × Status
  | [], p, resp, _ => (⟨[], [], false⟩, p, resp)
  | (t, s) :: rest, p, resp, ref =>
    let (s', p') := t s p
    let resp' := if p'.status ≠ .ok then p'.status else resp
    let bad := check && decide (p'.gp.cmd = .read) && differs ref p'.gp.data
    if bad then (⟨s' :: rest.map (·.2), [(p, p')], true⟩, p', resp')
    else
      let ref' := if check && decide (p'.gp.cmd = .read) then keepRef ref p'.gp.data else ref
      let (run, q, r) := loop check rest p' resp' ref'
      (⟨s' :: run.states, (p, p') :: run.calls, run.mismatch⟩, q, r)

/-- `b_transport` (62-93): the run and the payload the initiator gets back (not
reached after a mismatch). -/
def transport {σ : Type} (check : Bool) (ts : List (Target σ × σ)) (p : Pay) : Run σ × Pay :=
  let (run, q, r) := loop check ts p .ok none
  (run, if run.mismatch then q else { q with status := r })

end Verif.Splitter
