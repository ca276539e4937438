import Verif.AceSnoop.Model

/-! # What the snoop channels are for -/

namespace Verif.AceSnoop
open Verif

/-- The snoop the target has to see. -/
def Req.wanted (r : Req) : MTr := { addr := r.addr, snoop := r.snoop, ns := r.ns }

/-- What the caller has to get for the target's answer: the answer's attributes; an error
status for an error; the line if the target supplied it. -/
def expected (a : Ans) : Result :=
  if a.flags.err then ⟨.generic, [], a.flags⟩
  else ⟨.ok, if a.flags.dt then a.data else [], a.flags⟩

/-- A snoop the channels can carry: address and type fit their signals, the buffer is one
cache line, the attributes are fresh. -/
structure Req.Fits (c : Cfg) (r : Req) : Prop where
  addr : r.addr < 2 ^ c.aw
  snoop : r.snoop < 16
  len : r.len = c.line
  fresh : r.flags = {}

/-- An answer the target may give: a whole line, and no data together with an error. -/
structure Ans.Fits (c : Cfg) (a : Ans) : Prop where
  len : a.data.length = c.line
  noErrData : ¬ (a.flags.err = true ∧ a.flags.dt = true)

/-- The steps considered. -/
def Move.Fits (c : Cfg) : Move → Prop
  | .submit r => r.Fits c
  | .target a => a.Fits c
  | _ => True

/-- Reachable states. -/
inductive Reach (c : Cfg) : St → Prop
  | init : Reach c {}
  | step {s t : St} (m : Move) : Reach c s → m.Fits c → s.move c m = some t → Reach c t

/-- Nothing is under way. -/
def Idle (s : St) : Prop := s.acq = [] ∧ s.sCr = [] ∧ s.sCd = []

end Verif.AceSnoop
