/-!
# Remote-port time accounting

Models `remoteport_tlm_sync_untimed` and `remoteport_tlm_sync_loosely_timed`
(`/repo/libremote-port/remote-port-tlm.cc` 54-216).  Times are naturals in units
of the simulator's resolution; `ns` is the number of units in a nanosecond.
Conversion through `double` is taken to be exact.
-/

namespace Verif.RPTime

/-- Parameters: units per nanosecond, the global quantum, and `map_time`
(`remote-port-tlm.h` 109-118), an arbitrary function because of its rounding. -/
structure Cfg where
  ns : Nat
  quantum : Nat
  mapTime : Nat → Int

/-- Kernel time and the quantum keeper's local offset. -/
structure St where
  now : Nat
  loc : Nat
  deriving DecidableEq, Repr

/-- `get_current_time`. -/
def St.cur (s : St) : Nat := s.now + s.loc

/-- `delta_ns` (62-75); the second component is the mathematical value, the
C++ type is `int64_t`. -/
def deltaNs (lclk rclk : Int) : Int := if lclk ≥ rclk then 1 else rclk - lclk

/-- `account_time` (62-93). -/
def accountTime (c : Cfg) (s : St) (rclk : Int) : St :=
  let d := (deltaNs (c.mapTime s.cur) rclk).toNat * c.ns
  let d := if d > c.quantum then c.quantum else d
  if s.loc + d ≥ c.quantum then { s with loc := c.quantum } else { s with loc := s.loc + d }

/-- `sync` (`tlm_quantumkeeper::sync`): wait for the local offset, then reset it. -/
def sync (s : St) : St := { now := s.now + s.loc, loc := 0 }

/-- A sync command handled by the untimed variant: `pre_any_cmd`,
`pre_sync_cmd`, `post_any_cmd` (95-120). -/
def untimedSync (c : Cfg) (s : St) (rclk : Int) (canSync : Bool) : St :=
  let s1 := accountTime c s rclk
  let s2 := if s.cur = s1.cur then { s1 with loc := s1.loc + c.ns } else s1
  if canSync then sync s2 else s2

/-- A sync command handled by the loosely timed variant: `pre_sync_cmd`,
`post_sync_cmd`, `post_any_cmd` (160-187). -/
def looseSync (c : Cfg) (s : St) (rclk : Int) (canSync : Bool) : St :=
  let s1 := accountTime c s rclk
  if canSync then sync s1 else s1

/-- Events of a history: a sync command, or kernel time passing meanwhile. -/
inductive Ev
  | cmd (rclk : Int) (canSync : Bool)
  | elapse (n : Nat)

def runUntimed (c : Cfg) (s : St) : List Ev → St
  | [] => s
  | .cmd r b :: h => runUntimed c (untimedSync c s r b) h
  | .elapse n :: h => runUntimed c { s with now := s.now + n } h

def runLoose (c : Cfg) (s : St) : List Ev → St
  | [] => s
  | .cmd r b :: h => runLoose c (looseSync c s r b) h
  | .elapse n :: h => runLoose c { s with now := s.now + n } h

end Verif.RPTime
