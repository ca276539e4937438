/-! # The snoop-channel handshake checker of ACE

Models `ace_handshakes_check` (`/repo/checkers/checker-ace.h` 316-394) and `HandshakeMonitor`
(`/repo/checkers/checker-utils.h` 531-620).  One input per clock edge or reset; all counters are
`uint32_t`.  Simplification: `max_clks` is any number, reports are returned and do not end the
simulation; the time in reset is one input. -/

namespace Verif.PcSnoop

/-- What the checker sees at a clock edge: reset, valid and ready of AC, CR and CD, and the
DataTransfer bit of CRRESP. -/
structure Cyc where
  rst : Bool := false
  acv : Bool := false
  acr : Bool := false
  crv : Bool := false
  crr : Bool := false
  data : Bool := false
  cdv : Bool := false
  cdr : Bool := false
deriving DecidableEq, Repr

/-- `m_valid_wait`, `m_ready_wait`.  `checker-utils.h` 617-618. -/
structure Mon where
  vw : Nat := 0
  rw : Nat := 0
deriving DecidableEq, Repr

/-- The three reports.  `checker-utils.h` 555-564, 582-589, 595-602. -/
inductive Err where
  | validHang | readyHang | dropped
deriving DecidableEq, Repr

/-- `uint32_t` increment and decrement. -/
def inc32 (n : Nat) : Nat := (n + 1) % 2 ^ 32
def dec32 (n : Nat) : Nat := (n + (2 ^ 32 - 1)) % 2 ^ 32

/-- `HandshakeMonitor::run`: next counters, whether there was a handshake, and reports.
`checker-utils.h` 546-609. -/
def Mon.run (mx : Nat) (m : Mon) (v r inc : Bool) : Mon × Bool × List Err :=
  if v = false then
    ({ m with vw := if inc then inc32 m.vw else m.vw }, false,
      (if inc = true ∧ inc32 m.vw = mx then [.validHang] else []) ++
      (if m.rw ≠ 0 then [.dropped] else []))
  else if r = false then
    ({ m with rw := inc32 m.rw }, false, if inc32 m.rw = mx then [.readyHang] else [])
  else ({}, true, [])

/-- The three monitors, `m_cr` and `m_cd`.  `checker-ace.h` 340-351. -/
structure State where
  ac : Mon := {}
  cr : Mon := {}
  cd : Mon := {}
  ncr : Nat := 0
  ncd : Nat := 0
deriving DecidableEq, Repr

/-- Reports of one cycle, per channel. -/
structure Rep where
  ac : List Err := []
  cr : List Err := []
  cd : List Err := []
deriving DecidableEq, Repr

/-- `m_cr` after the AC channel (369-374) and after the CR channel (375-380). -/
def nextCr (n : Nat) (acHs crHs : Bool) : Nat :=
  let n := if acHs then inc32 n else n
  if crHs then dec32 n else n

/-- `m_cd` after the CR channel (382-388) and after the CD channel (390-392). -/
def nextCd (per n : Nat) (crHs data cdHs : Bool) : Nat :=
  let n := if crHs && data then (n + per) % 2 ^ 32 else n
  if cdHs then dec32 n else n

/-- One turn of the loop; `per` is `cd_handshakes_per_line`.  Whether CR and CD are waited for is
decided before the turn (354-355).  `checker-ace.h` 353-393. -/
def step (mx per : Nat) (s : State) (c : Cyc) : State × Rep :=
  if c.rst then ({}, {})
  else
    let a := s.ac.run mx c.acv c.acr false
    let r := s.cr.run mx c.crv c.crr (decide (0 < s.ncr))
    let d := s.cd.run mx c.cdv c.cdr (decide (0 < s.ncd))
    ({ ac := a.1, cr := r.1, cd := d.1, ncr := nextCr s.ncr a.2.1 r.2.1,
       ncd := nextCd per s.ncd r.2.1 c.data d.2.1 },
     { ac := a.2.2, cr := r.2.2, cd := d.2.2 })

/-- The state after a history, newest cycle first. -/
def after (mx per : Nat) : List Cyc → State
  | [] => {}
  | c :: h => (step mx per (after mx per h) c).1

/-- The reports at a cycle after a history. -/
def report (mx per : Nat) (h : List Cyc) (c : Cyc) : Rep := (step mx per (after mx per h) c).2

end Verif.PcSnoop
