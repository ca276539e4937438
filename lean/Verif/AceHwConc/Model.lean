import Verif.AxiOrder.Model

/-! # Several accesses at once in the ACE hardware bridges

`rtl-bridges/pcie-host/ace/tlm/tlm2ace-hw-bridge.h` (`Out`),
`ace2tlm-hw-bridge.h` (`Ram`, `Rack`, `stepU`) and
`private/ace-slv-snp-chnls.h` (`Snoop`).  Every register access (`dev_read32`,
`dev_write32`) is a `b_transport` call to the hardware and may take time, so other
processes run in between; moves are what one process does between two such points
that matter to another process.  What each access does is C65; here it is its tag. -/

namespace Verif.AceHwConc

/-- An access: a tag for its payload, its AXI id. -/
structure Tr where
  tag : Nat
  id : Nat
deriving DecidableEq, Repr

/-- `LookupAxID` (tlm2ace 658-679): first with the id, removed. -/
def lookup (id : Nat) : List Tr → Option (Tr × List Tr)
  | [] => none
  | t :: ts => if t.id = id then some (t, ts) else (lookup id ts).map fun r => (r.1, t :: r.2)

/-! ## TLM to ACE -/

namespace Out

/-- One direction (reads or writes) of the bridge with its hardware.
* `queue`: `rdTransFifo`/`wrTransFifo` with the callers blocked on it;
* `cur`: what the thread in `address_phase` (578-605) works on: descriptor and data
  written (`false`), or also pushed to the hardware (`true`) but not yet in
  `rdResponses`/`wrResponses`;
* `ram`: whose data the write data memory holds (from offset 0, 464-576);
* `hw`: descriptors pushed and not sent yet; `bus`: sent and not answered;
* `resp`: the hardware's response FIFO;
* `pend`: `rdResponses`/`wrResponses`;
* `log`: calls answered, each with the access its response belongs to;
* `sent`: accesses sent, each with the owner of the data sent;
* `fail`: a response with an unexpected ID (an error, after which a null pointer is used).
`overlap` and `wiped` are bookkeeping: data was written while an earlier descriptor had
not been sent; a reset happened.  The hardware's 16 descriptors are not modelled (fewer
accesses at once), nor is the address phase noticing the reset. -/
structure St where
  queue : List Tr
  cur : Option (Tr × Bool)
  ram : Option Nat
  hw : List Tr
  bus : List Tr
  resp : List Tr
  pend : List Tr
  log : List (Tr × Tr)
  sent : List (Tr × Option Nat)
  fail : Bool
  all : List Tr
  overlap : Bool
  wiped : Bool

def St.init : St := ⟨[], none, none, [], [], [], [], [], [], false, [], false, false⟩

inductive Move where
  | submit (id : Nat)   -- `b_transport` (631-656): the transaction goes into the FIFO
  | load                -- `read_address_phase`/`write_address_phase` (283-465) up to the push
  | push                -- the write to `*_REQ_FIFO_PUSH_DESC` (367, 453)
  | record              -- `rdResponses.push_back` / `wrResponses.push_back` (588, 593)
  | send                -- hardware: next descriptor on the bus, with the data memory as it is
  | answer (k : Nat)    -- the bus answers; answers of one id come in order
  | handle              -- `read_resp_phase` / `write_resp_phase` (690-882)
  | reset               -- the hardware loses everything; `rdResponses` etc. are left alone
deriving DecidableEq, Repr

def pushed : Option (Tr × Bool) → List Tr
  | some (t, true) => [t]
  | _ => []

def St.move (s : St) : Move → Option St
  | .submit id => if s.fail then none else
      let t : Tr := ⟨s.all.length, id⟩
      some { s with queue := s.queue ++ [t], all := s.all ++ [t] }
  | .load =>
    match s.fail, s.cur, s.queue with
    | false, none, t :: q =>
      some { s with queue := q, cur := some (t, false), ram := some t.tag, overlap := s.overlap || !s.hw.isEmpty }
    | _, _, _ => none
  | .push =>
    match s.fail, s.cur with
    | false, some (t, false) => some { s with cur := some (t, true), hw := s.hw ++ [t] }
    | _, _ => none
  | .record =>
    match s.fail, s.cur with
    | false, some (t, true) => some { s with cur := none, pend := s.pend ++ [t] }
    | _, _ => none
  | .send =>
    match s.hw with
    | t :: h => some { s with hw := h, bus := s.bus ++ [t], sent := s.sent ++ [(t, s.ram)] }
    | [] => none
  | .answer k =>
    match s.bus[k]? with
    | some t => if (s.bus.take k).all fun u => u.id ≠ t.id then
        some { s with bus := s.bus.eraseIdx k, resp := s.resp ++ [t] } else none
    | none => none
  | .handle =>
    match s.fail, s.resp with
    | false, r :: rs =>
      match lookup r.id s.pend with
      | some (t, p) => some { s with resp := rs, pend := p, log := s.log ++ [(t, r)] }
      | none => some { s with resp := rs, fail := true }
    | _, _ => none
  | .reset => some { s with hw := [], bus := [], resp := [], wiped := true }

inductive Reach : St → Prop
  | init : Reach St.init
  | step {s s' : St} (m : Move) : Reach s → s.move m = some s' → Reach s'

def St.runs (s : St) : List Move → Option St
  | [] => some s
  | m :: ms => (s.move m).bind fun s' => s'.runs ms

theorem Reach.runs {s s' : St} (ms : List Move) : Reach s → s.runs ms = some s' → Reach s' := by
  induction ms generalizing s with
  | nil => intro h e; injection e with e; exact e ▸ h
  | cons m ms ih =>
    intro h e
    simp only [St.runs] at e
    cases hm : s.move m with
    | none => rw [hm] at e; cases e
    | some t => rw [hm, Option.bind_some] at e; exact ih (h.step m hm) e

end Out

/-! ## The read data memory of the slave -/

namespace Ram

/-- Read responses through the data memory of the slave (ace2tlm 477-502, 507-615):
each response's data is written from offset 0, the descriptor pushed, and (`full`:
`ACE_MODE_ACE`) the acknowledgement of the master awaited before the next one.
`cur`: the response being prepared; `waiting`: pushed, acknowledgement not seen. -/
structure St where
  full : Bool
  next : Nat
  cur : Option Nat
  waiting : Bool
  ram : Option Nat
  hw : List Nat
  acks : Nat
  sent : List (Nat × Option Nat)

def St.init (full : Bool) : St := ⟨full, 0, none, false, none, [], 0, []⟩

inductive Move where
  | load   -- 477-502, 569-577
  | push   -- 583-584
  | send   -- hardware: the next response on the bus, data from the memory as it is
  | ack    -- the master acknowledges (full ACE) and `read_data_phase` sees it (592)
deriving DecidableEq, Repr

def St.move (s : St) : Move → Option St
  | .load => if s.cur = none ∧ s.waiting = false then some { s with cur := some s.next, next := s.next + 1, ram := some s.next } else none
  | .push =>
    match s.cur with
    | some t => some { s with cur := none, hw := s.hw ++ [t], waiting := s.full }
    | none => none
  | .send =>
    match s.hw with
    | t :: h => some { s with hw := h, acks := s.acks + 1, sent := s.sent ++ [(t, s.ram)] }
    | [] => none
  | .ack => if s.waiting ∧ 0 < s.acks then some { s with waiting := false, acks := s.acks - 1 } else none

inductive Reach (full : Bool) : St → Prop
  | init : Reach full (St.init full)
  | step {s s' : St} (m : Move) : Reach full s → s.move m = some s' → Reach full s'

def St.runs (s : St) : List Move → Option St
  | [] => some s
  | m :: ms => (s.move m).bind fun s' => s'.runs ms

theorem Reach.runs {full : Bool} {s s' : St} (ms : List Move) : Reach full s → s.runs ms = some s' → Reach full s' := by
  induction ms generalizing s with
  | nil => intro h e; injection e with e; exact e ▸ h
  | cons m ms ih =>
    intro h e
    simp only [St.runs] at e
    cases hm : s.move m with
    | none => rw [hm] at e; cases e
    | some t => rw [hm, Option.bind_some] at e; exact ih (h.step m hm) e

end Ram

/-! ## The acknowledgement event -/

namespace Rack

/-- Where `read_data_phase` is: inside the register accesses of the push (583-584), at
`wait(m_rackEvent)` (592), past it. -/
inductive Ph where
  | idle | pushing | waiting | done
deriving DecidableEq, Repr

/-- `acked`: the master has acknowledged, `comp`: the hardware's completion status bit. -/
structure St where
  ph : Ph
  acked : Bool
  comp : Bool
deriving DecidableEq, Repr

def St.init : St := ⟨.idle, false, false⟩

inductive Move where
  | push   -- the descriptor reaches the hardware
  | wait   -- the push's register accesses are over (`dev_write32` reads once more, 1216-1230), `wait` is entered
  | ack    -- hardware: acknowledgement seen, completion bit set
  | poll   -- `work_thread` (1066-1070): bit set: notify whoever waits, and clear it
deriving DecidableEq, Repr

/-- `sc_event::notify()` wakes the processes waiting at that moment; it is not
remembered. -/
def St.move (s : St) : Move → Option St
  | .push => if s.ph = .idle then some { s with ph := .pushing } else none
  | .wait => if s.ph = .pushing then some { s with ph := .waiting } else none
  | .ack => if (s.ph = .pushing ∨ s.ph = .waiting) ∧ s.acked = false then some { s with acked := true, comp := true } else none
  | .poll => if s.comp then some { s with comp := false, ph := if s.ph = .waiting then .done else s.ph } else none

def St.runs (s : St) : List Move → Option St
  | [] => some s
  | m :: ms => (s.move m).bind fun s' => s'.runs ms

end Rack

/-! ## Snoops to the hardware's master -/

namespace Snoop

/-- Two processes in `push_on_ac_ch` (ace-slv-snp-chnls.h 483-521); the locks and the
overlap list keep them apart only if their addresses overlap. Position of a process:
before, after writing the descriptor (`base` was computed on entry), after the push,
finished. -/
inductive Pc where
  | start | written | pushed | finished
deriving DecidableEq, Repr

/-- `idx` is the static `ac_desc_idx`, `desc` the descriptors (the owner of the
contents), `sent` the snoops sent: who pushed, and whose descriptor contents.
`clash`: bookkeeping, both were between entry and end. -/
structure St where
  pc : Bool → Pc
  idx : Nat
  desc : Nat → Option Bool
  sent : List (Bool × Option Bool)
  clash : Bool

def St.init (idx : Nat) : St := ⟨fun _ => .start, idx, fun _ => none, [], false⟩

def inside : Pc → Bool
  | .written | .pushed => true
  | _ => false

/-- The next piece of process `p`: `MAX_DESC_IDX` is 16. -/
def St.move (s : St) (p : Bool) : Option St :=
  match s.pc p with
  | .start => some { s with pc := fun q => if q = p then .written else s.pc q,
                            desc := fun i => if i = s.idx then some p else s.desc i, clash := s.clash || inside (s.pc (!p)) }
  | .written => some { s with pc := fun q => if q = p then .pushed else s.pc q, sent := s.sent ++ [(p, s.desc s.idx)] }
  | .pushed => some { s with pc := fun q => if q = p then .finished else s.pc q, idx := (s.idx + 1) % 16 }
  | .finished => none

inductive Reach (idx : Nat) : St → Prop
  | init : Reach idx (St.init idx)
  | step {s s' : St} (p : Bool) : Reach idx s → s.move p = some s' → Reach idx s'

def St.runs (s : St) : List Bool → Option St
  | [] => some s
  | m :: ms => (s.move m).bind fun s' => s'.runs ms

theorem Reach.runs {idx : Nat} {s s' : St} (ms : List Bool) : Reach idx s → s.runs ms = some s' → Reach idx s' := by
  induction ms generalizing s with
  | nil => intro h e; injection e with e; exact e ▸ h
  | cons m ms ih =>
    intro h e
    simp only [St.runs] at e
    cases hm : s.move m with
    | none => rw [hm] at e; cases e
    | some t => rw [hm, Option.bind_some] at e; exact ih (h.step m hm) e

/-- `ACELock` (47-124). -/
structure Lock where
  ongoing : Bool
  addr : Nat
  len : Nat
deriving DecidableEq, Repr

/-- `in_range` (106-112), 64 bit. -/
def inRange (start len addr : Nat) : Bool := decide (start ≤ addr ∧ addr < (start + len) % 2 ^ 64)

/-- `range_overlap` (94-104). -/
def Lock.overlap (l : Lock) (addr len : Nat) : Bool :=
  inRange l.addr l.len addr || inRange l.addr l.len ((addr + len + (2 ^ 64 - 1)) % 2 ^ 64) || inRange addr len l.addr

/-- `trylock` (73-81). -/
def Lock.trylock (l : Lock) (addr len : Nat) : Bool := !l.ongoing || !l.overlap addr len

/-- `lock` (57-71) once `trylock` succeeds. -/
def Lock.take (_ : Lock) (addr len : Nat) : Lock := ⟨true, addr, len⟩

/-- `unlock` (83-87). -/
def Lock.release (l : Lock) : Lock := { l with ongoing := false }

end Snoop

/-! ## Threads of the slave -/

/-- The worker threads of `ace2tlm_hw_bridge` (`RunTLMTransaction`, 391-458;
`read_address_phase` 780-805) are those of the AXI bridge (`AxiOrder.Slave`), but
requests are taken from the hardware without a limit on those outstanding. -/
def stepU (s : AxiOrder.Slave.St) : AxiOrder.Slave.Op → AxiOrder.Slave.St
  | .accept id page barrier =>
    let t : AxiOrder.Slave.Tr := ⟨s.accepted.length, id, page, barrier⟩
    { s with
      list := s.list ++ [t]
      accepted := s.accepted ++ [t]
      threads := if s.list.any (·.id == id) then s.threads else s.threads ++ [(id, .start)] }
  | op => AxiOrder.Slave.step s op

end Verif.AceHwConc
