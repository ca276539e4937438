/-
Transaction ordering in the two AXI bridges.

* `Master`: the pending lists of `/repo/tlm-bridges/tlm2axi-bridge.h` (address
  phase, response phases, `LookupAxID`, reset).
* `Slave`: the per-id worker threads of `/repo/tlm-bridges/axi2tlm-bridge.h`
  (`RunTLMTransaction`, `GetFirstWithID`, `InList`, `OverlappingAddress`).

Data, strobes and statuses are modelled in `Verif/Tlm2Axi` and `Verif/Axi2Tlm`;
here a transaction is its identity, its id and what ordering depends on.
SystemC processes are co-operative: one step below is what one process does
between two waits.
-/
namespace Verif.AxiOrder

/-! ## TLM to AXI -/

namespace Master

/-- A transaction handed to the bridge: `tag` identifies the `b_transport` call
(the address of its `Transaction` object), `beats` is the number of read-data
beats that make up its data length minus one (so a transaction always has at
least one beat; `Validate`, tlm2axi-bridge.h 572-601, rejects empty ones). -/
structure Tr where
  tag : Nat
  id : Nat
  more : Nat
  deriving DecidableEq, Repr

/-- How a `b_transport` call ended. -/
inductive End where
  | answered (ids : List Nat)   -- ids of the response beats given to it, in order
  | aborted                     -- `abort(tr)` on reset
  deriving DecidableEq, Repr

/-- `LookupAxID` (tlm2axi-bridge.h 540-559): the first pending transaction with
the id, and the vector without it. -/
def lookup (id : Nat) : List Tr → Option (Tr × List Tr)
  | [] => none
  | t :: ts =>
    if t.id = id then some (t, ts)
    else match lookup id ts with
      | none => none
      | some (u, rest) => some (u, t :: rest)

/-- Read side: `pend` is `rdResponses`; `cur` is the transaction
`read_resp_phase` has selected, the number of beats it still wants and the ids
of the beats it was given; `log` records completed calls in order. -/
structure RSt where
  pend : List Tr
  cur : Option (Tr × Nat × List Nat)
  log : List (Tr × End)

def RSt.init : RSt := ⟨[], none, []⟩

inductive ROp where
  | issue (t : Tr)     -- address handshake: `rdResponses.push_back` (754-757)
  | beat (rid : Nat)   -- `rvalid` seen by `read_resp_phase` (786-947)
  | reset              -- `resetn` falls (`reset` 1056-1090; 807-809, 938-945)
  deriving DecidableEq, Repr

/-- One event. `none`: the simulation stops with an error (a read response with
an unexpected transaction id, 823-828, after which a null pointer is used).
Once a transaction is selected its later beats are taken without looking at
`rid` (818: only `if (tr == NULL)`). -/
def rstep (s : RSt) : ROp → Option RSt
  | .issue t => some { s with pend := s.pend ++ [t] }
  | .beat rid =>
    match s.cur with
    | none =>
      match lookup rid s.pend with
      | none => none
      | some (t, rest) =>
        if t.more = 0 then
          some { s with pend := rest, log := s.log ++ [(t, .answered [rid])] }
        else some { s with pend := rest, cur := some (t, t.more, [rid]) }
    | some (t, left, ids) =>
      if left = 1 then
        some { s with cur := none, log := s.log ++ [(t, .answered (ids ++ [rid]))] }
      else some { s with cur := some (t, left - 1, ids ++ [rid]) }
  | .reset =>
    some { pend := [], cur := none,
           log := s.log ++ (s.cur.toList.map fun c => (c.1, End.aborted))
                  ++ s.pend.map fun t => (t, End.aborted) }

def rrun : RSt → List ROp → Option RSt
  | s, [] => some s
  | s, o :: os => match rstep s o with
    | none => none
    | some s' => rrun s' os

/-- Write side: `data` is `wrDataFifo` (address sent, data not finished), `pend`
is `wrResponses`. -/
structure WSt where
  data : List Tr
  pend : List Tr
  log : List (Tr × End)

def WSt.init : WSt := ⟨[], [], []⟩

inductive WOp where
  | issue (t : Tr)     -- `wrDataFifo.write` (759-763)
  | sent               -- last data beat sent: `wrResponses.push_back` (993-994)
  | resp (bid : Nat)   -- `write_resp_phase` (1003-1054)
  | reset
  deriving DecidableEq, Repr

def wstep (s : WSt) : WOp → Option WSt
  | .issue t => some { s with data := s.data ++ [t] }
  | .sent => match s.data with
    | [] => some s
    | t :: ts => some { s with data := ts, pend := s.pend ++ [t] }
  | .resp bid => match lookup bid s.pend with
    | none => none
    | some (t, rest) =>
      some { s with pend := rest, log := s.log ++ [(t, .answered [bid])] }
  | .reset =>
    some { data := [], pend := [],
           log := s.log ++ s.pend.map (fun t => (t, End.aborted))
                  ++ s.data.map fun t => (t, End.aborted) }

def wrun : WSt → List WOp → Option WSt
  | s, [] => some s
  | s, o :: os => match wstep s o with
    | none => none
    | some s' => wrun s' os

end Master

/-! ## AXI to TLM -/

namespace Slave

/-- A transaction accepted from the AXI side. `page` is `address >> 12`;
`barrier` is only ever set in ACE mode. `tag` is the order of acceptance (it
stands for the address of the `Transaction` object). -/
structure Tr where
  tag : Nat
  id : Nat
  page : Nat
  barrier : Bool := false
  deriving DecidableEq, Repr

/-- Where a worker thread of `RunTLMTransaction` (778-848) is suspended:
not started yet, waiting to be allowed to issue, inside `b_transport` (or its
annotated delay), or blocked in `fifo->write` after `list->remove`. -/
inductive Th where
  | start
  | wait (t : Tr)
  | busy (t : Tr)
  | put (t : Tr)
  deriving DecidableEq, Repr

inductive Ev where
  | call (t : Tr)   -- `socket->b_transport` entered
  | done (t : Tr)   -- `b_transport` returned and its delay elapsed
  deriving DecidableEq, Repr

/-- `list` is `rtList`/`wtList`, `fifo` is `rdDataFifo`/`wrRespFifo`, `cur` the
transaction whose response is on the bus, `delivered` the responses completed,
`log` the TLM calls. `accepted` is bookkeeping only. -/
structure St where
  list : List Tr
  threads : List (Nat × Th)
  fifo : List Tr
  cur : Option Tr
  delivered : List Tr
  log : List Ev
  accepted : List Tr

def St.init : St := ⟨[], [], [], none, [], [], []⟩

/-- `m_maxReadTransactions`/`m_maxWriteTransactions` (217-218) and the default
depth of an `sc_fifo`. -/
def maxOutstanding : Nat := 16
def fifoDepth : Nat := 16

/-- `get_num_ongoing_read` (858-861): accepted and not completed, barriers not
counted. -/
def St.outstanding (s : St) : Nat :=
  (s.accepted.filter (!·.barrier)).length - (s.delivered.filter (!·.barrier)).length

inductive Op where
  | accept (id page : Nat) (barrier : Bool)
  | run (k : Nat)      -- the scheduler resumes worker thread `k`
  | take               -- the response phase reads the fifo (964, 1274)
  | finish             -- the response has been accepted (1056, 1324)
  deriving DecidableEq, Repr

/-- `GetFirstWithID` (656-668). -/
def firstWithId (l : List Tr) (id : Nat) : Option Tr := l.find? (·.id == id)

/-- `OverlappingAddress` (713-726) for transactions that are in the list. -/
def overlapping (l : List Tr) (t : Tr) : Bool :=
  (l.takeWhile (·.tag != t.tag)).any (·.page == t.page)

/-- `is_after_barrier` (728-738). -/
def afterBarrier (l : List Tr) (t : Tr) : Bool :=
  (l.takeWhile (·.tag != t.tag)).any (·.barrier)

/-- `WaitForTransactions` (740-776). The exemption of write-back, write-clean
and evict transactions from waiting behind a barrier is not modelled. -/
def mustWait (l : List Tr) (t : Tr) : Bool :=
  (if t.barrier then l.head?.map (·.tag) != some t.tag else afterBarrier l t)
    || overlapping l t

/-- The top of the loop of `RunTLMTransaction`: pick the next transaction with
the thread's id, or end the thread. -/
def pick (l : List Tr) (id : Nat) (k : Nat) (ths : List (Nat × Th)) : List (Nat × Th) :=
  match firstWithId l id with
  | none => ths.eraseIdx k
  | some t => ths.set k (id, .wait t)

/-- `list->remove(tr)` compares pointers. -/
def remove (l : List Tr) (t : Tr) : List Tr := l.filter (·.tag != t.tag)

/-- One scheduling step. The address phase (879-957; 1082-1143 and 1219-1246 for
writes, where acceptance is the arrival of the last data beat) accepts only
while fewer than `maxOutstanding` transactions are outstanding, not counting
barriers (858-877). Counting a write from its last data beat (the code counts it
from its address) admits more executions, not fewer; AXI4 write data arrive in
address order, AXI3 ones in address order per id. Not modelled: reset and the
limit of 256 barriers. -/
def step (s : St) : Op → St
  | .accept id page barrier =>
    if maxOutstanding ≤ s.outstanding then s
    else
      let t : Tr := ⟨s.accepted.length, id, page, barrier⟩
      { s with
        list := s.list ++ [t]
        accepted := s.accepted ++ [t]
        threads := if s.list.any (·.id == id) then s.threads
                   else s.threads ++ [(id, .start)] }
  | .run k =>
    match s.threads[k]? with
    | none => s
    | some (id, .start) => { s with threads := pick s.list id k s.threads }
    | some (id, .wait t) =>
      if mustWait s.list t then s
      else { s with threads := s.threads.set k (id, .busy t), log := s.log ++ [.call t] }
    | some (id, .busy t) =>
      let l := remove s.list t
      if s.fifo.length < fifoDepth then
        { s with list := l, fifo := s.fifo ++ [t], threads := pick l id k s.threads,
                 log := s.log ++ [.done t] }
      else { s with list := l, threads := s.threads.set k (id, .put t),
                    log := s.log ++ [.done t] }
    | some (id, .put t) =>
      if s.fifo.length < fifoDepth then
        { s with fifo := s.fifo ++ [t], threads := pick s.list id k s.threads }
      else s
  | .take =>
    match s.cur, s.fifo with
    | none, t :: ts => { s with cur := some t, fifo := ts }
    | _, _ => s
  | .finish =>
    match s.cur with
    | none => s
    | some t => { s with cur := none, delivered := s.delivered ++ [t] }

def run (s : St) (ops : List Op) : St := ops.foldl step s

end Slave

end Verif.AxiOrder
