/-!
# Snoops through the ACE to TLM hardware bridge: model

A TLM caller pushes its snoop to the hardware and waits.  The thread of the
bridge takes snoop responses and cache lines from the hardware, in two FIFOs
without order between them, and ends the snoop of the caller.

Files, in `/repo/rtl-bridges/pcie-host/ace/tlm`:
* `private/ace-slv-snp-chnls.h`: `handle_cd`, `pop_cr`, `pop_cd_descriptor`,
  `pop_cd` (185-286), `SetCrResp` (317-340), the end of `push_on_ac_ch`
  (504-518), `reset` (521-534),
* `ace2tlm-hw-bridge.h` 1086-1107, where the thread calls them,
* `/repo/tlm-bridges/amba.h` 252-278, `tlm2axi_clear_fifo` and `abort`.

Simplifications: the registers of the request and the locks are C66's, here a
caller starts where it pushes; the rest of the loop of the thread (AR, AW, the
acknowledges, waiting for the interrupt) does not touch this state and is left
out; the accesses of `pop_cr` (197-212) are one event, for the hardware does not
write a descriptor which is not free (C89); assertion and release of the reset
are one event; a descriptor of the hardware is a number below 16, and the
`sc_fifo`s have their default size 16; the payload has its attributes extension,
with no attribute set.
-/

namespace Verif.AceSlvSnp

/-- A snoop: who calls, and the data length of the payload. -/
structure Snoop where
  id : Nat
  len : Nat
  deriving DecidableEq, Repr

/-- The attributes set in the payload. -/
structure Bits where
  data : Bool
  err : Bool
  dirty : Bool
  shared : Bool
  unique : Bool
  deriving DecidableEq, Repr

/-- `SetCrResp`, 317-340, with the shifts of `amba-ace.h` 134-142. -/
def setCrResp (r : Nat) : Bits :=
  { data := r >>> 0 &&& 1 == 1
    err := r >>> 1 &&& 1 == 1
    dirty := r >>> 2 &&& 1 == 1
    shared := r >>> 3 &&& 1 == 1
    unique := r >>> 4 &&& 1 == 1 }

/-- Where the thread is: at the fill level of the responses; with so many still
to pop; with a transaction, before the descriptor; before `cdFifo.write`; at the
fill level of the data; with so many descriptors still to pop; at `handle_cd`;
in `pop_cd`, with so many words read. -/
inductive Pc where
  | crLevel
  | crRead (n : Nat)
  | crPop (x : Snoop) (n : Nat)
  | crGive (x : Snoop) (a : Bits) (n : Nat)
  | cdLevel
  | cdPop (n : Nat)
  | cdCheck
  | busy (x : Snoop) (a : Bits) (i : Nat) (k : Nat) (acc : List Nat)
  deriving DecidableEq, Repr

structure State where
  /-- Callers after their push, before `crFifo.write`. -/
  pend : List Snoop
  /-- `crFifo`, `cdFifo`, `m_CDDescriptors` -/
  crFifo : List Snoop
  cdFifo : List (Snoop × Bits)
  descs : List Nat
  pc : Pc
  /-- The hardware: responses and descriptors of lines in its FIFOs, which
  descriptors are in use, and the RAM in words. -/
  hwCr : List Nat
  hwCd : List Nat
  used : Nat → Bool
  ram : Nat → Nat
  /-- The assertion of a valid bit failed. -/
  bad : Bool

def start : State :=
  { pend := [], crFifo := [], cdFifo := [], descs := [], pc := .crLevel, hwCr := [], hwCd := [], used := fun _ => false, ram := fun _ => 0,
    bad := false }

inductive Ev where
  /-- a caller pushes its snoop; the `k`th of the waiting callers writes to `crFifo` -/
  | push (x : Snoop) | queue (k : Nat)
  /-- the thread goes on -/
  | proc
  /-- the hardware gets a response; a line, for which it takes a descriptor -/
  | resp (r : Nat) | line (i : Nat) (ws : List Nat)
  | reset
  deriving DecidableEq, Repr

/-- How a snoop ended: the status, the attributes and the bytes, if any were
written. -/
structure Out where
  x : Snoop
  ok : Bool
  attr : Option Bits
  bytes : Option (List Nat)
  deriving DecidableEq, Repr

/-- The bytes of a word which `pop_cd` writes, 264-277. -/
def wordBytes (d : Nat) : List Nat := (List.range 4).map fun i => (d >>> (i * 8)) &&& 0xFF

def set {α : Type} (f : Nat → α) (k : Nat) (x : α) : Nat → α := fun j => if j = k then x else f j

/-- The thread, up to its next access or wait.  `m` is the number of words in a
cache line. -/
def proc (m : Nat) (s : State) : State :=
  match s.pc with
  -- 1086
  | .crLevel => { s with pc := .crRead s.hwCr.length }
  -- 1087, 196
  | .crRead 0 => { s with pc := .cdLevel }
  | .crRead (n + 1) =>
    match s.crFifo with
    | x :: t => { s with crFifo := t, pc := .crPop x n }
    | [] => s
  -- 197-225
  | .crPop x n =>
    match s.hwCr with
    | [] => { s with bad := true }
    | r :: t =>
      if (setCrResp r).err then { s with hwCr := t, pc := .crRead n }
      else if (setCrResp r).data then { s with hwCr := t, pc := .crGive x (setCrResp r) n }
      else { s with hwCr := t, pc := .crRead n }
  -- 219
  | .crGive x a n => if s.cdFifo.length < 16 then { s with cdFifo := s.cdFifo ++ [(x, a)], pc := .crRead n } else s
  -- 1097
  | .cdLevel => { s with pc := .cdPop s.hwCd.length }
  -- 1098, 230-232
  | .cdPop 0 => { s with pc := .cdCheck }
  | .cdPop (n + 1) =>
    match s.hwCd with
    | [] => { s with bad := true }
    | i :: t => { s with hwCd := t, descs := s.descs ++ [i], pc := .cdPop n }
  -- 1105, 191, 237-259
  | .cdCheck =>
    match s.cdFifo, s.descs with
    | p :: t, i :: u => { s with cdFifo := t, descs := u, pc := .busy p.1 p.2 i 0 [] }
    | _, _ => { s with pc := .crLevel }
  -- 261-285
  | .busy x a i k acc =>
    if acc.length < x.len then { s with pc := .busy x a i (k + 1) ((acc ++ wordBytes (s.ram (i * m + k))).take x.len) }
    else { s with used := set s.used i false, pc := .cdCheck }

/-- One event; an event which cannot happen changes nothing. -/
def step (m : Nat) (s : State) : Ev → State
  -- 507-508
  | .push x => { s with pend := s.pend ++ [x] }
  -- 518
  | .queue k =>
    match s.pend[k]? with
    | some x => if s.crFifo.length < 16 then { s with crFifo := s.crFifo ++ [x], pend := s.pend.eraseIdx k } else s
    | none => s
  | .proc => proc m s
  | .resp r => if s.hwCr.length < 16 then { s with hwCr := s.hwCr ++ [r] } else s
  | .line i ws =>
    if i < 16 ∧ s.used i = false ∧ ws.length = m then
      { s with hwCd := s.hwCd ++ [i], used := set s.used i true
               ram := fun j => if j / m = i then ws.getD (j % m) 0 else s.ram j }
    else s
  -- 521-534; the hardware forgets what it has
  | .reset => { s with crFifo := [], cdFifo := [], hwCr := [], hwCd := [], used := fun _ => false }

/-- The snoops which end in an event. -/
def ended (s : State) : Ev → List Out
  | .proc =>
    match s.pc with
    | .crPop x _ =>
      match s.hwCr with
      | [] => []
      | r :: _ =>
        -- 217, 221-224
        if (setCrResp r).err then [⟨x, false, some (setCrResp r), none⟩]
        else if (setCrResp r).data then []
        else [⟨x, true, some (setCrResp r), none⟩]
    | .busy x a _ _ acc => if acc.length < x.len then [] else [⟨x, true, some a, some acc⟩]
    | _ => []
  -- 526-528
  | .reset => s.crFifo.map (fun x => ⟨x, false, none, none⟩) ++ s.cdFifo.map (fun p => ⟨p.1, false, some p.2, none⟩)
  | _ => []

end Verif.AceSlvSnp
