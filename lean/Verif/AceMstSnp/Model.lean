/-!
# Snoops through the TLM to ACE hardware bridge: model

The bridge takes snoop requests from the hardware, gives them to the TLM side,
and sends back the response and, when there is one, the cache line.

Files, in `/repo/rtl-bridges/pcie-host/ace/tlm`:
* `private/ace-mst-snp-chnls.h`, the whole class `ACESnoopChannels_M`,
* `tlm2ace-hw-bridge.h` 345-368, the reads which wait for a DVM Sync response.

The threads run as SystemC runs them: from one place where they can be
suspended to the next.  Every access to a register is such a place, so an event
is at most one access.

Simplifications: a snoop is a number, for what the TLM side is asked does not
matter here (`pop_ac` 84-118 reads address and attributes from the descriptor
and frees it); the answer of the TLM side is an input, and comes with its
delay; assertion and release of the reset are one event; `MAX_DESC_IDX` is 16
(`tlm2ace-hw-bridge.h` 55); the static index of `push_on_cr_ch` is that of this
bridge alone; the hardware takes what is pushed in order, has room for 16, and
uses the registers of a descriptor when it sends it.  `m_numACE`, which is never
read, is left out.
-/

namespace Verif.AceMstSnp

/-- What the TLM side answers: the attributes (`genattr_extension`), whether the
snoop was a DVM Sync, and the bytes. -/
structure Ans where
  data : Bool
  err : Bool
  shared : Bool
  dirty : Bool
  unique : Bool
  sync : Bool
  bytes : List Nat
  deriving DecidableEq, Repr

/-- `GetCrResp`, 176-197, with the shifts of `amba-ace.h` 134-142. -/
def crResp (a : Ans) : Nat :=
  (if a.data then 1 <<< 0 else 0) ||| (if a.err then 1 <<< 1 else 0) ||| (if a.shared then 1 <<< 3 else 0) |||
    (if a.dirty then 1 <<< 2 else 0) ||| (if a.unique then 1 <<< 4 else 0)

/-- The words written for the data, 335-354: four bytes each, or those which
are left. -/
def words : List Nat → List Nat
  | [] => []
  | [a] => [a]
  | [a, b] => [a ||| b <<< 8]
  | [a, b, c] => [a ||| b <<< 8 ||| c <<< 16]
  | a :: b :: c :: d :: t => (a ||| b <<< 8 ||| c <<< 16 ||| d <<< 24) :: words t

/-- Where `cr_thread` (239-281) is: at the top of its loop; waiting for
`m_acEvent`; woken; in `run_tlm`, and whether an abort was scheduled; with an
answer; after the register of the response was written; after the push. -/
inductive Cr where
  | top | wait | woken
  | run (x : Nat) (dead : Bool)
  | resp (a : Ans)
  | wrote (a : Ans)
  | pushed (a : Ans)
  deriving DecidableEq, Repr

/-- Where `cd_thread` (314-374) is: waiting, or with so many words written. -/
inductive Cd where
  | wait
  | busy (a : Ans) (k : Nat)
  deriving DecidableEq, Repr

structure State where
  /-- `m_crList`, `m_cdFifo` -/
  list : List Nat
  cdFifo : List Ans
  cr : Cr
  cd : Cd
  /-- `cr_desc_idx`, `cd_desc_idx` -/
  crIdx : Nat
  cdIdx : Nat
  /-- `m_numDVMSyncResp` -/
  num : Nat
  /-- The registers of the responses, the RAM of the data in words, and what the
  hardware has still to send. -/
  resp : Nat → Nat
  ram : Nat → Nat
  hwCr : List Nat
  hwCd : List Nat
  /-- `front` was called on an empty list. -/
  bad : Bool

def start : State :=
  { list := [], cdFifo := [], cr := .top, cd := .wait, crIdx := 0, cdIdx := 0, num := 0, resp := fun _ => 0, ram := fun _ => 0, hwCr := [],
    hwCd := [], bad := false }

inductive Ev where
  /-- `pop_ac` queues a snoop -/
  | snoop (x : Nat)
  /-- `cr_thread` goes on: to the list; the answer comes; it writes the register;
  it pushes; it hands the data on or is done -/
  | take | answer (a : Ans) | setup | push | finish
  /-- `cd_thread` goes on: it takes; it writes a word; it pushes -/
  | cdTake | cdWord | cdPush
  /-- the hardware sends a response, a line -/
  | hwCr | hwCd
  /-- a read is sent, which is a DVM Complete or not -/
  | read (complete : Bool)
  | reset
  deriving DecidableEq, Repr

def set {α : Type} (f : Nat → α) (k : Nat) (x : α) : Nat → α := fun j => if j = k then x else f j

/-- 245-247: the first of the list is taken, and `run_tlm` called. -/
def taken (s : State) : State :=
  match s.list with
  | x :: t => { s with list := t, cr := .run x false }
  | [] => s

/-- One event; an event which cannot happen changes nothing.  `m` is the number
of words in a cache line. -/
def step (m : Nat) (s : State) : Ev → State
  -- 111-117
  | .snoop x => { s with list := s.list ++ [x], cr := if s.cr = .wait then .woken else s.cr }
  -- 242-247
  | .take =>
    match s.cr with
    | .top => if s.list.isEmpty then { s with cr := .wait } else taken s
    | .woken => if s.list.isEmpty then { s with bad := true } else taken s
    | _ => s
  -- 249-259
  | .answer a =>
    match s.cr with
    | .run _ dead => { s with cr := if dead then .top else .resp a }
    | _ => s
  -- 219-224
  | .setup =>
    match s.cr with
    | .resp a => { s with resp := set s.resp s.crIdx (crResp a), cr := .wrote a }
    | _ => s
  -- 229-236
  | .push =>
    match s.cr with
    | .wrote a => { s with hwCr := if s.hwCr.length < 16 then s.hwCr ++ [s.crIdx] else s.hwCr, crIdx := (s.crIdx + 1) % 16, cr := .pushed a }
    | _ => s
  -- 266-279
  | .finish =>
    match s.cr with
    | .pushed a =>
      if a.data then
        if s.cdFifo.length < 16 then { s with cdFifo := s.cdFifo ++ [a], cr := .top } else s
      else { s with num := if a.sync then (s.num + 1) % 2 ^ 32 else s.num, cr := .top }
    | _ => s
  -- 324
  | .cdTake =>
    match s.cd, s.cdFifo with
    | .wait, a :: t => { s with cd := .busy a 0, cdFifo := t }
    | _, _ => s
  -- 329-354
  | .cdWord =>
    match s.cd with
    | .busy a k =>
      if k < (words a.bytes).length then { s with ram := set s.ram (s.cdIdx * m + k) ((words a.bytes).getD k 0), cd := .busy a (k + 1) } else s
    | _ => s
  -- 360-370
  | .cdPush =>
    match s.cd with
    | .busy a k =>
      if k < (words a.bytes).length then s
      else { s with hwCd := if s.hwCd.length < 16 then s.hwCd ++ [s.cdIdx] else s.hwCd, cdIdx := (s.cdIdx + 1) % 16, cd := .wait }
    | _ => s
  | .hwCr => { s with hwCr := s.hwCr.drop 1 }
  | .hwCd => { s with hwCd := s.hwCd.drop 1 }
  -- tlm2ace-hw-bridge.h 354-362
  | .read complete => if complete && s.num == 0 then s else { s with num := (s.num + (2 ^ 32 - 1)) % 2 ^ 32 }
  -- 389-401; the hardware forgets what it has
  | .reset =>
    { s with
      list := []
      cdFifo := []
      cr := match s.cr with
        | .run x _ => .run x true
        | c => c
      hwCr := []
      hwCd := [] }

/-- The line which the hardware reads for a descriptor. -/
def line (m : Nat) (ram : Nat → Nat) (i : Nat) : List Nat := (List.range m).map fun k => ram (i * m + k)

/-- What the hardware sends in an event. -/
def crOut (s : State) : Ev → List Nat
  | .hwCr => (s.hwCr.take 1).map s.resp
  | _ => []

def cdOut (m : Nat) (s : State) : Ev → List (List Nat)
  | .hwCd => (s.hwCd.take 1).map (line m s.ram)
  | _ => []

/-- A read which is sent: whether it is a DVM Complete. -/
def rdOut (s : State) : Ev → List Bool
  | .read c => if c && s.num == 0 then [] else [c]
  | _ => []

end Verif.AceMstSnp
