import Verif.Base.Tlm
import Verif.Base.Range

/-!
# The CHI slave node: `/repo/tlm-modules/sn-chi.h`

A request arrives on one channel, write and operand data on another; the node
answers on a response and a data channel and carries the request out on the
memory bound to `init_socket`.

Simplifications, all of this file: the memory behind `init_socket` is a plain
byte array that always answers OK (`:889-892`, `:1001-1003` assert that); the host is
little endian (`:909-913`); attributes that are only copied from the request to
the replies are one `tag`; address arithmetic does not wrap at `2^64`.
-/

namespace Verif.ChiSn

/-- `CACHELINE_SZ` (`/repo/tlm-modules/private/chi/...`, the template default 64). -/
abbrev lineSz : Nat := 64

/-- A request: the attributes `sn-chi.h:178-247` looks at. `big` is the `Endian`
attribute; `tag` stands for source and transaction ids (copied at `:380-389`, `:427-445`). -/
structure Req where
  opcode : Nat
  addr : Nat
  len : Nat
  big : Bool := false
  order : Nat := 0
  allowRetry : Bool := false
  tag : Nat
  deriving DecidableEq, Repr

/-! Opcodes, `/repo/tlm-bridges/amba-chi.h:45-91`. -/

/-- `IsReadNoSnp`, `sn-chi.h:216-219` (`ReadNoSnp = 0x04`). -/
def Req.isRead (r : Req) : Bool := r.opcode == 0x04
/-- `IsReadNoSnpSep`, `:221-224` (`0x11`). -/
def Req.isReadSep (r : Req) : Bool := r.opcode == 0x11
/-- `IsWriteNoSnpFull`, `:226-229` (`0x1D`), or `IsWriteNoSnpPtl`, `:231-234` (`0x1C`). -/
def Req.isWrite (r : Req) : Bool := r.opcode == 0x1D || r.opcode == 0x1C
/-- `IsAtomicStore`, `:178-183` (`AtomicStore = 0x28`, `AtomicLoad = 0x30`). -/
def Req.isAtStore (r : Req) : Bool := decide (0x28 ≤ r.opcode) && decide (r.opcode < 0x30)
/-- `IsAtomicLoad`, `:185-190` (`AtomicSwap = 0x38`). -/
def Req.isAtLoad (r : Req) : Bool := decide (0x30 ≤ r.opcode) && decide (r.opcode < 0x38)
/-- `IsAtomicCompare`, `:192-197` (`0x39`). -/
def Req.isAtCmp (r : Req) : Bool := r.opcode == 0x39
/-- `IsAtomicSwap`, `:199-204`. -/
def Req.isAtSwap (r : Req) : Bool := r.opcode == 0x38
/-- `IsAtomic`, `:206-212`. -/
def Req.isAtomic (r : Req) : Bool := decide (0x28 ≤ r.opcode) && decide (r.opcode ≤ 0x39)
/-- `IsCacheMaintenance`, `:236-246`: CleanShared `0x08`, CleanSharedPersist `0x27`,
CleanInvalid `0x09`, MakeInvalid `0x0A`. -/
def Req.isMaint (r : Req) : Bool :=
  r.opcode == 0x08 || r.opcode == 0x27 || r.opcode == 0x09 || r.opcode == 0x0A
/-- `RequiresReadReceipt`, `:166-170`. -/
def Req.wantsReceipt (r : Req) : Bool := r.order == 1 || r.isReadSep

/-- `GetLineOffset`, `:284-287`. -/
def lineOff (a : Nat) : Nat := a % lineSz
/-- `GetAlignedAddress`, `:159-162` (the caller rules out a zero size). -/
def alignTo (a n : Nat) : Nat := a / n * n

/-- `ReqTxn`, `:90-371`: the request with its 64-byte buffer `m_dataSlave`, its
enables `m_byteEnableSlave` and the count `m_dataReceived`. Both arrays start
uninitialised, so their first contents are parameters. -/
structure Txn where
  req : Req
  buf : Nat → Byte
  en : Nat → Bool
  got : Nat

/-- A message on the data channel: the payload, its byte enables (empty = none) and
`DataID`. -/
structure Dat where
  did : Nat
  data : List Byte
  be : List Bool

/-- `CopyData`, `:333-366`. `none`: `max_len` went below zero and the copy leaves the
buffer. Returns the transaction with the received count updated (`CopyWriteData`,
`:250-254`). -/
def copyData (t : Txn) (d : Dat) : Option Txn :=
  let off := d.did * d.data.length
  if off ≤ lineSz then
    let n := min d.data.length (lineSz - off)
    some { t with
      buf := fun i => if off ≤ i ∧ i < off + n ∧ beEnabled d.be (i - off) = true
        then d.data.getD (i - off) 0 else t.buf i
      en := fun i => if off ≤ i ∧ i < off + n then beEnabled d.be (i - off) else t.en i
      got := t.got + n }
  else none

/-- A message on the node's data channel (`DatMsg`, `:392-461`): 64 bytes, the enables
(`none` = no enables, all bytes count), whether the opcode is `DataSepResp` and whether the
response field says `UC`. -/
structure Out where
  tag : Nat
  data : List Byte
  be : Option (List Bool)
  sep : Bool
  uc : Bool
  deriving DecidableEq

/-- The messages the node sends on its response channel (`RspMsg`, `:374-390`). -/
inductive Rsp where
  | receipt (tag : Nat)
  | dbid (tag db : Nat)
  | comp (tag : Nat)
  | compDbid (tag db : Nat)
  | retryAck (tag : Nat)
  | pcrdGrant (tag : Nat)
  deriving DecidableEq, Repr

/-- `n` buffer bytes from `off`. -/
def Txn.bytes (t : Txn) (off n : Nat) : List Byte := (List.range n).map fun i => t.buf (off + i)

/-! ### The atomic operations, `:513-775`, on little-endian unsigned values -/

/-- `*val1 += *val2` on an unsigned `n`-byte type, `:517-524`. -/
def opAdd (n v1 v2 : Nat) : Nat := (v1 + v2) % 256 ^ n
/-- `*val1 & ~*val2`, `:526-533`. -/
def opClr (n v1 v2 : Nat) : Nat := v1 &&& (256 ^ n - 1 - v2)
/-- `:535-542`. -/
def opEor (v1 v2 : Nat) : Nat := v1 ^^^ v2
/-- `:544-551`. -/
def opSet (v1 v2 : Nat) : Nat := v1 ||| v2
/-- `AtomicMAX` on unsigned types, `:553-562`: for one and two bytes the subtraction is
done in `int`; for four and eight it is unsigned, so "positive" means "different". -/
def opMax (n v1 v2 : Nat) : Nat :=
  if n < 4 then (if v1 < v2 then v2 else v1) else (if v1 ≠ v2 then v2 else v1)

/-- The two's complement value of an `n`-byte number. -/
def toInt (n v : Nat) : Int := if 2 * v < 256 ^ n then (v : Int) else (v : Int) - 256 ^ n

/-- `AtomicMIN` on signed types, `:564-573`, `:684-703`. For four and eight bytes the
subtraction overflows (undefined, `none`) when the difference does not fit. -/
def opSmin (n v1 v2 : Nat) : Option Nat :=
  let d := toInt n v2 - toInt n v1
  if 4 ≤ n ∧ (2 * d < -(256 ^ n : Int) ∨ (256 ^ n : Int) ≤ 2 * d) then none
  else some (if d < 0 then v2 else v1)

/-- `Process`, `:741-774`. The `case` labels are the enumerators of
`/repo/tlm-bridges/amba-chi.h:91-101`, written there as the literals `000`, `001`, `010`,
`011`, `100`, `101`, `110`, `111`: in C++ octal 8 and 9 and decimal 100 to 111. `UMIN`
calls `DoUMAX` (`:765-766`). Sizes other than 1, 2, 4, 8 do nothing. -/
def opcodeOp (op n v1 v2 : Nat) : Option Nat :=
  if ¬ (n = 1 ∨ n = 2 ∨ n = 4 ∨ n = 8) then some v1
  else if op = 0 then some (opAdd n v1 v2)
  else if op = 1 then some (opClr n v1 v2)
  else if op = 8 then some (opEor v1 v2)
  else if op = 9 then some (opSet v1 v2)
  else if op = 100 then some (opMax n v1 v2)
  else if op = 101 then opSmin n v1 v2
  else if op = 110 then some (opMax n v1 v2)
  else if op = 111 then some (opMax n v1 v2)
  else some v1

/-- `SwapBytes` guarded by `IsBigEndian`, `:841-905`. -/
def order (big : Bool) (d : List Byte) : List Byte := if big then d.reverse else d

/-- `AtomicStore` and `AtomicLoad` on the bytes read from memory, `:951-958`:
`CorrectEndiannessPreOp`, `Process`, `CorrectEndiannessPostOp`. `GetAtomicOp` is
`opcode & 7` (`:289-294`). -/
def rmw (opcode : Nat) (big : Bool) (old x : List Byte) : Option (List Byte) := do
  let v ← opcodeOp (opcode % 8) old.length (leDec (order big old)) (leDec (order big x))
  pure (order big (leEnc old.length v))

/-- `GetSwapData`, `:262-274`: where the swap half lies; `none` when the subtraction
goes below zero or the size is 0 (division by zero). -/
def swapOff (off len : Nat) : Option Nat :=
  if len = 0 then none
  else if off % len ≠ 0 then (if len / 2 ≤ off then some (off - len / 2) else none)
  else some (off + len / 2)

/-- `AtomicCompare`, `:961-968`. `none`: a half lies outside the buffer. -/
def cas (t : Txn) (old : List Byte) : Option (List Byte) := do
  let off := lineOff t.req.addr
  let h := old.length / 2
  let so ← swapOff off old.length
  if off + h ≤ lineSz ∧ so + h ≤ lineSz then
    pure (if old.take h = t.bytes off h then t.bytes so h ++ old.drop h else old)
  else none

/-- The bytes `HandleAtomic` writes back, `:942-970`. `none` on an access outside the
buffer. For a load or store whose size is none of 1, 2, 4, 8 the code does not touch the
operand of a little-endian request; the bound is required here all the same. -/
def atomicNew (t : Txn) (old : List Byte) : Option (List Byte) :=
  let off := lineOff t.req.addr
  if t.req.isAtStore || t.req.isAtLoad then
    if off + old.length ≤ lineSz then rmw t.req.opcode t.req.big old (t.bytes off old.length)
    else none
  else if t.req.isAtSwap then
    if off + old.length ≤ lineSz then some (t.bytes off old.length) else none
  else cas t old

/-- A line with `d` at `off`, zero elsewhere, and the enables that cover just `d`:
`CopyOrginialData`, `:296-314`. -/
def placed (off : Nat) (d : List Byte) : List Byte :=
  (List.range lineSz).map fun i => if off ≤ i ∧ i < off + d.length then d.getD (i - off) 0 else 0
def placedEn (off n : Nat) : List Bool :=
  (List.range lineSz).map fun i => decide (off ≤ i ∧ i < off + n)

/-- `HandleAtomic`, `:942-978`, with `DoTLM` (`:980-1004`). `none`: the size assertion
(`:989`) or an access outside a buffer. -/
def atomicDo (t : Txn) (m : Mem) : Option (Mem × Option Out) := do
  let r := t.req
  if lineSz < r.len then none
  else
    let old := m.range r.addr r.len
    let keep := if r.isAtCmp then old.take (r.len / 2) else old
    if !r.isAtStore && decide (lineSz < lineOff r.addr + keep.length) then none
    else
      let new ← atomicNew t old
      pure (m.store r.addr new,
        if r.isAtStore then none
        else some ⟨r.tag, placed (lineOff r.addr) keep,
          some (placedEn (lineOff r.addr) keep.length), false, false⟩)

/-- ReadNoSnp and ReadNoSnpSep: the constructor's window (`:107-123`), `b_transport`
(`:881-892`) and the `DatMsg` constructor's `memcpy` of 64 bytes from the window's start
(`:410-419`). `none`: division by a zero size, a window past the buffer's end or a `memcpy`
past it. -/
def readDo (t : Txn) (m : Mem) : Option (Mem × Option Out) :=
  let r := t.req
  if r.len = 0 then none
  else
    let al := alignTo r.addr r.len
    let off := lineOff al
    if lineSz < off + r.len ∨ off ≠ 0 then none
    else some (m, some ⟨r.tag,
      (List.range lineSz).map fun i => if i < r.len then m (al + i) else t.buf i,
      none, r.isReadSep, true⟩)

/-- WriteNoSnpFull and WriteNoSnpPtl: `:125-146`, `:881-892`. -/
def writeDo (t : Txn) (m : Mem) : Option (Mem × Option Out) :=
  let r := t.req
  if r.len = 0 then none
  else
    let n := r.len - (r.addr - alignTo r.addr r.len)
    let off := lineOff r.addr
    if lineSz < off + n then none
    else some (fun x => if r.addr ≤ x ∧ x < r.addr + n ∧ t.en (off + (x - r.addr)) = true
      then t.buf (off + (x - r.addr)) else m x, none)

/-- One turn of `TxnProcessor::tx_thread`, `:865-902`. A request that is none of these
leaves `m_slaveGP` with its default command (`TLM_IGNORE_COMMAND`) and changes nothing. -/
def perform (t : Txn) (m : Mem) : Option (Mem × Option Out) :=
  if t.req.isAtomic then atomicDo t m
  else if t.req.isRead || t.req.isReadSep then readDo t m
  else if t.req.isWrite then writeDo t m
  else some (m, none)

/-- The node: memory, request list (`m_reqList`), transactions waiting for data
(`m_txn`), data-phase list (`m_txList`), `m_toggle`, and the two transmit lists, newest last
(the transmit threads only forward them). -/
structure St where
  mem : Mem
  reqQ : List Req
  wait : Nat → Option Txn
  datQ : List Txn
  toggle : Bool
  rsp : List Rsp
  out : List Out

def start (m : Mem) : St := ⟨m, [], fun _ => none, [], false, [], []⟩

/-- What happens next. `order db buf en`: the ordering thread takes a request; `db` is
the id `m_ids.GetID()` returns (one of 256, never one in use: property C31, single getter)
and `buf`, `en` are the request object's uninitialised arrays. -/
inductive Ev where
  | req (r : Req)
  | order (db : Nat) (buf : Nat → Byte) (en : Nat → Bool)
  | dat (txn : Nat) (d : Dat)
  | run

/-- What one event did to a request; a history variable, not in the code. -/
inductive Did where
  | took (r : Req)
  | bounced (r : Req)
  | done (t : Txn)
  | answered (r : Req)

inductive Res where
  | ok (s : St) (h : List Did)
  | idle
  | ub

/-- `b_transport_rxreq`, `:1068-1095`, with `GetToggle` (`:1134-1139`) and `ReplyRetry`
(`:1122-1131`). -/
def onReq (s : St) (r : Req) : Res :=
  if r.allowRetry then
    if !s.toggle then
      .ok { s with toggle := true, rsp := s.rsp ++ [.retryAck r.tag, .pcrdGrant r.tag] } [.bounced r]
    else .ok { s with toggle := false, reqQ := s.reqQ ++ [r] } [.took r]
  else .ok { s with reqQ := s.reqQ ++ [r] } [.took r]

def setWait (w : Nat → Option Txn) (k : Nat) (t : Option Txn) : Nat → Option Txn :=
  fun i => if i = k then t else w i

/-- `RunResponsePhase`, `:797-842`, for one request. -/
def respond (s : St) (r : Req) (db : Nat) (buf : Nat → Byte) (en : Nat → Bool) : Res :=
  let t : Txn := ⟨r, buf, en, 0⟩
  if r.isRead || r.isReadSep then
    .ok { s with rsp := if r.wantsReceipt then s.rsp ++ [.receipt r.tag] else s.rsp
                 datQ := s.datQ ++ [t] } []
  else if r.isAtomic && !r.isAtStore then
    .ok { s with wait := setWait s.wait db (some t), rsp := s.rsp ++ [.dbid r.tag db] } []
  else if r.isMaint then .ok { s with rsp := s.rsp ++ [.comp r.tag] } [.answered r]
  else .ok { s with wait := setWait s.wait db (some t), rsp := s.rsp ++ [.compDbid r.tag db] } []

/-- `req_ordering_thread`, `:1037-1054`. -/
def onOrder (s : St) (db : Nat) (buf : Nat → Byte) (en : Nat → Bool) : Res :=
  match s.reqQ with
  | [] => .idle
  | r :: q => if 256 ≤ db ∨ (s.wait db).isSome then .idle else respond { s with reqQ := q } r db buf en

/-- `b_transport_rxdat`, `:1097-1120`. -/
def onDat (s : St) (k : Nat) (d : Dat) : Res :=
  match s.wait k with
  | none => .ok s []
  | some t =>
    match copyData t d with
    | none => .ub
    | some t' =>
      if t'.got = lineSz then
        .ok { s with wait := setWait s.wait k none, datQ := s.datQ ++ [t'] } []
      else .ok { s with wait := setWait s.wait k (some t') } []

/-- `tx_thread`, `:865-902`. -/
def onRun (s : St) : Res :=
  match s.datQ with
  | [] => .idle
  | t :: q =>
    match perform t s.mem with
    | none => .ub
    | some (m, o) => .ok { s with mem := m, datQ := q, out := s.out ++ o.toList } [.done t]

def step (s : St) : Ev → Res
  | .req r => onReq s r
  | .order db buf en => onOrder s db buf en
  | .dat k d => onDat s k d
  | .run => onRun s

/-- A run: every event takes effect. -/
inductive Run : St → List Did → St → Prop
  | nil (s : St) : Run s [] s
  | cons {s s' s'' : St} {e : Ev} {h h' : List Did} :
      step s e = .ok s' h → Run s' h' s'' → Run s (h ++ h') s''

end Verif.ChiSn
