import Verif.ChiSn.Model

/-!
# Accesses a CHI cache passes on: non-shareable regions and atomics

`/repo/tlm-modules/cache-chi.h` (`b_transport` and the functions under it),
`/repo/tlm-modules/private/chi/txns-rn.h` (what goes into the messages),
`/repo/tlm-modules/iconnect-chi.h` (how the home node passes them on), down to the slave
node of `Verif.ChiSn`.

Simplifications, all of this file: one access at a time, nobody else has the line (so the
home node's snoops find nothing); messages arrive as sent, in one piece (property C30 for
links; the narrower links of `/repo/tlm-bridges` split lines, `ChiSn.data_assembled`);
retries repeat the request unchanged (`txns-rn.h:139-166`); addresses do not wrap.
-/

namespace Verif.ChiRn
open Verif.ChiSn

/-- Line data and byte enables of a transaction: `m_data`, `m_byteEnable`. -/
structure Line where
  buf : Nat → Byte
  en : Nat → Bool

/-- `CopyDataNonCached`, `txns-rn.h:818-851`, on arrays cleared by `:812-813`. -/
def copyNonCached (g : Gp) (pos off : Nat) : Line :=
  let n := min (g.len - pos) (lineSz - off)
  { buf := fun j => if off ≤ j ∧ j < off + n ∧ beEnabled g.be (pos + (j - off)) = true
      then g.data.getD (pos + (j - off)) 0 else 0
    en := fun j => decide (off ≤ j) && decide (j < off + n) && beEnabled g.be (pos + (j - off)) }

/-- A whole line as one data message: `SetupWriteDat` (`txns-rn.h:1424-1435` and the one of
`WriteTxn`) with 64 enables, DataID 0. -/
def Line.msg (l : Line) : Dat :=
  ⟨0, (List.range lineSz).map l.buf, (List.range lineSz).map l.en⟩

/-- The home node's copy, `iconnect-chi.h:901-934`: disabled bytes become zero. -/
def homeCopy (l : Line) : Line := ⟨fun j => if l.en j = true then l.buf j else 0, l.en⟩

/-- A request with data travels to the slave node and is carried out there. `junk` is what
the slave node's request object holds before the data comes. -/
def withData (r : Req) (l : Line) (junk : Line) (m : Mem) : Option (Mem × Option Out) :=
  (copyData ⟨r, junk.buf, junk.en, 0⟩ (homeCopy l).msg).bind fun t => perform t m

/-- What the home node asks the slave node for when a WriteUnique comes in:
`iconnect-chi.h:225-282` and `:2440-2470`: WriteNoSnpPtl on the request's address, with the
line's length. -/
def snWrite (addr tag : Nat) : Req := ⟨0x1C, addr, lineSz, false, 1, false, tag⟩

/-- One turn of a write loop: `WriteTxn` with the line's address, `cache-chi.h:399-420`, and the
same in `WriteUniqueFull`, `WriteUniquePtl` (`:422-462`). -/
def writeOne (g : Gp) (addr pos tag : Nat) (junk : Line) (m : Mem) : Option Mem :=
  (withData (snWrite (addr / lineSz * lineSz) tag) (copyNonCached g pos (addr % lineSz)) junk m).map (·.1)

/-- `WriteNoSnp`, `cache-chi.h:2172-2198`: each turn moves on by `min (len - pos) 64`
(`:415-419`). A store that misses and is issued as WriteUnique (`:2028-2041`) moves on by the
same amount (`WriteUniqueFull` by 64, which ends the loop just the same). -/
def writeLoop (g : Gp) (tag : Nat) (junk : Line) : Nat → Nat → Nat → Mem → Option Mem
  | 0, _, _, m => some m
  | fuel + 1, addr, pos, m =>
    if pos < g.len then
      let n := min (g.len - pos) lineSz
      (writeOne g addr pos tag junk m).bind (writeLoop g tag junk fuel (addr + n) (pos + n))
    else some m

def writeNoSnp (g : Gp) (tag : Nat) (junk : Line) (m : Mem) : Option Mem :=
  writeLoop g tag junk g.len g.addr 0 m

/-- What a data message of the slave node looks like to the cache: over links the enables are
always there (`chi2tlm`/`tlm2chi` flits carry BE, property C30), on a direct connection
their length is 0 (`iconnect-chi.h:1165-1240` copies the payload as it is). -/
def arrive (link : Bool) (o : Out) : Dat :=
  ⟨0, o.data, match o.be with | some be => be | none => if link then List.replicate o.data.length true else []⟩

/-- `ReadTxn::CopyDataNonCoherent`, `txns-rn.h:506-527`, with its assertion `len == be_len`;
`m_data` starts zero (`:348`). `none`: the assertion, or a copy past the buffer. -/
def readCopy (d : Dat) : Option (Nat → Byte) :=
  if d.data.length ≠ d.be.length ∨ lineSz < d.did * d.data.length then none
  else
    let off := d.did * d.data.length
    let n := min d.data.length (lineSz - off)
    some fun i => if off ≤ i ∧ i < off + n then d.data.getD (i - off) 0 else 0

/-- `FetchNonCoherentData`, `txns-rn.h:529-559`, also `ReadLine`, `:1391-1421`: buffer bytes
`pos …` from line offset `off`. -/
def fetch (g : Gp) (line : Nat → Byte) (pos off : Nat) (buf : List Byte) : List Byte :=
  let n := min (g.len - pos) (lineSz - off)
  (List.range buf.length).map fun i =>
    if pos ≤ i ∧ i < pos + n ∧ beEnabled g.be i = true then line (off + (i - pos)) else buf.getD i 0

/-- `ReadNoSnp`, `cache-chi.h:571-588`: the line is asked for by its address
(home: ReadNoSnp to the slave node, `iconnect-chi.h:2311-2345`). Returns the buffer and by how
much the loop moves on. -/
def readOne (link : Bool) (g : Gp) (addr pos tag : Nat) (junk : Line) (m : Mem) (buf : List Byte) :
    Option (List Byte) :=
  (perform ⟨⟨0x04, addr / lineSz * lineSz, lineSz, false, 0, false, tag⟩, junk.buf, junk.en, 0⟩ m).bind fun x =>
    x.2.bind fun o => (readCopy (arrive link o)).map fun line => fetch g line pos (addr % lineSz) buf

/-- `ReadNoSnp`, `cache-chi.h:2200-2214`. -/
def readLoop (link : Bool) (g : Gp) (tag : Nat) (junk : Line) (m : Mem) :
    Nat → Nat → Nat → List Byte → Option (List Byte)
  | 0, _, _, buf => some buf
  | fuel + 1, addr, pos, buf =>
    if pos < g.len then
      let n := min (g.len - pos) (lineSz - addr % lineSz)
      (readOne link g addr pos tag junk m buf).bind (readLoop link g tag junk m fuel (addr + n) (pos + n))
    else some buf

def readNoSnp (link : Bool) (g : Gp) (tag : Nat) (junk : Line) (m : Mem) : Option (List Byte) :=
  readLoop link g tag junk m g.len g.addr 0 g.data

/-! ### Atomics -/

/-- What the CHI attribute extension adds to an atomic: opcode, the 32 bytes of
`Data` (`/repo/tlm-extensions/chiattr.h:371-372`) and the `Endian` attribute. -/
structure Attr where
  opcode : Nat
  data : List Byte
  big : Bool

/-- A line with `d` at `off` and nothing else enabled. -/
def Line.put (l : Line) (off : Nat) (d : List Byte) : Line :=
  { buf := fun j => if off ≤ j ∧ j < off + d.length then d.getD (j - off) 0 else l.buf j
    en := fun j => (decide (off ≤ j) && decide (j < off + d.length)) || l.en j }

def Line.empty : Line := ⟨fun _ => 0, fun _ => false⟩

/-- Where the swap half goes, `txns-rn.h:1253-1259` (`none`: zero length, or the unsigned
subtraction wraps). -/
def swapAt (off n : Nat) : Option Nat :=
  if n = 0 then none
  else if off % (n * 2) ≠ 0 then (if n ≤ off then some (off - n) else none) else some (off + n)

/-- `AtomicTxn::AtomicTxn`, `txns-rn.h:1196-1284`. `none`: a copy leaves the 64-byte buffer or
the 32 bytes of the attribute. -/
def atomicLine (g : Gp) (a : Attr) : Option Line :=
  let off := g.addr % lineSz
  let n := g.len
  if a.opcode = 0x39 then
    (swapAt off n).bind fun so =>
      if off + n ≤ lineSz ∧ so + n ≤ lineSz ∧ 2 * n ≤ a.data.length then
        some ((Line.empty.put off (a.data.take n)).put so ((a.data.drop n).take n))
      else none
  else if off + n ≤ lineSz ∧ n ≤ a.data.length then some (Line.empty.put off (a.data.take n))
  else none

/-- What reaches the slave node: opcode and length of the request (`iconnect-chi.h:264-268`),
its address, and **no** `Endian`: neither `CopyCHIAttr` (`txns-rn.h:196-223`) nor the home
node's request (`iconnect-chi.h:243-279`) copies it, so it is the default `false`. -/
def snAtomic (g : Gp) (a : Attr) (tag : Nat) : Req :=
  ⟨a.opcode, g.addr, if a.opcode = 0x39 then g.len * 2 else g.len, false, 0, false, tag⟩

/-- `AtomicTxn::CopyDataNonCoherent`, `txns-rn.h:1355-1388`, for one message: the line buffer
and the number of enabled bytes. The code writes `m_data[i]` without the offset. `none`: the
assertion. -/
def atomicCopy (l : Line) (d : Dat) : Option ((Nat → Byte) × Nat) :=
  if d.data.length ≠ d.be.length ∨ lineSz < d.did * d.data.length then none
  else
    let n := min d.data.length (lineSz - d.did * d.data.length)
    some (fun i => if i < n ∧ beEnabled d.be i = true then d.data.getD i 0 else l.buf i,
      ((List.range n).filter fun i => beEnabled d.be i).length)

/-- `AtomicNonStore`, `cache-chi.h:369-382`. `none`: undefined, a failing assertion, or an
access that never ends because the answer does not carry `m_inboundLen` bytes
(`txns-rn.h:1329-1331`). -/
def atomicNonStore (link : Bool) (g : Gp) (a : Attr) (tag : Nat) (junk : Line) (m : Mem) :
    Option (Mem × List Byte) :=
  (atomicLine g a).bind fun l =>
    (withData (snAtomic g a tag) l junk m).bind fun x =>
      x.2.bind fun o => (atomicCopy l (arrive link o)).bind fun c =>
        if c.2 = g.len then some (x.1, fetch g c.1 0 (g.addr % lineSz) g.data) else none

/-- `AtomicStore`, `cache-chi.h:384-397`: the operand is the payload's data. -/
def atomicStore (g : Gp) (a : Attr) (tag : Nat) (junk : Line) (m : Mem) : Option Mem :=
  (withData (snAtomic g a tag) (copyNonCached g 0 (g.addr % lineSz)) junk m).map (·.1)

/-- `NonShareableRegion::InRegion` and `InNonShareableRegion`, `cache-chi.h:2216-2251`: only the
first address counts. -/
def inRegion (rs : List (Nat × Nat)) (a : Nat) : Bool :=
  rs.any fun r => decide (r.1 ≤ a) && decide (a < r.1 + r.2)

/-- What `b_transport` does with an access, `cache-chi.h:2316-2345`. `cached`: handled by the
cache proper (properties C50, C51). -/
inductive Did where
  | wrote (m : Mem)
  | read (buf : List Byte)
  | atomic (m : Mem) (buf : List Byte)
  | cached
  | nothing
  | bad

/-- `b_transport` and `HandleAtomic`, `cache-chi.h:2254-2267`, `:2281-2296`, `:2316-2345`. -/
def cpu (link : Bool) (rs : List (Nat × Nat)) (g : Gp) (a : Option Attr) (tag : Nat) (junk : Line)
    (m : Mem) : Did :=
  if inRegion rs g.addr then
    match g.cmd with
    | .write => match writeNoSnp g tag junk m with
      | some m' => .wrote m'
      | none => .bad
    | .read => match readNoSnp link g tag junk m with
      | some b => .read b
      | none => .bad
    | .ignore => .nothing
  else match a with
    | some a =>
      if 0x28 ≤ a.opcode ∧ a.opcode ≤ 0x39 then
        if a.opcode < 0x30 then
          match atomicStore g a tag junk m with
          | some m' => .atomic m' g.data
          | none => .bad
        else match atomicNonStore link g a tag junk m with
          | some (m', b) => .atomic m' b
          | none => .bad
      else .cached
    | none => .cached

/-- `IsSnoopingReq`, `iconnect-chi.h:472-514`: the request opcodes for which the home node asks
the other caches first. -/
def homeSnoops (op : Nat) : Bool :=
  op ∈ [0x03, 0x24, 0x25, 0x02, 0x26, 0x01, 0x07, 0x0B, 0x0C, 0x08, 0x27, 0x09, 0x0A, 0x23, 0x22,
    0x19, 0x18, 0x20, 0x21, 0x28, 0x30, 0x38, 0x39, 0x14]

end Verif.ChiRn
