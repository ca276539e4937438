import Verif.PcChi.Spec

/-! # How transactions go

What may follow a request or a snoop, said by words: the flits of a transaction that were seen, in their order.  Chapters 2 and
4 of the CHI specification; tables 2.7 and 2.8 are the ones the checker names.  A line is one flit of data. -/

namespace Verif.PcChi

/-- The flits that belong to a request: data received whole or separate, the response separate from the data, the receipt, `CompAck`,
`Comp`, `DBIDResp`, `CompDBIDResp`, write data (of a copy-back or not) and write data with `CompAck`. -/
inductive L
  | compData | sepData | sepResp | receipt | ack | comp | dbid | compDbid
  | wr (copyBack : Bool)
  | wrAck
  deriving DecidableEq, Repr

/-- `ReadReceipt` is asked for by an order of `0b10` or `0b11` (table 2.7). -/
def Ordered (r : Req) : Prop := 2 ≤ r.order

instance (r : Req) : Decidable (Ordered r) := inferInstanceAs (Decidable (2 ≤ r.order))

/-- `WriteBackPtl`, `WriteBackFull`, `WriteEvictFull`, `WriteCleanFull`. -/
def copyBack (r : Req) : Bool := decide (r.op = 0x1a ∨ r.op = 0x1b ∨ r.op = 0x15 ∨ r.op = 0x17)

/-- Whether a flit may follow the flits `w` of a request. -/
def Next (r : Req) (w : List L) : Kind → L → Prop
  | .read, .compData => .compData ∉ w ∧ .sepData ∉ w ∧ .sepResp ∉ w
  | .read, .sepData => (r.ack = true ∨ ¬ Ordered r) ∧ .compData ∉ w ∧ .sepData ∉ w ∧ .receipt ∉ w
  | .read, .sepResp => (r.ack = true ∨ ¬ Ordered r) ∧ .compData ∉ w ∧ .sepResp ∉ w ∧ .receipt ∉ w
  | .read, .receipt => Ordered r ∧ .receipt ∉ w ∧ .sepResp ∉ w ∧ .sepData ∉ w
  | .read, .ack => r.ack = true ∧ .ack ∉ w ∧ (.compData ∈ w ∨ .sepData ∈ w ∨ .sepResp ∈ w)
  | .dataless, .comp => .comp ∉ w
  | .dataless, .ack => r.ack = true ∧ .ack ∉ w ∧ .comp ∈ w
  | .atomic, .dbid => .dbid ∉ w
  | .atomic, .compData => .compData ∉ w
  | .atomic, .wr false => .dbid ∈ w ∧ .wr false ∉ w
  | .write, .comp => .comp ∉ w ∧ .compDbid ∉ w
  | .write, .dbid => .dbid ∉ w ∧ .compDbid ∉ w
  | .write, .compDbid => .comp ∉ w ∧ .dbid ∉ w ∧ .compDbid ∉ w
  | .write, .wr c => c = copyBack r ∧ (.dbid ∈ w ∨ .compDbid ∈ w) ∧ .wr c ∉ w ∧ .wrAck ∉ w
  | .write, .wrAck => copyBack r = false ∧ r.ack = true ∧ (.comp ∈ w ∧ .dbid ∈ w ∨ .compDbid ∈ w) ∧ .ack ∉ w ∧ .wr false ∉ w ∧ .wrAck ∉ w
  | .write, .ack => r.ack = true ∧ .ack ∉ w ∧ .wrAck ∉ w ∧ (.comp ∈ w ∨ .compDbid ∈ w)
  | _, _ => False

/-- Whether nothing more may follow. -/
def Over (r : Req) (w : List L) : Kind → Prop
  | .read => (.compData ∈ w ∨ .sepData ∈ w ∧ .sepResp ∈ w) ∧ (Ordered r → .receipt ∈ w ∨ .sepResp ∈ w) ∧ (r.ack = true → .ack ∈ w)
  | .dataless => .comp ∈ w ∧ (r.ack = true → .ack ∈ w)
  | .atomic => .dbid ∈ w ∧ .compData ∈ w ∧ .wr false ∈ w
  | .write => (.comp ∈ w ∧ .dbid ∈ w ∨ .compDbid ∈ w) ∧ (.wr true ∈ w ∨ .wr false ∈ w ∨ .wrAck ∈ w) ∧ (r.ack = true → .ack ∈ w ∨ .wrAck ∈ w)

instance (r : Req) (w : List L) (k : Kind) : Decidable (Over r w k) := by cases k <;> unfold Over <;> infer_instance

/-- A request being served; `ids`: the home and the `DBID` told by the last flit that tells them. -/
structure Open where
  req : Req
  kind : Kind
  word : List L := []
  ids : Option (Nat × Nat) := none

/-- The flits that belong to a snoop: the response, the response that asks for the data (`DataPull`), the response that tells that
the data were forwarded, `CompData` (sent when forwarding, received when it was asked for), `CompAck`, the second part. -/
inductive M
  | resp | pull | fwded | copy | ack | part
  deriving DecidableEq, Repr

structure SOpen where
  snp : Snp
  word : List M := []
  pull : Nat := 0
  ids : Option (Nat × Nat) := none

/-- Requests by `TxnID`; snoops that ask to forward, that stash, and others. -/
structure Spec where
  req : Nat → Option Open := fun _ => none
  fwd : List SOpen := []
  stash : List SOpen := []
  plain : List SOpen := []

/-- What a flit received means. -/
def datL : Nat → Option L
  | 4 => some .compData
  | 0xb => some .sepData
  | _ => none

def rspL : Nat → Option L
  | 0xb => some .sepResp
  | 8 => some .receipt
  | 4 => some .comp
  | 6 => some .dbid
  | 5 => some .compDbid
  | _ => none

/-- What data sent for a request mean. -/
def sentL : Nat → Option L
  | 2 => some (.wr true)
  | 3 => some (.wr false)
  | 0xc => some .wrAck
  | _ => none

/-- The request numbered `i` goes on with the flit `l`, which tells `ids`. -/
def Goes (S : Spec) (i : Nat) (l : L) (ids : Option (Nat × Nat)) (S' : Spec) : Prop :=
  ∃ o, S.req i = some o ∧ Next o.req o.word o.kind l ∧
    S' = { S with req := fun j => if j = i then
      (if Over o.req (o.word ++ [l]) o.kind then none else some { o with word := o.word ++ [l], ids := ids.or o.ids }) else S.req j }

/-- The data of an atomic request come without an identifier of use. -/
def datIds (S : Spec) (d : Dat) : Option (Nat × Nat) :=
  match S.req d.txn with
  | some o => if o.kind = .read then some (d.home, d.dbid) else none
  | none => none

def rspIds (p : Rsp) : Option (Nat × Nat) := if p.op = 8 then none else some (p.src, p.dbid)

/-- One of a list of snoops changes from `x` to `y`, or ends. -/
def Turns (l l' : List SOpen) (P : SOpen → Prop) (y : SOpen → Option SOpen) : Prop :=
  ∃ a x b, l = a ++ x :: b ∧ P x ∧ l' = a ++ (y x).toList ++ b

/-- A snoop is answered with the response `op`, as data or not; `pull` is the bit that asks for the data, `dbid` the identifier they
shall come with. -/
def Answers (S : Spec) (txn op : Nat) (data pull : Bool) (dbid : Nat) (S' : Spec) : Prop :=
  let fwded := if data then op = 6 else op = 9
  (∃ l, S' = { S with fwd := l } ∧
    Turns S.fwd l (fun x => x.snp.txn = txn ∧ .resp ∉ x.word ∧ .fwded ∉ x.word ∧ (fwded ∨ x.word = []))
      (fun x => if fwded then (if .copy ∈ x.word then none else some { x with word := x.word ++ [.fwded] }) else none)) ∨
  (∃ l, S' = { S with stash := l } ∧
    Turns S.stash l (fun x => x.snp.txn = txn ∧ x.word = [] ∧ ¬ fwded)
      (fun x => if pull then some { x with word := [.pull], pull := dbid } else none)) ∨
  (∃ l, S' = { S with plain := l } ∧
    Turns S.plain l (fun x => x.snp.txn = txn ∧ (if x.snp.op = 0xd then x.word = [.part] else x.word = []) ∧ ¬ fwded) (fun _ => none))

/-- The link's own flits: a credit is returned. -/
def isLink (op txn : Nat) : Prop := op = 0 ∧ txn = 0

instance (a b : Nat) : Decidable (isLink a b) := inferInstanceAs (Decidable (_ ∧ _))

/-- Requests with which nothing starts: the return of a link credit, of a protocol credit, and a prefetch. -/
def Quick (r : Req) : Prop := isLink r.op r.txn ∨ r.op = 5 ∨ r.op = 0x3a

/-- What may happen, and what is then outstanding. -/
def Step (S : Spec) (e : Ev) (S' : Spec) : Prop :=
  match e with
  | .req r =>
    (Quick r ∧ S' = S) ∨
    (¬ Quick r ∧ S.req r.txn = none ∧
      S' = match (row r.op).bind (·.kind) with
        | some k => { S with req := fun j => if j = r.txn then some { req := r, kind := k } else S.req j }
        | none => S)
  | .txDat d =>
    (isLink d.op d.txn ∧ S' = S) ∨
    (∃ l i o, sentL d.op = some l ∧ S.req i = some o ∧ o.ids = some (d.tgt, d.txn) ∧ Goes S i l none S') ∨
    (d.op = 4 ∧ ∃ f, S' = { S with fwd := f } ∧
      Turns S.fwd f (fun x => x.snp.fwdNid = d.tgt ∧ x.snp.fwdTxn = d.txn ∧ .copy ∉ x.word ∧ .resp ∉ x.word)
        (fun x => if .fwded ∈ x.word then none else some { x with word := x.word ++ [.copy] })) ∨
    (d.op ∈ [1, 5, 6] ∧ Answers S d.txn d.op true d.pull d.dbid S')
  | .txRsp p =>
    (isLink p.op p.txn ∧ S' = S) ∨
    (p.op = 2 ∧ ∃ i o, S.req i = some o ∧ o.ids = some (p.tgt, p.txn) ∧ Goes S i .ack none S') ∨
    (p.op = 2 ∧ ∃ l, S' = { S with stash := l } ∧
      Turns S.stash l (fun x => x.ids = some (p.tgt, p.txn) ∧ x.word = [.pull, .copy]) (fun _ => none)) ∨
    (p.op ∈ [1, 9] ∧ Answers S p.txn p.op false p.pull p.dbid S')
  | .rxDat d =>
    (isLink d.op d.txn ∧ S' = S) ∨
    (∃ l, datL d.op = some l ∧ Goes S d.txn l (datIds S d) S') ∨
    (d.op = 4 ∧ ∃ l, S' = { S with stash := l } ∧
      Turns S.stash l (fun x => x.word = [.pull] ∧ x.pull = d.txn)
        (fun x => some { x with word := [.pull, .copy], ids := some (d.home, d.dbid) }))
  | .rxRsp p =>
    (isLink p.op p.txn ∧ S' = S) ∨ (p.op = 7 ∧ S' = S) ∨
    (p.op = 3 ∧ ∃ o, S.req p.txn = some o ∧ o.word = [] ∧ o.req.retry = true ∧
      S' = { S with req := fun j => if j = p.txn then none else S.req j }) ∨
    (∃ l, rspL p.op = some l ∧ Goes S p.txn l (rspIds p) S')
  | .snp n =>
    if isLink n.op n.txn then S' = S
    else if n.op ∈ [0x11, 0x12, 0x13, 0x14, 0x17] then S' = { S with fwd := S.fwd ++ [{ snp := n }] }
    else if n.op ∈ [5, 6, 0xb, 0xc] then S' = { S with stash := S.stash ++ [{ snp := n }] }
    else if n.op = 0xd ∧ ∃ x ∈ S.plain, x.snp.txn = n.txn then
      ∃ l, S' = { S with plain := l } ∧
        Turns S.plain l (fun x => x.snp.txn = n.txn ∧ x.snp.op = 0xd ∧ x.word = []) (fun x => some { x with word := [.part] })
    else S' = { S with plain := S.plain ++ [{ snp := n }] }

/-- The flits may happen in this order. -/
def Allowed : Spec → List Ev → Prop
  | _, [] => True
  | S, e :: es => ∃ S', Step S e S' ∧ Allowed S' es

/-! ## Where the checker is right -/

/-- What may not follow but is accepted: separate responses together with a receipt; write data before the `DBID` is told,
twice, or of the wrong kind; write data with `CompAck` where none is expected, after one, or before `Comp`; `CompAck` of a write
before `Comp`. -/
def Missed (r : Req) (w : List L) : Kind → L → Prop
  | .read, .sepData => .receipt ∈ w
  | .read, .sepResp => .receipt ∈ w
  | .read, .receipt => .sepData ∈ w
  | .write, .wr c => ¬ (c = copyBack r ∧ (.dbid ∈ w ∨ .compDbid ∈ w) ∧ .wr c ∉ w ∧ .wrAck ∉ w)
  | .write, .wrAck => ¬ (copyBack r = false ∧ r.ack = true ∧ (.comp ∈ w ∧ .dbid ∈ w ∨ .compDbid ∈ w) ∧ .ack ∉ w ∧ .wr false ∉ w ∧ .wrAck ∉ w)
  | .write, .ack => .comp ∉ w ∧ .compDbid ∉ w
  | _, _ => False

/-- No flit that is missed goes to a request with these identifiers, and there is at most one such request. -/
def Sole (S : Spec) (ids : Nat × Nat) (l : L) : Prop :=
  (∀ i o, S.req i = some o → o.ids = some ids → ¬ Missed o.req o.word o.kind l) ∧
  (∀ i j o o', S.req i = some o → S.req j = some o' → o.ids = some ids → o'.ids = some ids → i = j)

/-- At most one snoop outstanding has this `TxnID`, and if it is a `SnpDVMOp` both parts were seen. -/
def SoleSnp (S : Spec) (txn : Nat) : Prop :=
  (S.fwd ++ S.stash ++ S.plain).countP (fun x => x.snp.txn == txn) ≤ 1 ∧
  ∀ x ∈ S.plain, x.snp.txn = txn → x.snp.op = 0xd → x.word = [.part]

/-- What is asked of one flit. -/
def Fair (S : Spec) : Ev → Prop
  | .req r => r.op < 64 ∧ r.txn < 256 ∧ r.order < 4
  | .txDat d =>
    d.op ≠ 7 ∧
    (∀ l, sentL d.op = some l → Sole S (d.tgt, d.txn) l) ∧
    (d.op = 4 → S.fwd.countP (fun x => x.snp.fwdNid == d.tgt && x.snp.fwdTxn == d.txn) ≤ 1 ∧
      ∀ x ∈ S.fwd, x.snp.fwdNid = d.tgt → x.snp.fwdTxn = d.txn → .fwded ∈ x.word) ∧
    (d.op ∈ [1, 5, 6] → SoleSnp S d.txn)
  | .txRsp p =>
    (p.op = 2 → Sole S (p.tgt, p.txn) .ack ∧
      (S.stash.countP (fun x => x.ids == some (p.tgt, p.txn)) ≤ 1) ∧
      ∀ i o x, S.req i = some o → x ∈ S.stash → o.ids = some (p.tgt, p.txn) → x.ids ≠ some (p.tgt, p.txn)) ∧
    (p.op ∈ [1, 9] → SoleSnp S p.txn)
  | .rxDat d =>
    (∀ o, S.req d.txn = some o → (d.op = 0xb → d.src = d.home) ∧ (∀ l, datL d.op = some l → ¬ Missed o.req o.word o.kind l) ∧
      ∀ x ∈ S.stash, .pull ∈ x.word → x.pull ≠ d.txn) ∧
    S.stash.countP (fun x => x.word.contains .pull && x.pull == d.txn) ≤ 1
  | .rxRsp p =>
    ∀ o, S.req p.txn = some o → (p.op = 3 → o.word = [] ∧ o.req.retry = true) ∧ ∀ l, rspL p.op = some l → ¬ Missed o.req o.word o.kind l
  | .snp n =>
    n.op = 0xd → S.plain.countP (fun x => x.snp.txn == n.txn) ≤ 1 ∧ ∀ x ∈ S.plain, x.snp.txn = n.txn → x.snp.op = 0xd ∧ x.word = []

/-- Asked of every flit, whatever is outstanding by then. -/
def FairRun : Spec → List Ev → Prop
  | _, [] => True
  | S, e :: es => Fair S e ∧ ∀ S', Step S e S' → FairRun S' es

/-- The flits of one cycle on the six channels, what the requester sends before what it receives, snoops last. -/
def Clk.seen (x : Clk) : List Ev :=
  [x.req.map Ev.req, x.txDat.map Ev.txDat, x.txRsp.map Ev.txRsp, x.rxDat.map Ev.rxDat, x.rxRsp.map Ev.rxRsp,
    x.snp.map Ev.snp].filterMap id

end Verif.PcChi
