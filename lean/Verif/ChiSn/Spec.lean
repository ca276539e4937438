import Verif.ChiSn.Model

/-!
# What a CHI slave node owes its requesters

Independent of how the node is built: the effect of one request on memory as the
CHI specification describes it (issue C, 2.9 and 4.2.5 for the atomics), and what its data
message carries.
-/

namespace Verif.ChiSn

/-- The number a group of bytes holds. -/
def val (big : Bool) (b : List Byte) : Nat := if big then beDec b else leDec b
/-- The `n` bytes that hold a number. -/
def enc (big : Bool) (n v : Nat) : List Byte := if big then beEnc n v else leEnc n v

/-- The eight operations of AtomicStore and AtomicLoad. -/
inductive AOp where
  | add | clr | eor | set | smax | smin | umax | umin
  deriving DecidableEq, Repr

/-- Their sub-opcodes, in binary `000` to `111`. -/
def AOp.ofCode : Nat → AOp
  | 0 => .add | 1 => .clr | 2 => .eor | 3 => .set
  | 4 => .smax | 5 => .smin | 6 => .umax | _ => .umin

/-- What they compute. -/
def AOp.eval {w : Nat} (o : AOp) (a b : BitVec w) : BitVec w :=
  match o with
  | .add => a + b
  | .clr => a &&& ~~~b
  | .eor => a ^^^ b
  | .set => a ||| b
  | .smax => if a.slt b then b else a
  | .smin => if b.slt a then b else a
  | .umax => if a.ult b then b else a
  | .umin => if b.ult a then b else a

/-- The bytes of the line data that belong to addresses `a … a+n-1`. -/
def Txn.at (t : Txn) (a n : Nat) : List Byte := (List.range n).map fun i => t.buf ((a + i) % 64)

/-- The effect of a request, with its line data and enables, on memory. -/
def specMem (t : Txn) (m : Mem) : Mem :=
  let r := t.req
  if r.isWrite then
    fun x => if r.addr ≤ x ∧ x / r.len = r.addr / r.len ∧ t.en (x % 64) = true
      then t.buf (x % 64) else m x
  else if r.isAtStore || r.isAtLoad then
    m.store r.addr (enc r.big r.len ((AOp.ofCode (r.opcode % 8)).eval
      (BitVec.ofNat (8 * r.len) (val r.big (m.range r.addr r.len)))
      (BitVec.ofNat (8 * r.len) (val r.big (t.at r.addr r.len)))).toNat)
  else if r.isAtSwap then m.store r.addr (t.at r.addr r.len)
  else if r.isAtCmp then
    let h := r.len / 2
    let other := if r.addr % r.len = 0 then r.addr + h else r.addr - h
    if m.range r.addr h = t.at r.addr h then m.store r.addr (t.at other h) else m
  else m

/-- A data message that carries the whole line of address `a`. -/
def CarriesLine (m : Mem) (a : Nat) (o : Out) : Prop :=
  o.data = m.range (a / 64 * 64) 64 ∧ o.be = none

/-- A data message that carries just the bytes `a … a+n-1`, in their places in the line. -/
def CarriesBytes (m : Mem) (a n : Nat) (o : Out) : Prop :=
  o.data.length = 64 ∧ ∃ be, o.be = some be ∧ be.length = 64 ∧
    ∀ i, i < 64 → (be.getD i false = true ↔ a ≤ a / 64 * 64 + i ∧ a / 64 * 64 + i < a + n) ∧
      (be.getD i false = true → o.data.getD i 0 = m (a / 64 * 64 + i))

/-- What a request sends on the data channel, given the memory it found. -/
def Sends (t : Txn) (m : Mem) : Option Out → Prop
  | none => ¬ (t.req.isRead ∨ t.req.isReadSep) ∧ ¬ (t.req.isAtomic ∧ ¬ t.req.isAtStore)
  | some o => o.tag = t.req.tag ∧
      (((t.req.isRead ∨ t.req.isReadSep) ∧ CarriesLine m t.req.addr o ∧ o.sep = t.req.isReadSep) ∨
       (t.req.isAtomic ∧ ¬ t.req.isAtStore ∧
        CarriesBytes m t.req.addr (if t.req.isAtCmp then t.req.len / 2 else t.req.len) o))

/-- The requests a conforming home node sends: whole-line reads, writes of a power of two
bytes up to a line, naturally aligned atomics of the sizes the specification lists. -/
def Legal (r : Req) : Prop :=
  (r.isRead ∨ r.isReadSep → r.len = 64) ∧
  (r.isWrite → r.len ∣ 64) ∧
  ((r.isAtStore ∨ r.isAtLoad ∨ r.isAtSwap) →
    (r.len = 1 ∨ r.len = 2 ∨ r.len = 4 ∨ r.len = 8) ∧ r.addr % r.len = 0) ∧
  (r.isAtCmp → (r.len = 2 ∨ r.len = 4 ∨ r.len = 8 ∨ r.len = 16 ∨ r.len = 32) ∧
    r.addr % (r.len / 2) = 0)

/-- The atomics whose operation is add or clear (or not an operation: swap, compare). -/
def AddClr (r : Req) : Prop := r.isAtStore ∨ r.isAtLoad → r.opcode % 8 < 2

/-- Requests carried out one after the other, each on the memory its predecessor left,
with what each sends. -/
inductive Served : Mem → List Txn → Mem → List Out → Prop
  | nil (m : Mem) : Served m [] m []
  | cons {m m' : Mem} {t : Txn} {ts : List Txn} {o : Option Out} {os : List Out} :
      Sends t m o → Served (specMem t m) ts m' os → Served m (t :: ts) m' (o.toList ++ os)

end Verif.ChiSn
