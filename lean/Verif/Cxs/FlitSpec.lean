import Verif.Cxs.Flit

/-! How packets may be laid out on CXS flits (AMBA CXS specification 4.2).
Independent of the code. -/
namespace Verif.Cxs.Spec
open Verif.Cxs

/-- One stretch of a flit: unused bytes, or bytes of a packet. `first` and
`last` tell whether they begin or end the packet. -/
inductive Item where
  | gap (bytes : List Byte)
  | seg (first last : Bool) (bytes : List Byte)

def Item.bytes : Item → List Byte
  | .gap b => b
  | .seg _ _ b => b

/-- The items of one flit from byte position `p` on. Packets begin on 16-byte
boundaries and consist of whole words; a packet that is not finished fills the
rest of the flit. -/
inductive Laid : Nat → List Item → Prop where
  | nil {p} : Laid p []
  | gap {p b is} : b.length % 4 = 0 → Laid (p + b.length) is → Laid p (.gap b :: is)
  | whole {p b is} : p % 16 = 0 → b.length % 4 = 0 → 4 ≤ b.length → Laid (p + b.length) is →
      Laid p (.seg true true b :: is)
  | begin {p b} : p % 16 = 0 → b.length % 4 = 0 → 4 ≤ b.length → Laid p [.seg true false b]

/-- Items of a flit, given whether a packet is under way: it goes on at once. -/
inductive LaidFlit : Bool → List Item → Prop where
  | fresh {is} : Laid 0 is → LaidFlit false is
  | finish {b is} : b.length % 4 = 0 → 4 ≤ b.length → Laid b.length is → LaidFlit true (.seg false true b :: is)
  | through {b} : b.length % 4 = 0 → 4 ≤ b.length → LaidFlit true [.seg false false b]

/-- Bytes of the flit. -/
def flitBytes (is : List Item) : List Byte := is.flatMap Item.bytes

/-- Start pointers, in units of 16 bytes. -/
def startsAt : Nat → List Item → List Nat
  | _, [] => []
  | p, .seg true _ b :: is => p / 16 :: startsAt (p + b.length) is
  | p, i :: is => startsAt (p + i.bytes.length) is

/-- End pointers: the last word of each packet that ends. -/
def endsAt : Nat → List Item → List Nat
  | _, [] => []
  | p, .seg _ true b :: is => (p + b.length - 4) / 4 :: endsAt (p + b.length) is
  | p, i :: is => endsAt (p + i.bytes.length) is

/-- Assembling: packets completed by the items, and the bytes of the packet
under way (`none`: no packet). -/
def assemble : Option (List Byte) → List Item → List (List Byte) × Option (List Byte)
  | o, [] => ([], o)
  | o, .gap _ :: is => assemble o is
  | o, .seg _ true b :: is => ((o.getD [] ++ b) :: (assemble none is).1, (assemble none is).2)
  | o, .seg _ false b :: is => assemble (some (o.getD [] ++ b)) is

/-- The control word says where packets start and end: flags from the bottom,
one pointer field per flag. -/
structure Represents (c : Cfg) (w : BitVec 64) (starts ends : List Nat) : Prop where
  startCount : starts.length ≤ c.maxPkt
  endCount : ends.length ≤ c.maxPkt
  startFlag : ∀ i, i < c.maxPkt → w.getLsbD i = decide (i < starts.length)
  endFlag : ∀ i, i < c.maxPkt → w.getLsbD (c.maxPkt + c.maxPkt * c.startW + i) = decide (i < ends.length)
  startPtr : ∀ i, i < starts.length →
    w.toNat / 2 ^ (c.maxPkt + i * c.startW) % 2 ^ c.startW = starts.getD i 0
  endPtr : ∀ i, i < ends.length →
    w.toNat / 2 ^ (3 * c.maxPkt + c.maxPkt * c.startW + i * c.endW) % 2 ^ c.endW = ends.getD i 0

end Verif.Cxs.Spec
