import Verif.RtlWdata.Model

/-!
# What is to become of the beats

The history of the bridge: the requests and the beats in the order they were
taken, the writes to the RAM, the announcements.
-/

namespace Verif.RtlWdata

/-- What software finds when a descriptor is announced: which one, whether it
says that strobes are missing, and whether an error of length came up for it. -/
structure Told where
  idx : Nat
  strobes : Bool
  wrong : Bool
  deriving DecidableEq, Repr

structure World where
  s : Regs
  reqs : List Req
  beats : List Beat
  writes : List (Nat × Nat)
  told : List Told
  /-- an error of length came up since the last announcement -/
  flag : Bool
  /-- there was one in the cycle before -/
  prev : Bool

def World.start : World := { s := reset, reqs := [], beats := [], writes := [], told := [], flag := false, prev := false }

/-- The write on the port of the RAM in this cycle. -/
def World.writing (w : World) : List (Nat × Nat) := if w.s.we then [(w.s.addr, w.s.data)] else []

/-- The errors up to this cycle. -/
def World.flagged (w : World) : Bool := w.flag || (w.s.anyErr && !w.prev)

/-- The announcements of this cycle. -/
def World.telling (w : World) : List Told :=
  ((List.range 16).filter w.s.avail).map fun j => ⟨j, w.s.strb j, w.flagged⟩

def World.next (c : Cfg) (w : World) (i : In) : World :=
  { s := step c w.s i
    reqs := w.reqs ++ i.aw.toList
    beats := w.beats ++ (taken w.s i).toList
    writes := w.writes ++ w.writing
    told := w.told ++ w.telling
    flag := w.telling.isEmpty && w.flagged
    prev := w.s.anyErr }

def World.run (c : Cfg) (w : World) : List In → World
  | [] => w
  | i :: t => (w.next c i).run c t

/-- The requests whose descriptors have not been announced. -/
def World.open (w : World) : List Req := w.reqs.drop w.told.length

/-- A descriptor is one of the 16 and is given again only after it was
announced; the place is in the RAM, and a burst has at most 256 beats. -/
def Polite (c : Cfg) (w : World) (i : In) : Prop :=
  ∀ r ∈ i.aw, r.idx < 16 ∧ r.off < c.words ∧ r.len < 256 ∧ (c.lite = true → r.len = 0) ∧ ∀ q ∈ w.open, q.idx ≠ r.idx

def AllPolite (c : Cfg) (w : World) : List In → Prop
  | [] => True
  | i :: t => Polite c w i ∧ AllPolite c (w.next c i) t

/-- Nothing comes in. -/
def In.quiet : In := { aw := none, w := none, other := false, clear := false }

/-- A whole burst: it ends with its last beat and nowhere before. -/
def Whole (c : Cfg) (b : List Beat) : Prop :=
  ∃ p x, b = p ++ [x] ∧ (c.lite || x.last) = true ∧ ∀ y ∈ p, (c.lite || y.last) = false

/-- How far the bridge has got: the requests with their bursts, the requests
left, the beats so far of the burst begun, the beats left. -/
structure View where
  done : List (Req × List Beat)
  reqs : List Req
  part : List Beat
  rest : List Beat

/-- The oldest request has the first burst and so on, and nothing is lost. -/
structure Pairs (c : Cfg) (w : World) (v : View) : Prop where
  reqs : w.reqs = v.done.map (·.1) ++ v.reqs
  beats : w.beats = v.done.flatMap (·.2) ++ (v.part ++ v.rest)
  whole : ∀ d ∈ v.done, Whole c d.2
  part : ∀ y ∈ v.part, (c.lite || y.last) = false
  owner : v.reqs = [] → v.part = []

/-- A burst in the RAM: one beat after the other from the place of its
request. -/
def places (c : Cfg) (r : Req) (b : List Beat) : List (Nat × Nat) := b.mapIdx fun j x => ((r.off + j) % c.words, x.data)

def View.writes (c : Cfg) (v : View) : List (Nat × Nat) :=
  v.done.flatMap (fun d => places c d.1 d.2) ++
    match v.reqs with
    | [] => []
    | r :: _ => places c r v.part

/-- What is to be announced for a burst. -/
def tell (d : Req × List Beat) : Told :=
  { idx := d.1.idx, strobes := d.2.any fun x => !x.full, wrong := decide (d.2.length ≠ d.1.len + 1) }

end Verif.RtlWdata
