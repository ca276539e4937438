import Verif.ChiCoh.Model

/-!
# What the users of a coherent system may observe

One flat memory of lines. A store changes it once, at some moment between its start and its end. A load
returns bytes the line had at one moment between its start and its end. Nothing here knows about caches,
snoops or messages.
-/

namespace Verif.ChiCoh

/-- `mem`: the memory. `act i`: the chunk CPU `i` is working on. `com i`: its store has taken effect.
`seen i`: the contents its line has had since it started. -/
structure Spec where
  mem : Nat → Data
  act : Nat → Option Chunk
  com : Nat → Bool
  seen : Nat → List Data

/-- The bytes a load asked for agree with `v`. -/
def sees (c : Chunk) (d v : Data) : Bool := decide (∀ o, c.be o = true → d o = v o)

/-- A store by CPU `i` takes effect. -/
def Spec.store (t : Spec) (i : Nat) (c : Chunk) : Spec :=
  let v := merge (t.mem c.tag) c.be c.data
  { t with
    mem := upd t.mem c.tag v
    com := upd t.com i true
    seen := fun j =>
      match t.act j with
      | some c' => if c'.tag = c.tag then v :: t.seen j else t.seen j
      | none => t.seen j }

/-- One event; `none` when it is not allowed. -/
def Spec.ev (t : Spec) : Ev → Option Spec
  | .begin i c =>
    match t.act i with
    | none => some { t with act := upd t.act i (some c), com := upd t.com i false
                            seen := upd t.seen i [t.mem c.tag] }
    | some _ => none
  | .commit i =>
    match t.act i with
    | some c => if c.wr = true ∧ t.com i = false then some (t.store i c) else none
    | none => none
  | .finish i d =>
    match t.act i with
    | some c =>
      if (if c.wr then t.com i else (t.seen i).any (sees c d)) = true then
        some { t with act := upd t.act i none }
      else none
    | none => none

def Spec.run : Spec → List Ev → Option Spec
  | t, [] => some t
  | t, e :: es =>
    match t.ev e with
    | some t' => t'.run es
    | none => none

def Spec.init (m : Nat → Data) : Spec :=
  { mem := m, act := fun _ => none, com := fun _ => false, seen := fun _ => [] }

/-- The users' view is that of one memory. -/
def Coherent (m : Nat → Data) (es : List Ev) : Prop := ∃ t, (Spec.init m).run es = some t

instance (m : Nat → Data) (es : List Ev) : Decidable (Coherent m es) :=
  decidable_of_iff ((Spec.init m).run es).isSome (by
    unfold Coherent; cases (Spec.init m).run es <;> simp)

/-! ## Conditions on a run -/

/-- Stores that count as covering a whole line do: a line-sized store enables all its bytes, and a payload
with all byte enables set covers whole lines. -/
def Dense (c : Chunk) : Prop := c.wr = true → (c.whole = true ∨ c.allBe = true) → ∀ o, c.be o = true

/-- Cache `j` has just obtained line `t` for a store by a request without data (MakeUnique, CleanUnique)
and its CPU side has not run yet. -/
def justGranted (s : St) (j t : Nat) : Bool :=
  match (s.cache j).pc with
  | some w => w.st = .done && (w.op = .makeUnique || w.op = .cleanUnique) && w.tag == t
  | none => false

/-- Cache `j` waits for a CleanUnique of line `t`. -/
def upgrading (s : St) (j t : Nat) : Bool :=
  match (s.cache j).pc with
  | some w => w.st != .done && w.op = .cleanUnique && w.tag == t
  | none => false

/-- The snoop takes the line away. -/
def invalidating : SnpOp → Bool
  | .unique | .cleanInvalid | .makeInvalid | .uniqueFwd => true
  | _ => false

/-- A step that keeps clear of the known races: no snoop of a line reaches a cache between the grant of
that line by a request without data and the store it was requested for; no invalidating snoop reaches a
cache whose CleanUnique of that line is outstanding; no memory read of a line overtakes write data of
that line. All started chunks are `Dense`. -/
def Calm (s : St) : Label → Prop
  | .start _ c _ => Dense c
  | .snoop j =>
    match s.cur with
    | some k => justGranted s j k.tag = false ∧
        ((snpOp k.fwd k.kind).any invalidating = true → upgrading s j k.tag = false)
    | none => True
  | .memRead =>
    match s.cur with
    | some k => ∀ p ∈ s.posted, p.1 ≠ k.tag
    | none => True
  | _ => True

/-- Every step of the run is calm. -/
def CalmRun (cfg : Cfg) : St → List Label → Prop
  | _, [] => True
  | s, l :: ls => Calm s l ∧ ∀ s' es, step cfg s l = .next s' es → CalmRun cfg s' ls

/-- Cache `i` holds line `t`. -/
def Holds (cfg : Cfg) (s : St) (i t : Nat) : Prop :=
  ((s.cache i).slot (t % cfg.num)).valid = true ∧ ((s.cache i).slot (t % cfg.num)).tag = t

end Verif.ChiCoh
