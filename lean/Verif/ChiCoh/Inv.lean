import Verif.ChiCoh.Spec

/-!
# The invariant of calm runs without direct cache transfer
-/

namespace Verif.ChiCoh

theorem upd_same {β : Type} (f : Nat → β) (a : Nat) (b : β) : upd f a b a = b := by simp [upd]
theorem upd_ne {β : Type} (f : Nat → β) (a : Nat) (b : β) {x : Nat} (h : x ≠ a) : upd f a b x = f x := by
  simp [upd, h]

/-- The slot of line `x` in cache `i`. -/
abbrev ln (cfg : Cfg) (s : St) (i x : Nat) : Line := (s.cache i).slot (x % cfg.num)

/-- MakeUnique of `x` granted to `i`, its store not yet done. -/
def Made (s : St) (i x : Nat) : Prop :=
  ∃ w, (s.cache i).pc = some w ∧ w.st = .done ∧ w.op = .makeUnique ∧ w.tag = x

/-- MakeUnique or CleanUnique of `x` granted to `i`, its store not yet done. -/
def Hot (s : St) (i x : Nat) : Prop :=
  ∃ w, (s.cache i).pc = some w ∧ w.st = .done ∧ (w.op = .makeUnique ∨ w.op = .cleanUnique) ∧ w.tag = x

/-- The requester has not got its answer. -/
def Phase.early : Phase → Bool
  | .snoop | .wrDirty | .rdMem | .dat .. | .comp | .dbid => true
  | _ => false

/-- Requests that are not about the line to be replaced. -/
def Kind.isFill (k : Kind) : Bool := !k.isCb && k != .evict

/-- What the slot looks like while a transaction is outstanding or has just completed. -/
def LineOk (l : Line) (seen : List Data) (w : Wait) : Prop :=
  match w.op with
  | .readShared | .readClean | .readNSD | .readUnique => w.st ≠ .done → l.valid = false
  | .once | .onceCI | .onceMI =>
    (w.st ≠ .done → l.valid = false) ∧ (w.st = .done → w.got ∈ seen)
  | .makeUnique =>
    (w.st ≠ .done → l.valid = false) ∧
    (w.st = .done → l.valid = true ∧ l.tag = w.tag ∧ l.shared = false)
  | .cleanUnique => l.valid = true ∧ l.tag = w.tag ∧ (w.st = .done → l.shared = false)
  | .evict => l.valid = false
  | .writeBack | .writeBackPtl | .writeEvict =>
    (w.st ≠ .done → l.valid = true → l.tag = w.tag ∧ l.data = w.snap ∧ w.sbe = allBytes) ∧
    (w.st = .done → l.valid = false)
  | .writeClean =>
    w.st ≠ .done → l.valid = true → l.tag = w.tag ∧ l.data = w.snap ∧ w.sbe = allBytes
  | .wrUPtl | .wrUFull =>
    (w.st ≠ .done → ¬ (l.valid = true ∧ l.tag = w.tag)) ∧ w.snap = w.c.data ∧ w.sbe = w.c.be

structure PcOk (cfg : Cfg) (slot : Nat → Line) (V : Nat → Data) (vs : List Data) (cm : Bool) (w : Wait) :
    Prop where
  ix : w.tag % cfg.num = w.c.tag % cfg.num
  fill : w.op.isFill = true → w.tag = w.c.tag
  ff : w.f.isFill = true
  onceLd : w.f.isOnce = true → w.c.wr = false
  opf : w.op.isFill = true → w.op = w.f
  uniqSt : (w.f = .makeUnique ∨ w.f = .wrUFull) → ∀ o, w.c.be o = true
  stWr : (w.f = .makeUnique ∨ w.f = .wrUFull ∨ w.f = .wrUPtl ∨ w.f = .cleanUnique) → w.c.wr = true
  fvic : w.op.isFill = false → w.f ≠ .cleanUnique ∧ w.f.isWrU = false
  dense : Dense w.c
  seen : V w.c.tag ∈ vs
  com : cm = (w.op.isWrU && decide (w.st = .done))
  comp : w.st = .comp → w.op = .evict
  ack : w.ack = true → w.op.isWrU = true
  line : LineOk (slot (w.c.tag % cfg.num)) vs w

/-- After the snoop of cache `j` has been handled. -/
structure DnOk (cfg : Cfg) (s : St) (k : Cur) (j : Nat) : Prop where
  hot : ¬ Hot s j k.tag
  inv : ∀ op, snpOp false k.kind = some op → invalidating op = true → ¬ Holds cfg s j k.tag
  share : snpOp false k.kind = some .share → Holds cfg s j k.tag → (ln cfg s j k.tag).shared = true

/-- A snoop response on its way. -/
structure SnOk (cfg : Cfg) (s : St) (V : Nat → Data) (k : Cur) (j : Nat) (r : Resp) : Prop where
  dn : DnOk cfg s k j
  fwd : r.fwd = none
  ptl : r.ptl = false
  valid : r.valid = false → ¬ Holds cfg s j k.tag
  nodata : r.data = false → ¬ Holds cfg s j k.tag
  pd : r.pd = true → r.data = true
  pdOnce : k.kind = .once → r.pd = false
  data : r.data = true → (ln cfg s j k.tag).tag = k.tag ∧ (ln cfg s j k.tag).be = allBytes ∧
    (ln cfg s j k.tag).data = V k.tag ∧
    ∀ i, Holds cfg s i k.tag → (ln cfg s i k.tag).shared = false → i = j

/-- Requests that put the line into the snoop filter. -/
def Kind.alloc (k : Kind) : Bool := k.isRd || k = .cleanUnique || k = .makeUnique

/-- What each phase of the request being served says. -/
def PhaseOk (cfg : Cfg) (s : St) (t : Spec) (k : Cur) : Prop :=
  match k.phase with
  | .snoop => True
  | .wrDirty => k.got = true ∧ k.pd = true
  | .rdMem => (k.kind.isRd = true ∨ k.kind.isOnce = true) ∧ k.got = false ∧ k.pd = false ∧
      (∀ j, j ≠ k.src → ¬ Holds cfg s j k.tag)
  | .dat g d e => e = some allBytes ∧
      ((k.kind.isOnce = true ∧ d ∈ t.seen k.src) ∨
       (k.kind.isRd = true ∧ d = t.mem k.tag ∧ g.valid = true ∧
        (g.shared = false → ∀ j, j ≠ k.src → ¬ Holds cfg s j k.tag) ∧
        (g.shared = true → ∀ j, j ≠ k.src → Holds cfg s j k.tag → (ln cfg s j k.tag).shared = true)))
  | .comp => k.kind = .cleanUnique ∨ k.kind = .makeUnique
  | .dbid => k.kind.isCb = true ∨ k.kind.isWrU = true
  | .wr pd _ _ => (k.kind.isCb = true ∨ k.kind.isWrU = true) ∧ (k.kind.isWrU = true → pd = true) ∧
      (k.kind.isCb = true → k.kind ≠ .writeClean → ¬ Holds cfg s k.src k.tag)
  | .wrMem _ _ => k.kind.isCb = true ∨ k.kind.isWrU = true
  | .ack => k.kind.alloc = true ∨ k.kind.isWrU = true ∨
      (k.kind.isOnce = true ∧ ¬ Holds cfg s k.src k.tag)

structure CurOk (cfg : Cfg) (s : St) (t : Spec) (k : Cur) : Prop where
  srcn : k.src < cfg.n
  fwd : k.fwd = false
  srcOff : k.snp k.src = .off
  out : ∀ j, cfg.n ≤ j → k.snp j = .off
  early : k.phase.early = true → ∃ w, (s.cache k.src).pc = some w ∧ w.st = .active ∧ w.op = k.kind ∧
    w.tag = k.tag
  noEv : k.kind ≠ .evict
  exp : k.exp = true → k.kind.isWrU = true
  cover : (snpOp false k.kind).isSome = true → ∀ j, j ≠ k.src → Holds cfg s j k.tag → k.snp j ≠ .off
  sn : ∀ j r, k.snp j = .handled r → SnOk cfg s t.mem k j r
  dn : ∀ j, k.snp j = .done → DnOk cfg s k j
  quiet : k.phase.early = true → k.phase ≠ .snoop → ∀ j, k.snp j = .off ∨ k.snp j = .done
  quiet' : k.phase.early = false → ∀ j, k.snp j = .off ∨ k.snp j = .done
  noSnp : (snpOp false k.kind).isSome = false → ∀ j, k.snp j = .off
  pdgot : k.pd = true → k.got = true
  pdOnce : k.kind = .once → k.pd = false
  ptl : k.ptl = false
  gotd : (k.phase = .snoop ∨ k.phase = .wrDirty) → k.got = true → k.be = allBytes ∧
    (k.kind ≠ .once → k.data = t.mem k.tag ∧
      ∀ j, Holds cfg s j k.tag → (ln cfg s j k.tag).shared = true) ∧
    (k.kind.isOnce = true → k.data ∈ t.seen k.src)
  nogot : k.got = false → ∀ j, k.snp j = .done → ¬ Holds cfg s j k.tag
  nosh : k.shared = false → ∀ j, k.snp j = .done → ¬ Holds cfg s j k.tag
  ph : PhaseOk cfg s t k

/-- Write data on top of a line. -/
def over (x : Nat) (d : Data) (p : Nat × Data × Be) : Data := if p.1 = x then merge d p.2.2 p.2.1 else d

/-- Write data the home node holds for the slave node. -/
def pend (cur : Option Cur) (x : Nat) (d : Data) : Data :=
  match cur with
  | none => d
  | some k =>
    if k.tag = x then
      match k.phase with
      | .wrDirty => merge d k.be k.data
      | .wr true d' e => merge d e d'
      | .wrMem d' e => merge d e d'
      | _ => d
    else d

/-- What memory will hold when all write data on its way has arrived. -/
def eff (s : St) (x : Nat) : Data := pend s.cur x (s.posted.foldl (over x) (s.mem x))

/-- Dirty data is with the home node or on its way to the requester. -/
def homeDirty (k : Cur) : Prop :=
  (∃ j r, k.snp j = .handled r ∧ r.pd = true) ∨ (k.phase = .snoop ∧ k.pd = true) ∨
  (∃ g d e, k.phase = .dat g d e ∧ g.dirty = true ∧ k.kind.isRd = true)

/-- The line is about to be overwritten as a whole. -/
def overwritten (k : Cur) : Prop :=
  (k.kind = .makeUnique ∨ k.kind = .wrUFull) ∧ k.phase.early = true

/-- The current contents of line `x` are somewhere. -/
inductive Avail (cfg : Cfg) (s : St) (t : Spec) (x : Nat) : Prop
  | dirty (i : Nat) (h : Holds cfg s i x) (d : (ln cfg s i x).dirty = true)
  | mem (h : eff s x = t.mem x)
  | home (k : Cur) (hk : s.cur = some k) (ht : k.tag = x) (h : homeDirty k)
  | over (k : Cur) (hk : s.cur = some k) (ht : k.tag = x) (h : overwritten k)
  | hot (i : Nat) (h : Hot s i x)

structure Inv (cfg : Cfg) (s : St) (t : Spec) : Prop where
  act : ∀ i, t.act i = (s.cache i).pc.map (·.c)
  pcn : ∀ i w, (s.cache i).pc = some w → i < cfg.n
  pcs : ∀ i w, (s.cache i).pc = some w → PcOk cfg (s.cache i).slot t.mem (t.seen i) (t.com i) w
  ixs : ∀ i y, ((s.cache i).slot y).valid = true → ((s.cache i).slot y).tag % cfg.num = y
  copy : ∀ i x, Holds cfg s i x → ¬ Made s i x → (ln cfg s i x).be = allBytes ∧
    (ln cfg s i x).data = t.mem x
  uniq : ∀ i j x, Holds cfg s i x → (ln cfg s i x).shared = false → Holds cfg s j x → j = i
  filt : ∀ i x, Holds cfg s i x → i < cfg.n ∧ (s.filt i x = true ∨
    ∃ k, s.cur = some k ∧ k.src = i ∧ k.tag = x ∧ k.phase = .ack ∧ k.kind.alloc = true)
  avail : ∀ x, Avail cfg s t x
  cur : ∀ k, s.cur = some k → CurOk cfg s t k

end Verif.ChiCoh
