import Verif.Ace.Spec
import Verif.Ace.ViewMove

/-!
# From the system to one line
-/

set_option linter.unusedSimpArgs false

namespace Verif.Ace

/-! ## Logs -/

theorem replay_append (m : LineId → Mem) (a b : List Ev) : replay m (a ++ b) = replay (replay m a) b :=
  List.foldl_append ..

theorem consistent_append : ∀ (m : LineId → Mem) (a b : List Ev),
    Consistent m (a ++ b) ↔ Consistent m a ∧ Consistent (replay m a) b
  | _, [], _ => by simp [Consistent, replay]
  | m, .rd p k o x :: es, b => by
    have := consistent_append m es b
    simp only [List.cons_append, Consistent, this, and_assoc]
    rfl
  | m, .wr p k o x :: es, b => consistent_append (apply m (.wr p k o x)) es b

theorem replay_rds (m : LineId → Mem) (p : Nat) (k : LineId) (f : Nat → Byte) : ∀ ws : List (Nat × Byte),
    replay m (ws.map fun w => .rd p k w.1 (f w.1)) = m
  | [] => rfl
  | _ :: ws => replay_rds m p k f ws

theorem consistent_rds (m : LineId → Mem) (p : Nat) (k : LineId) (f : Nat → Byte) :
    ∀ ws : List (Nat × Byte), (∀ w ∈ ws, f w.1 = m k w.1) →
    Consistent m (ws.map fun w => .rd p k w.1 (f w.1))
  | [], _ => trivial
  | _ :: ws, h => ⟨h _ (by simp), consistent_rds m p k f ws fun w hw => h w (by simp [hw])⟩

theorem replay_wrs (p : Nat) (k : LineId) : ∀ (ws : List (Nat × Byte)) (m : LineId → Mem) (y : LineId),
    replay m (ws.map fun w => .wr p k w.1 w.2) y = if y = k then writeBytes (m y) ws else m y
  | [], m, y => by simp [replay, writeBytes]
  | w :: ws, m, y => by
    have := replay_wrs p k ws (apply m (.wr p k w.1 w.2)) y
    simp only [List.map_cons]
    show replay (apply m (.wr p k w.1 w.2)) _ y = _
    rw [this]
    by_cases h : y = k <;> simp [h, apply, writeBytes]

theorem consistent_wrs (p : Nat) (k : LineId) : ∀ (ws : List (Nat × Byte)) (m : LineId → Mem),
    Consistent m (ws.map fun w => .wr p k w.1 w.2)
  | [], _ => trivial
  | _ :: ws, _ => consistent_wrs p k ws _

/-! ## The view of a line -/

def lineCopy (X : LineId) (l : Line) : Option Copy :=
  if l.valid = true ∧ l.key = X then some ⟨l.shared, l.dirty, l.data⟩ else none

def txOf (X : LineId) : Option Act → Option (Txn × Stage)
  | none => none
  | some a =>
    if a.txn.key = X ∧ a.stage ≠ .waiting ∧ a.txn.cmd.snooping = true then some (a.txn, a.stage) else none

def wbOf (X : LineId) : Option Act → Option Bool
  | none => none
  | some a =>
    if a.txn.key = X ∧ a.txn.cmd.snooping = false then some (decide (a.stage = .done)) else none

/-- What concerns line `X`. -/
def viewOf (c : Cfg) (m0 : LineId → Mem) (s : State) (X : LineId) : View where
  copy p := lineCopy X (s.line c p X)
  tx p := txOf X (s.ports p).act
  wb p := wbOf X (s.ports p).act
  mem := s.mem (c.phys X)
  gold := replay m0 s.log X

theorem upd_self {α : Type} {f : Nat → α} {p : Nat} {x : α} (h : f p = x) : upd f p x = f := by
  funext q
  by_cases e : q = p
  · subst e; rw [upd_same, h]
  · rw [upd_ne _ _ e]

variable {c : Cfg} {m0 : LineId → Mem} {s : State} {X : LineId}

@[simp] theorem setPort_same (s : State) (p : Nat) (x : Port) : (s.setPort p x).ports p = x := by
  simp [State.setPort]
theorem setPort_ne (s : State) {p q : Nat} (x : Port) (h : q ≠ p) : (s.setPort p x).ports q = s.ports q := by
  simp [State.setPort, h]

@[simp] theorem setAct_act (s : State) (p : Nat) (a : Option Act) : ((s.setAct p a).ports p).act = a := by
  simp [State.setAct]
@[simp] theorem setAct_lines (s : State) (p q : Nat) (a : Option Act) :
    ((s.setAct p a).ports q).lines = (s.ports q).lines := by
  by_cases e : q = p
  · subst e; simp [State.setAct]
  · rw [State.setAct, setPort_ne _ _ e]
theorem setAct_ne (s : State) {p q : Nat} (a : Option Act) (h : q ≠ p) :
    (s.setAct p a).ports q = s.ports q := setPort_ne _ _ h

@[simp] theorem setLine_act (s : State) (c : Cfg) (p q : Nat) (k : LineId) (l : Line) :
    ((s.setLine c p k l).ports q).act = (s.ports q).act := by
  by_cases e : q = p
  · subst e; simp [State.setLine]
  · rw [State.setLine, setPort_ne _ _ e]
theorem setLine_ne (s : State) (c : Cfg) {p q : Nat} (k : LineId) (l : Line) (h : q ≠ p) :
    (s.setLine c p k l).ports q = s.ports q := setPort_ne _ _ h
theorem setLine_lines (s : State) (c : Cfg) (p : Nat) (k : LineId) (l : Line) (i : Nat) :
    ((s.setLine c p k l).ports p).lines i = if i = c.slot k then l else (s.ports p).lines i := by
  simp [State.setLine]
@[simp] theorem setLine_line (s : State) (c : Cfg) (p : Nat) (k : LineId) (l : Line) :
    (s.setLine c p k l).line c p k = l := by
  simp [State.line, setLine_lines]
@[simp] theorem setAct_line (s : State) (p q : Nat) (a : Option Act) (k : LineId) :
    (s.setAct p a).line c q k = s.line c q k := by
  simp [State.line]

theorem view_setAct (p : Nat) (a : Option Act) :
    viewOf c m0 (s.setAct p a) X = { viewOf c m0 s X with
      tx := upd (viewOf c m0 s X).tx p (txOf X a)
      wb := upd (viewOf c m0 s X).wb p (wbOf X a) } := by
  have h1 : (fun q => txOf X ((s.setAct p a).ports q).act) = upd (fun q => txOf X (s.ports q).act) p (txOf X a) := by
    funext q
    by_cases e : q = p
    · subst e; simp
    · rw [upd_ne _ _ e, setAct_ne _ _ e]
  have h2 : (fun q => wbOf X ((s.setAct p a).ports q).act) = upd (fun q => wbOf X (s.ports q).act) p (wbOf X a) := by
    funext q
    by_cases e : q = p
    · subst e; simp
    · rw [upd_ne _ _ e, setAct_ne _ _ e]
  simp only [viewOf, setAct_line, h1, h2]
  rfl

theorem view_setLine (p : Nat) (k : LineId) (l : Line) :
    viewOf c m0 (s.setLine c p k l) X = { viewOf c m0 s X with
      copy := if c.slot X = c.slot k then upd (viewOf c m0 s X).copy p (lineCopy X l)
        else (viewOf c m0 s X).copy } := by
  have h1 : (fun q => lineCopy X ((s.setLine c p k l).line c q X)) =
      if c.slot X = c.slot k then upd (viewOf c m0 s X).copy p (lineCopy X l)
        else (viewOf c m0 s X).copy := by
    funext q
    by_cases e : q = p
    · subst e
      simp only [State.line, setLine_lines]
      by_cases h : c.slot X = c.slot k
      · simp [h]
      · simp [h, viewOf, State.line]
    · simp only [State.line, setLine_ne _ _ _ _ e]
      by_cases h : c.slot X = c.slot k
      · simp [h, upd_ne _ _ e, viewOf, State.line]
      · simp [h, viewOf, State.line]
  simp only [viewOf, setLine_act] at h1 ⊢
  rw [h1]
  rfl

/-- The line is not the one that changes. -/
theorem view_setLine_other {p : Nat} {k : LineId} {l : Line} (hk : k ≠ X)
    (h1 : l.valid = true → l.key = k) (h2 : (s.line c p k).valid = true → (s.line c p k).key = k) :
    viewOf c m0 (s.setLine c p k l) X = viewOf c m0 s X := by
  rw [view_setLine]
  by_cases h : c.slot X = c.slot k
  · rw [if_pos h, upd_self]
    show lineCopy X (s.line c p X) = lineCopy X l
    have e : s.line c p X = s.line c p k := by simp [State.line, h]
    rw [e]
    have f : ∀ x : Line, (x.valid = true → x.key = k) → lineCopy X x = none := by
      intro x hx
      rw [lineCopy, if_neg]
      rintro ⟨a, b⟩
      exact hk ((hx a).symm.trans b)
    rw [f _ h1, f _ h2]
  · rw [if_neg h]

theorem view_setMem (k : LineId) (m : Mem) :
    viewOf c m0 (s.setMem k m) X = { viewOf c m0 s X with
      mem := if c.phys X = k then m else s.mem (c.phys X) } := rfl

theorem view_emit (es : List Ev) :
    viewOf c m0 (s.emit es) X = { viewOf c m0 s X with gold := replay (replay m0 s.log) es X } := by
  simp only [viewOf, State.emit, replay_append]
  rfl

theorem view_flip (p : Nat) : viewOf c m0 (s.flip p) X = viewOf c m0 s X := by
  have h1 : ∀ q, ((s.flip p).ports q).act = (s.ports q).act ∧ ((s.flip p).ports q).lines = (s.ports q).lines := by
    intro q
    by_cases e : q = p
    · subst e; simp [State.flip]
    · rw [State.flip, setPort_ne _ _ e]; exact ⟨rfl, rfl⟩
  simp only [viewOf, State.line, fun q => (h1 q).1, fun q => (h1 q).2]
  rfl

/-! ## The structural invariant -/

/-- A piece of a request of port `p` that the theorems allow. -/
structure ChunkOk (c : Cfg) (w : Bool) (k : Chunk) : Prop where
  key : k.key.2 = w
  lt : ∀ e ∈ k.ws, e.1 < c.lineSz

/-- ACE-Lite masters and write-through caches write, and ACE-Lite masters read, whole lines. -/
structure LoadOk (c : Cfg) (w : Bool) (p : Nat) (k : Chunk) : Prop extends ChunkOk c w k where
  lite : c.masters ≤ p → k.lo = 0 ∧ k.n = c.lineSz

structure StoreOk (c : Cfg) (w : Bool) (p : Nat) (k : Chunk) : Prop extends ChunkOk c w k where
  whole : c.masters ≤ p ∨ c.wt p = true → k.lo = 0 ∧ k.n = c.lineSz
  full : k.n = c.lineSz → k.ws.length = k.n → Covers c.lineSz k.ws
  mu : p < c.masters → c.wt p = false → k.n = c.lineSz → Covers c.lineSz k.ws
  wu : p < c.masters → c.wt p = true → k.ws.length = k.n ∨ k.pos < k.n

def JobOk (c : Cfg) (w : Bool) (p : Nat) : Job → Prop
  | .load cs => ∀ k ∈ cs, LoadOk c w p k
  | .store cs => ∀ k ∈ cs, StoreOk c w p k
  | .maint cmd k => cmd = .cleanShared ∧ k.2 = w

/-- The transactions that fill a line, and what they require. -/
structure FillOk (c : Cfg) (p : Nat) (cmd : Bus) (key : LineId) (job : Job) : Prop where
  master : p < c.masters
  fill : cmd.fill = true
  wt : c.wt p = true → cmd = .readClean
  mu : cmd = .makeUnique → ∃ k cs, job = .store (k :: cs) ∧ k.key = key ∧ Covers c.lineSz k.ws

/-- What the initiator keeps true while its transaction is on the way; `l` is the line of the
initiator's cache that the transaction is about. -/
structure TxnOk (c : Cfg) (w : Bool) (lines : Nat → Line) (p : Nat) (t : Txn) (job : Job)
    (next : Option Bus) : Prop where
  key : t.key.2 = w
  range : t.lo = 0 ∧ t.hi = c.lineSz
  fine : t.cmd.fine = true
  jobOk : JobOk c w p job
  fill : t.cmd.fill = true → FillOk c p t.cmd t.key job ∧ (lines (c.slot t.key)).valid = false
  cu : t.cmd = .cleanUnique → p < c.masters ∧ c.wt p = false ∧ ((lines (c.slot t.key)).valid = true →
    (lines (c.slot t.key)).key = t.key ∧ (lines (c.slot t.key)).shared = true)
  out : t.cmd.snooping = false → (lines (c.slot t.key)).valid = true ∧
    (lines (c.slot t.key)).key = t.key ∧ (lines (c.slot t.key)).dirty = true
  outNext : t.cmd.snooping = false → ∃ cmd, next = some cmd ∧
    ((∃ k, job = .maint .cleanShared k ∧ k = t.key ∧ cmd = .cleanShared ∧ t.cmd = .writeClean) ∨
     (∃ k cs, job.pieces = k :: cs ∧ c.slot k.key = c.slot t.key ∧ k.key.2 = w ∧ FillOk c p cmd k.key job))
  nextOk : t.cmd.snooping = true → next = none
  wr : t.cmd.isWr = true → (c.masters ≤ p ∨ c.wt p = true) ∧ ∃ k cs, job = .store (k :: cs) ∧
    t.ws = k.ws ∧ t.key = k.key ∧ (p < c.masters → t.cmd = .writeUnique → k.pos < k.n)
  wlu : t.cmd = .writeLineUnique → Covers c.lineSz t.ws
  ro : t.cmd = .readOnce → c.masters ≤ p ∧ ∃ k cs, job = .load (k :: cs) ∧ t.key = k.key

structure ActOk (c : Cfg) (w : Bool) (lines : Nat → Line) (p : Nat) (a : Act) : Prop
    extends TxnOk c w lines p a.txn a.job a.next where
  outStage : a.txn.cmd.snooping = false → a.stage = .queued ∨ a.stage = .done
  fresh : a.stage = .waiting → Fresh a.txn

structure Inv (c : Cfg) (w : Bool) (m0 : LineId → Mem) (s : State) : Prop where
  line : ∀ p i, ((s.ports p).lines i).valid = true → c.slot ((s.ports p).lines i).key = i ∧
    ((s.ports p).lines i).key.2 = w
  act : ∀ p a, (s.ports p).act = some a → ActOk c w (s.ports p).lines p a
  ong : ∀ p a, (s.ports p).act = some a → a.stage ≠ .waiting → p ∈ s.ongoing
  view : ∀ X : LineId, X.2 = w → LInv c.masters c.lineSz c.wt (viewOf c m0 s X)
  log : Consistent m0 s.log

end Verif.Ace
