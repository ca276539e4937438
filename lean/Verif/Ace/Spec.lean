import Verif.Ace.Model

/-!
# What the masters of a coherent system may observe

Independent of how caches and interconnect work: a log of byte reads and byte writes, and one flat
memory that the writes are applied to in the order of the log.
-/

namespace Verif.Ace

/-- One memory for everybody. -/
def apply (m : LineId → Mem) : Ev → LineId → Mem
  | .rd .. => m
  | .wr _ k o x => fun y => if y = k then (m y).set o x else m y

/-- The memory after the writes of a log. -/
def replay (m : LineId → Mem) (log : List Ev) : LineId → Mem := log.foldl apply m

/-- Every byte read has the value last written to it. -/
def Consistent (m : LineId → Mem) : List Ev → Prop
  | [] => True
  | .rd _ k o x :: es => x = m k o ∧ Consistent m es
  | .wr p k o x :: es => Consistent (apply m (.wr p k o x)) es

instance (m : LineId → Mem) : ∀ es, Decidable (Consistent m es)
  | [] => inferInstanceAs (Decidable True)
  | .rd _ k o x :: es =>
    have := instDecidableConsistent m es
    inferInstanceAs (Decidable (x = m k o ∧ Consistent m es))
  | .wr p k o x :: es => instDecidableConsistent (apply m (.wr p k o x)) es

/-- Cache `p` holds the valid line `l`. -/
def State.Holds (s : State) (p : Nat) (l : Line) : Prop := l.valid = true ∧ ∃ i, (s.ports p).lines i = l

/-- No master is in the middle of a request. -/
def State.Idle (s : State) : Prop := ∀ p, (s.ports p).act = none

/-! ## What requests ask for -/

/-- One byte access, without the value a read returns. -/
inductive Acc
  | rd (key : LineId) (off : Nat)
  | wr (key : LineId) (off : Nat) (val : Byte)
  deriving DecidableEq, Repr

def Ev.port : Ev → Nat
  | .rd p .. | .wr p .. => p

def Ev.acc : Ev → Acc
  | .rd _ k o _ => .rd k o
  | .wr _ k o x => .wr k o x

/-- What port `p` did, in order. -/
def served (log : List Ev) (p : Nat) : List Acc := (log.filter (·.port = p)).map Ev.acc

/-- The byte accesses a request asks for: its enabled bytes in the order of their addresses. -/
def Op.accs (L : Nat) : Op → List Acc
  | .load addr len be sec =>
    (List.range len).flatMap fun i =>
      if beEnabled be i then [.rd ((addr + i) / L, sec) ((addr + i) % L)] else []
  | .store addr data be sec =>
    (List.range data.length).flatMap fun i =>
      if beEnabled be i then [.wr ((addr + i) / L, sec) ((addr + i) % L) (data.getD i 0)] else []
  | .maint .. => []

/-- The cache maintenance operations there are. -/
def Op.Wf : Op → Prop
  | .maint cmd _ _ => cmd = .cleanShared ∨ cmd = .cleanInvalid ∨ cmd = .makeInvalid
  | _ => True

/-- The requests of port `p` that were accepted along a schedule, by the byte accesses they ask for. A
request is accepted when the port is idle. -/
def accepted (c : Cfg) (p : Nat) : State → List Action → List Acc
  | _, [] => []
  | s, a :: as =>
    (match a with
     | .start q op => if q = p ∧ (s.ports q).act.isNone then op.accs c.lineSz else []
     | _ => []) ++ accepted c p (step c s a) as

/-! ## The requests the coherence theorems cover -/

/-- Every line that lies entirely inside the access has all its bytes enabled. -/
def FullLines (L addr len : Nat) (be : List Bool) : Prop :=
  ∀ n, addr ≤ n * L → (n + 1) * L ≤ addr + len → ∀ o, o < L → beEnabled be (n * L + o - addr) = true

/-- Requests of port `p` in world `w` (secure or not):
* write-back caches: any load, any store whose byte enables leave no hole in a whole line;
* write-through caches: any load, stores of whole aligned lines without holes after the first line;
* ACE-Lite masters: loads and stores of whole aligned lines;
* of the cache maintenance operations only CleanShared. -/
def OpOk (c : Cfg) (w : Bool) (p : Nat) : Op → Prop
  | .load addr len _ sec =>
    sec = w ∧ (c.masters ≤ p → addr % c.lineSz = 0 ∧ len % c.lineSz = 0)
  | .store addr data be sec =>
    sec = w ∧
    (p < c.masters → c.wt p = false → FullLines c.lineSz addr data.length be) ∧
    (c.masters ≤ p ∨ c.wt p = true → addr % c.lineSz = 0 ∧ data.length % c.lineSz = 0) ∧
    (p < c.masters → c.wt p = true → ∀ i, c.lineSz ≤ i → i < data.length → beEnabled be i = true)
  | .maint cmd _ sec => cmd = .cleanShared ∧ sec = w

/-- A schedule of such requests. -/
def ScheduleOk (c : Cfg) (w : Bool) (as : List Action) : Prop :=
  ∀ p op, Action.start p op ∈ as → OpOk c w p op

end Verif.Ace
