import Verif.RtlOrder.Props

/-! # Examples, and where a response goes out for the wrong request -/

namespace Verif.RtlOrder

set_option maxRecDepth 100000

section
variable (w : World Nat) (i : In Nat)

/-- `Polite`, as a test. -/
def politeB : Bool :=
  (match i.alc, w.s.stage with
   | some (d, _), .idle => decide (d < 16) && decide (uses w.acc d = uses w.sent d)
   | _, _ => true) &&
  (List.range 16).all fun d => !(i.init d) || w.prev d ||
    (decide (w.asked.count d = uses w.sent d) && decide (uses w.acc d = uses w.sent d + 1) &&
     (match w.s.stage with
      | .done => decide (w.s.din ≠ d)
      | _ => true))

theorem polite_of (h : politeB w i = true) : Polite w i := by
  simp only [politeB, Bool.and_eq_true, List.all_eq_true, List.mem_range, Bool.or_eq_true, Bool.not_eq_true'] at h
  refine ⟨?_, ?_⟩
  · intro d x ha hs
    have := h.1
    rw [ha, hs] at this
    simpa using this
  · intro d hd h1 h2
    rcases h.2 d hd with (h' | h') | ⟨h', h3⟩
    · rw [h1] at h'; cases h'
    · rw [h2] at h'; cases h'
    · simp only [decide_eq_true_eq] at h'
      refine ⟨h'.1, h'.2, fun hs => ?_⟩
      rw [hs] at h3
      simpa using h3

def allPoliteB (w : World Nat) : List (In Nat) → Bool
  | [] => true
  | i :: t => politeB w i && allPoliteB (w.next i) t

theorem allPolite_of (ins : List (In Nat)) : ∀ {w : World Nat}, allPoliteB w ins = true → AllPolite w ins := by
  induction ins with
  | nil => intro w _; trivial
  | cons i t ih =>
    intro w h
    simp only [allPoliteB, Bool.and_eq_true] at h
    exact ⟨polite_of w i h.1, ih h.2⟩

/-- `Clean`, as a test. -/
def cleanB (w : World Nat) : Bool :=
  (List.range 16).all fun j => !w.just j ||
    (match lowest w.s.proc with
     | none => true
     | some d => !decide ((w.s.fifo j).pre = some d) || decide ((w.s.fifo j).mem (w.s.fifo j).rd = some d))

theorem clean_of (w : World Nat) (h : cleanB w = true) : Clean w := by
  intro j hj h1 d h2 h3
  simp only [cleanB, List.all_eq_true, List.mem_range, Bool.or_eq_true] at h
  have := h j hj
  rw [h1, h2, h3] at this
  simpa using this

def allCleanB (w : World Nat) : List (In Nat) → Bool
  | [] => cleanB w
  | i :: t => cleanB w && allCleanB (w.next i) t

theorem allClean_of (ins : List (In Nat)) : ∀ {w : World Nat}, allCleanB w ins = true → AllClean w ins := by
  induction ins with
  | nil => intro w h; exact clean_of w h
  | cons i t ih =>
    intro w h
    simp only [allCleanB, Bool.and_eq_true] at h
    exact ⟨clean_of w h.1, ih h.2⟩

end

/-- A request, its handshake and its way to the FIFO. -/
def give (d x : Nat) : List (In Nat) := [{ alc := some (d, x), init := fun _ => false }, In.quiet, In.quiet]

/-- Software answers these descriptors. -/
def answer (l : List Nat) : In Nat := { alc := none, init := fun k => l.contains k }

def rest (n : Nat) : List (In Nat) := List.replicate n In.quiet

/-- Two IDs; the second request of ID 9 is answered first and has to wait. -/
def mixed : List (In Nat) := give 3 9 ++ give 1 9 ++ give 2 4 ++ [answer [1]] ++ rest 4 ++ [answer [2]] ++ rest 6 ++ [answer [3]] ++ rest 14

/-- The hypotheses of `in_order_partial`, `answered_once_partial` and `handed_on_partial`
are met by a run with two IDs in which all is responded for. -/
example : AllPolite World.start mixed ∧ AllClean World.start mixed ∧ (World.start.run mixed).acc = [(3, 9), (1, 9), (2, 4)] ∧
    (World.start.run mixed).sent = [(2, 4), (3, 9), (1, 9)] :=
  ⟨allPolite_of _ (by decide +kernel), allClean_of _ (by decide +kernel), by decide +kernel, by decide +kernel⟩

/-- As does a run in which a request waits for one before it. -/
example : let ins := give 3 9 ++ give 1 9 ++ [answer [1]] ++ rest 20
    AllPolite World.start ins ∧ AllClean World.start ins ∧ (World.start.run ins).sent = [] ∧ (World.start.run ins).asked = [1] :=
  ⟨allPolite_of _ (by decide +kernel), allClean_of _ (by decide +kernel), by decide +kernel, by decide +kernel⟩

/-- One ID: the hypotheses of `in_order_one_id` and `answered_leave_one_id`. -/
example : AllPolite World.start (give 3 9 ++ give 1 9 ++ [answer [1, 3]] ++ rest 9) ∧
    (World.start.run (give 3 9 ++ give 1 9 ++ [answer [1, 3]] ++ rest 9)).sent = [(3, 9), (1, 9)] :=
  ⟨allPolite_of _ (by decide +kernel), by decide +kernel⟩

/-- Sixteen requests of ID 7 go through the first FIFO, and one more. -/
def sixteen : List (In Nat) := (List.range 16).flatMap (fun d => give d 7) ++ [answer (List.range 16)] ++ rest 64 ++ give 5 7

/-- Two requests of ID 9, under descriptors 2 and 1; the first FIFO becomes
empty; software answers descriptor 1 while a request of ID 7 comes under
descriptor 8. -/
def struck : List (In Nat) :=
  sixteen ++ give 2 9 ++ give 1 9 ++ [answer [5]] ++ rest 6 ++
    [{ alc := some (8, 7), init := fun d => d == 1 }, In.quiet, In.quiet] ++ rest 4

/-- Then software answers the two others. -/
def after : List (In Nat) := struck ++ [answer [2, 8]] ++ rest 40

/-- The early output is used without the signal which says whether it is
valid.  In the cycle after a write to an empty FIFO it is what the FIFO held
at that place sixteen requests ago.  If that is the descriptor looked for,
the descriptor is responded for before an older request of its ID, and the
new request of the other FIFO is taken out in its place: it never gets a
response, although software has answered it. -/
theorem stale_head_breaks_order :
    AllPolite World.start after ∧
    ofId 9 (World.start.run struck).acc = [(2, 9), (1, 9)] ∧ ofId 9 (World.start.run struck).sent = [(1, 9)] ∧
    ¬ ofId 9 (World.start.run struck).sent <+: ofId 9 (World.start.run struck).acc ∧
    (World.start.run after).acc.getLast? = some (8, 7) ∧ (World.start.run after).asked.count 8 = 2 ∧
    uses (World.start.run after).acc 8 = 2 ∧ uses (World.start.run after).sent 8 = 1 ∧
    ((World.start.run after).s.fifo 0).empty = true :=
  ⟨allPolite_of _ (by decide +kernel), by decide +kernel, by decide +kernel, by decide +kernel, by decide +kernel, by decide +kernel,
    by decide +kernel, by decide +kernel, by decide +kernel⟩

end Verif.RtlOrder
