import Verif.PcAce.Reads

/-! # C72: the data of snoops under the ACE checker -/

namespace Verif.PcAce

/-! ## Specification -/

inductive DEv
  | ar (t : DTx)
  | r (id : Nat) (last : Bool)
  | aw (t : DTx)
  | b (id : Nat)
  | ac (t : DTx)
  | cr (resp : Nat)
  deriving DecidableEq, Repr

/-- The handshakes of a trace, in order. -/
def dEvents : List CdClk → List DEv
  | [] => []
  | x :: t => x.ar.toList.map .ar ++ x.r.toList.map (fun y => .r y.1 y.2) ++ x.aw.toList.map .aw ++ x.b.toList.map .b ++
      x.ac.toList.map .ac ++ x.cr.toList.map .cr ++ dEvents t

def DEv.ar? : DEv → Option DTx
  | .ar t => some t
  | _ => none
def DEv.aw? : DEv → Option DTx
  | .aw t => some t
  | _ => none
def DEv.ac? : DEv → Option DTx
  | .ac t => some t
  | _ => none
/-- The identifier of a completed read, of a completed write. -/
def DEv.rid? : DEv → Option Nat
  | .r id true => some id
  | _ => none
def DEv.bid? : DEv → Option Nat
  | .b id => some id
  | _ => none
def DEv.cr? : DEv → Option Nat
  | .cr x => some x
  | _ => none

/-- The transaction that the next completion with identifier `id` is for: the first of `opened` with this identifier which
none of `closed` was for. -/
def nth (opened : List DTx) (closed : List Nat) (id : Nat) : Option DTx := (opened.filter fun t => t.id == id)[closed.count id]?

/-- What happens to the cache: a read completes, a write completes, a snoop is answered. -/
inductive CEv
  | rd (t : DTx)
  | wr (t : DTx)
  | snp (t : DTx) (resp : Nat)
  deriving DecidableEq, Repr

/-- What `e` completes, after `pre`. -/
def completes (pre : List DEv) : DEv → Option CEv
  | .r id true => (nth (pre.filterMap DEv.ar?) (pre.filterMap DEv.rid?) id).map .rd
  | .b id => (nth (pre.filterMap DEv.aw?) (pre.filterMap DEv.bid?) id).map .wr
  | .cr resp => ((pre.filterMap DEv.ac?)[(pre.filterMap DEv.cr?).length]?).map (.snp · resp)
  | _ => none

/-- The cache line a transaction is about, in cache lines of `size` bytes: with its full address, and secure
and non-secure lines apart. -/
def DTx.lineOf (size : Nat) (t : DTx) : Nat × Bool := (t.addr / size, t.prot / 2 % 2 == 1)

/-- What a completed event says of a line: afterwards it is in the cache, or not in the cache, or unchanged. -/
def CEv.says (size : Nat) (l : Nat × Bool) : CEv → Option Bool
  | .rd t => if t.lineOf size ≠ l then none
      else if t.snoop ∈ [1, 2, 3, 7, 0xb, 0xc] then some true else if t.snoop = 9 ∨ t.snoop = 0xd then some false else none
  | .wr t => if t.lineOf size ≠ l then none else if t.snoop = 3 ∨ t.snoop = 4 then some false else none
  | .snp t resp => if t.lineOf size ≠ l then none else if resp / 8 % 2 = 0 then some false else none

/-- A line is in the cache if the last event that says something of it says so; `evs` has the latest first. -/
def holds (size : Nat) (l : Nat × Bool) : List CEv → Bool
  | [] => false
  | e :: evs => (e.says size l).getD (holds size l evs)

/-- A snoop that reads gets data if the line is in the cache, and no snoop gets data if it is not. -/
def AnswerOk (held : Bool) (snoop resp : Nat) : Prop :=
  (held = true → snoop ∈ [0, 1, 2, 3, 7] → resp % 2 = 1) ∧ (resp % 2 = 1 → held = true)

/-- All the answers of a trace are right; `done` has what was completed before, latest first. -/
def CdLegal (size : Nat) : List DEv → List CEv → List DEv → Prop
  | _, _, [] => True
  | pre, done, e :: es =>
    (∀ t resp, completes pre e = some (.snp t resp) → AnswerOk (holds size (t.lineOf size) done) t.snoop resp) ∧
      CdLegal size (pre ++ [e]) ((completes pre e).toList ++ done) es

/-- The traces the theorem is about: completions are for something (the other checkers report those that are not), fewer than
`depth` transactions of a kind are under way when another starts, addresses are those of lines, in 32 bits. -/
def CdQuiet (size depth : Nat) : List DEv → List DEv → Prop
  | _, [] => True
  | pre, e :: es =>
    (match e with
      | .ar t => t.addr < 2 ^ 32 ∧ size ∣ t.addr ∧ (pre.filterMap DEv.ar?).length < depth + (pre.filterMap DEv.rid?).length
      | .aw t => t.addr < 2 ^ 32 ∧ size ∣ t.addr ∧ (pre.filterMap DEv.aw?).length < depth + (pre.filterMap DEv.bid?).length
      | .ac t => t.addr < 2 ^ 32 ∧ size ∣ t.addr ∧ (pre.filterMap DEv.ac?).length < depth + (pre.filterMap DEv.cr?).length
      | .r _ last => last = true → completes pre e ≠ none
      | .b _ => completes pre e ≠ none
      | .cr _ => completes pre e ≠ none) ∧ CdQuiet size depth (pre ++ [e]) es

/-! ## Queues -/

structure QRel (l opened : List DTx) (closed : List Nat) : Prop where
  by_id : ∀ i, (l.filter fun t => t.id == i) = (opened.filter fun t => t.id == i).drop (closed.count i)
  le : ∀ i, closed.count i ≤ (opened.filter fun t => t.id == i).length
  len : l.length + closed.length = opened.length
  mem : ∀ t ∈ l, t ∈ opened

theorem q_push {l opened : List DTx} {closed : List Nat} (h : QRel l opened closed) (t : DTx) :
    QRel (l ++ [t]) (opened ++ [t]) closed := by
  refine ⟨fun i => ?_, fun i => ?_, ?_, ?_⟩
  · rw [List.filter_append, List.filter_append, h.by_id, List.drop_append_of_le_length (h.le i)]
  · rw [List.filter_append, List.length_append]; exact Nat.le_trans (h.le i) (Nat.le_add_right _ _)
  · rw [List.length_append, List.length_append]; have := h.len; omega
  · intro x hx
    rcases List.mem_append.mp hx with hx | hx
    · exact List.mem_append_left _ (h.mem x hx)
    · exact List.mem_append_right _ hx

theorem find_filter (p : DTx → Bool) (l : List DTx) : l.find? p = (l.filter p)[0]? := by
  rw [← List.head?_filter, List.head?_eq_getElem?]

theorem filter_erase_same (p : DTx → Bool) (l : List DTx) : (l.eraseP p).filter p = (l.filter p).drop 1 := by
  induction l with
  | nil => rfl
  | cons x l ih =>
    rw [List.eraseP_cons, List.filter_cons]
    cases hp : p x with
    | true => simp
    | false => simp [hp, ih]

theorem filter_erase_other (p q : DTx → Bool) (l : List DTx) (h : ∀ x, p x = true → q x = false) :
    (l.eraseP p).filter q = l.filter q := by
  induction l with
  | nil => rfl
  | cons x l ih =>
    rw [List.eraseP_cons]
    cases hp : p x with
    | true => rw [List.filter_cons, h x hp]; simp
    | false => simp [List.filter_cons, ih]

theorem q_close {l opened : List DTx} {closed : List Nat} (h : QRel l opened closed) (i : Nat) (t : DTx)
    (hn : nth opened closed i = some t) :
    (l.find? fun t => t.id == i) = some t ∧ t ∈ l ∧ QRel (l.eraseP fun t => t.id == i) opened (closed ++ [i]) := by
  have hf : (l.find? fun t => t.id == i) = some t := by
    rw [find_filter, h.by_id, List.getElem?_drop, Nat.add_zero]; exact hn
  refine ⟨hf, List.mem_of_find?_eq_some hf, ⟨fun j => ?_, fun j => ?_, ?_, ?_⟩⟩
  · rw [List.count_append, List.count_singleton]
    by_cases c : i = j
    · subst c
      rw [filter_erase_same, h.by_id, List.drop_drop]
      simp
    · rw [filter_erase_other _ _ _ (fun x hx => by
        rw [beq_iff_eq] at hx; rw [hx, beq_eq_false_iff_ne]; exact c), h.by_id]
      have : ¬ (i == j) = true := by simpa using c
      simp [this]
  · rw [List.count_append, List.count_singleton]
    have := h.le j
    by_cases c : i = j
    · subst c
      unfold nth at hn
      obtain ⟨hlt, _⟩ := List.getElem?_eq_some_iff.mp hn
      simp only [BEq.rfl, if_true]
      exact hlt
    · have hc : ¬ (i == j) = true := by simpa using c
      simpa [hc] using this
  · have hl := List.length_eraseP_of_mem (List.mem_of_find?_eq_some hf) (p := fun t : DTx => t.id == i) (List.find?_some (p := fun t : DTx => t.id == i) hf)
    have hpos := List.length_pos_of_mem (List.mem_of_find?_eq_some hf)
    rw [List.length_append, List.length_singleton]
    have := h.len
    omega
  · intro x hx; exact h.mem x (List.mem_of_mem_eraseP hx)

/-! ## The lines held -/

/-- The checker's list is the set of lines held. -/
def HRel (size : Nat) (held : List Line) (done : List CEv) : Prop :=
  ∀ a ns, a < 2 ^ 32 → size ∣ a → held.contains ⟨a, ns⟩ = holds size (a / size, ns) done

/-- An address of a line. -/
def DTx.ok (size : Nat) (t : DTx) : Prop := t.addr < 2 ^ 32 ∧ size ∣ t.addr

theorem line_eq {size : Nat} (hs : 0 < size) {t : DTx} (ht : t.ok size) {a : Nat} {ns : Bool} (hd : size ∣ a) :
    t.line = ⟨a, ns⟩ ↔ t.lineOf size = (a / size, ns) := by
  unfold DTx.line DTx.lineOf bit
  rw [Nat.mod_eq_of_lt ht.1, Line.mk.injEq, Prod.mk.injEq]
  refine and_congr_left fun _ => ?_
  obtain ⟨x, hx⟩ := ht.2
  obtain ⟨y, hy⟩ := hd
  rw [hx, hy, Nat.mul_div_cancel_left _ hs, Nat.mul_div_cancel_left _ hs]
  exact ⟨fun h => Nat.eq_of_mul_eq_mul_left hs h, fun h => by rw [h]⟩

theorem contains_push (l : List Line) (x y : Line) : (l ++ [x]).contains y = (l.contains y || decide (x = y)) := by
  by_cases h1 : y ∈ l <;> by_cases h2 : x = y <;> simp [h1, h2, eq_comm]

theorem contains_drop (l : List Line) (x y : Line) : (drop l x).contains y = (l.contains y && decide (x ≠ y)) := by
  unfold drop
  by_cases h1 : y ∈ l <;> by_cases h2 : x = y <;> simp [h1, h2, eq_comm]

theorem held_rd (l : List Line) (t : DTx) (y : Line) :
    (cdR l t).contains y = (if t.line ≠ y then none else if t.snoop ∈ [1, 2, 3, 7, 0xb, 0xc] then some true
      else if t.snoop = 9 ∨ t.snoop = 0xd then some false else none).getD (l.contains y) := by
  have ha : allocates t.snoop = decide (t.snoop ∈ [1, 2, 3, 7, 0xb, 0xc]) := by
    unfold allocates
    rw [Bool.eq_iff_iff, List.contains_iff_mem, decide_eq_true_eq]
    simp only [List.mem_cons, List.not_mem_nil, or_false]
    constructor <;> (intro h; rcases h with h | h | h | h | h | h <;> simp [h])
  have he : rdEvicts t.snoop = decide (t.snoop = 9 ∨ t.snoop = 0xd) := by
    unfold rdEvicts; rw [Bool.eq_iff_iff]; simp
  have hx : t.snoop ∈ [1, 2, 3, 7, 0xb, 0xc] → ¬ (t.snoop = 9 ∨ t.snoop = 0xd) := by
    simp only [List.mem_cons, List.not_mem_nil, or_false]
    intro h; rcases h with h | h | h | h | h | h <;> simp [h]
  unfold cdR
  rw [ha, he]
  by_cases h1 : t.snoop ∈ [1, 2, 3, 7, 0xb, 0xc]
  · have h2 := hx h1
    rw [decide_eq_true h1, decide_eq_false h2, if_pos h1]
    by_cases h3 : l.contains t.line = true
    · rw [h3]
      simp only [Bool.not_true, Bool.and_false, Bool.false_and, Bool.false_eq_true, if_false]
      by_cases h4 : t.line = y
      · rw [← h4, if_neg (by simp), h3]; rfl
      · rw [if_pos h4]; rfl
    · have h3' : l.contains t.line = false := by simpa using h3
      rw [h3']
      simp only [Bool.not_false, Bool.and_true, if_true]
      rw [contains_push]
      by_cases h4 : t.line = y
      · rw [if_neg (by simp [h4]), decide_eq_true h4, Bool.or_true]; rfl
      · rw [if_pos h4, decide_eq_false h4, Bool.or_false]; rfl
  · rw [decide_eq_false h1, if_neg h1]
    simp only [Bool.false_and, Bool.false_eq_true, if_false]
    by_cases h2 : t.snoop = 9 ∨ t.snoop = 0xd
    · rw [decide_eq_true h2, if_pos h2, Bool.true_and]
      by_cases h4 : t.line = y
      · rw [if_neg (show ¬ t.line ≠ y by simp [h4])]
        by_cases h3 : l.contains t.line = true
        · rw [if_pos h3, contains_drop, decide_eq_false (by simp [h4]), Bool.and_false]; rfl
        · have h3' : l.contains t.line = false := by simpa using h3
          rw [if_neg h3, ← h4, h3']; rfl
      · rw [if_pos (show t.line ≠ y from h4)]
        by_cases h3 : l.contains t.line = true
        · rw [if_pos h3, contains_drop, decide_eq_true h4, Bool.and_true]; rfl
        · rw [if_neg h3]; rfl
    · rw [decide_eq_false h2, if_neg h2]
      simp

/-- Dropping a line if `p`. -/
theorem held_drop (l : List Line) (x y : Line) (p : Bool) :
    (if p && l.contains x then drop l x else l).contains y =
      (if x ≠ y then none else if p = true then some false else none).getD (l.contains y) := by
  cases p with
  | false => simp
  | true =>
    rw [Bool.true_and]
    by_cases h4 : x = y
    · rw [if_neg (show ¬ x ≠ y by simp [h4]), if_pos rfl]
      by_cases h3 : l.contains x = true
      · rw [if_pos h3, contains_drop, decide_eq_false (by simp [h4]), Bool.and_false]; rfl
      · have h3' : l.contains x = false := by simpa using h3
        rw [if_neg h3, ← h4, h3']; rfl
    · rw [if_pos (show x ≠ y from h4)]
      by_cases h3 : l.contains x = true
      · rw [if_pos h3, contains_drop, decide_eq_true h4, Bool.and_true]; rfl
      · rw [if_neg h3]; rfl

theorem h_rd {size : Nat} (hs : 0 < size) {held : List Line} {done : List CEv} (h : HRel size held done) (t : DTx) (ht : t.ok size) :
    HRel size (cdR held t) (.rd t :: done) := by
  intro a ns ha hd
  rw [held_rd, holds, h a ns ha hd]
  unfold CEv.says
  dsimp only
  by_cases c : t.line = ⟨a, ns⟩
  · rw [if_neg (show ¬ t.line ≠ _ by simp [c]), if_neg (show ¬ t.lineOf size ≠ _ by simp [(line_eq hs ht hd).mp c])]
  · rw [if_pos (show t.line ≠ _ from c), if_pos (show t.lineOf size ≠ _ from fun e => c ((line_eq hs ht hd).mpr e))]

theorem h_wr {size : Nat} (hs : 0 < size) {held : List Line} {done : List CEv} (h : HRel size held done) (t : DTx) (ht : t.ok size) :
    HRel size (cdB held t) (.wr t :: done) := by
  intro a ns ha hd
  unfold cdB
  rw [held_drop, holds, h a ns ha hd]
  unfold CEv.says
  dsimp only
  have he : wrEvicts t.snoop = true ↔ (t.snoop = 3 ∨ t.snoop = 4) := by unfold wrEvicts; simp
  by_cases c : t.line = ⟨a, ns⟩
  · rw [if_neg (show ¬ t.line ≠ _ by simp [c]), if_neg (show ¬ t.lineOf size ≠ _ by simp [(line_eq hs ht hd).mp c])]
    by_cases d : t.snoop = 3 ∨ t.snoop = 4
    · rw [if_pos (he.mpr d), if_pos d]
    · rw [if_neg (fun e => d (he.mp e)), if_neg d]
  · rw [if_pos (show t.line ≠ _ from c), if_pos (show t.lineOf size ≠ _ from fun e => c ((line_eq hs ht hd).mpr e))]

theorem h_snp {size : Nat} (hs : 0 < size) {held : List Line} {done : List CEv} (h : HRel size held done) (t : DTx) (ht : t.ok size)
    (resp : Nat) : HRel size (cdCr held t resp) (.snp t resp :: done) := by
  intro a ns ha hd
  unfold cdCr
  rw [held_drop, holds, h a ns ha hd]
  unfold CEv.says
  dsimp only
  have he : (!bit resp 3) = true ↔ resp / 8 % 2 = 0 := by
    unfold bit
    have : resp / 8 % 2 = 0 ∨ resp / 8 % 2 = 1 := by omega
    rcases this with e | e <;> simp [e]
  by_cases c : t.line = ⟨a, ns⟩
  · rw [if_neg (show ¬ t.line ≠ _ by simp [c]), if_neg (show ¬ t.lineOf size ≠ _ by simp [(line_eq hs ht hd).mp c])]
    by_cases d : resp / 8 % 2 = 0
    · rw [if_pos (he.mpr d), if_pos d]
    · rw [if_neg (fun e => d (he.mp e)), if_neg d]
  · rw [if_pos (show t.line ≠ _ from c), if_pos (show t.lineOf size ≠ _ from fun e => c ((line_eq hs ht hd).mpr e))]

theorem answer_iff (held : List Line) (t : DTx) (resp : Nat) :
    checkCrresp held t resp = [] ↔ AnswerOk (held.contains t.line) t.snoop resp := by
  have hm : mustData t.snoop = true ↔ t.snoop ∈ [0, 1, 2, 3, 7] := by unfold mustData; rw [List.contains_iff_mem]
  have hb : bit resp 0 = decide (resp % 2 = 1) := by
    unfold bit
    by_cases c : resp % 2 = 1 <;> simp [c]
  unfold checkCrresp AnswerOk
  rw [hb]
  cases held.contains t.line <;> by_cases c : resp % 2 = 1 <;> by_cases d : t.snoop ∈ [0, 1, 2, 3, 7]
  all_goals first
    | (have d' := hm.mpr d; simp [c, d', d])
    | (have d' : mustData t.snoop = false := by
        cases e : mustData t.snoop with
        | true => exact absurd (hm.mp e) d
        | false => rfl
       simp [c, d', d])

/-! ## The run -/

def cdEv (depth : Nat) (s : Cd) : DEv → Cd × List CErr
  | .ar t => cdAr depth s (some t)
  | .r id last => (cdLast s (some (id, last)), [])
  | .aw t => cdAw depth s (some t)
  | .b id => (cdBid s (some id), [])
  | .ac t => cdAc depth s (some t)
  | .cr resp => cdAns s (some resp)

def cdEvRun (depth : Nat) : Cd → List DEv → List CErr
  | _, [] => []
  | s, e :: es => (cdEv depth s e).2 ++ cdEvRun depth (cdEv depth s e).1 es

theorem cdEvRun_append (depth : Nat) (s : Cd) (e : DEv) (es : List DEv) :
    cdEvRun depth s (e :: es) = (cdEv depth s e).2 ++ cdEvRun depth (cdEv depth s e).1 es := rfl

theorem cdRun_events (depth : Nat) (s : Cd) (tr : List CdClk) : (cdRun depth s tr).2 = cdEvRun depth s (dEvents tr) := by
  induction tr generalizing s with
  | nil => rfl
  | cons x t ih =>
    obtain ⟨ar, r, aw, b, ac, cr⟩ := x
    have n1 : ∀ s, cdAr depth s none = (s, []) := fun _ => rfl
    have n2 : ∀ s, cdLast s none = s := fun _ => rfl
    have n3 : ∀ s, cdAw depth s none = (s, []) := fun _ => rfl
    have n4 : ∀ s, cdBid s none = s := fun _ => rfl
    have n5 : ∀ s, cdAc depth s none = (s, []) := fun _ => rfl
    have n6 : ∀ s, cdAns s none = (s, []) := fun _ => rfl
    rw [cdRun]
    unfold cdStep
    dsimp only
    rw [ih]
    cases ar <;> cases r <;> cases aw <;> cases b <;> cases ac <;> cases cr <;>
      simp [dEvents, cdEvRun, cdEv, n1, n2, n3, n4, n5, n6]

theorem fmN {α : Type} {f : DEv → Option α} (pre : List DEv) {e : DEv} (h : f e = none) : (pre ++ [e]).filterMap f = pre.filterMap f := by
  rw [List.filterMap_append, List.filterMap_cons_none h, List.filterMap_nil, List.append_nil]

theorem fmS {α : Type} {f : DEv → Option α} (pre : List DEv) {e : DEv} {x : α} (h : f e = some x) :
    (pre ++ [e]).filterMap f = pre.filterMap f ++ [x] := by
  rw [List.filterMap_append, List.filterMap_cons_some h, List.filterMap_nil]

structure CdRel (size : Nat) (s : Cd) (pre : List DEv) (done : List CEv) : Prop where
  rt : QRel s.rt (pre.filterMap DEv.ar?) (pre.filterMap DEv.rid?)
  wt : QRel s.wt (pre.filterMap DEv.aw?) (pre.filterMap DEv.bid?)
  cr : s.cr = (pre.filterMap DEv.ac?).drop (pre.filterMap DEv.cr?).length
  le : (pre.filterMap DEv.cr?).length ≤ (pre.filterMap DEv.ac?).length
  held : HRel size s.held done
  ok : ∀ t, (t ∈ s.rt ∨ t ∈ s.wt ∨ t ∈ s.cr) → t.ok size

theorem pushD_ok {depth : Nat} {l : List DTx} (t : DTx) (h : l.length < depth) : pushD depth l (some t) = (l ++ [t], []) := by
  unfold pushD
  dsimp only
  rw [if_pos h]

theorem cd_step {size depth : Nat} (hs : 0 < size) {s : Cd} {pre : List DEv} {done : List CEv} (h : CdRel size s pre done) (e : DEv)
    (es : List DEv) (hq : CdQuiet size depth pre (e :: es)) :
    ((cdEv depth s e).2 = [] ↔
      ∀ t resp, completes pre e = some (.snp t resp) → AnswerOk (holds size (t.lineOf size) done) t.snoop resp) ∧
    CdRel size (cdEv depth s e).1 (pre ++ [e]) ((completes pre e).toList ++ done) := by
  obtain ⟨hr, hw, hc, hle, hh, hok⟩ := h
  cases e with
  | ar t =>
    obtain ⟨⟨h1, h2, h3⟩, _⟩ := hq
    have hp := pushD_ok (depth := depth) (l := s.rt) t (by have := hr.len; omega)
    have he : cdEv depth s (.ar t) = ({ s with rt := s.rt ++ [t] }, []) := by
      show cdAr depth s (some t) = _
      unfold cdAr; rw [hp]
    rw [he]
    refine ⟨⟨fun _ _ _ e => (nomatch e), fun _ => rfl⟩, ⟨?_, ?_, ?_, ?_, hh, ?_⟩⟩
    · rw [fmS (x := t) _ rfl, fmN (f := DEv.rid?) _ rfl]; exact q_push hr t
    · rw [fmN _ rfl, fmN _ rfl]; exact hw
    · rw [fmN _ rfl, fmN _ rfl]; exact hc
    · rw [fmN _ rfl, fmN _ rfl]; exact hle
    · rintro x (hx | hx)
      · rcases List.mem_append.mp hx with hx | hx
        · exact hok x (Or.inl hx)
        · rw [List.mem_singleton] at hx; rw [hx]; exact ⟨h1, h2⟩
      · exact hok x (Or.inr hx)
  | aw t =>
    obtain ⟨⟨h1, h2, h3⟩, _⟩ := hq
    have hp := pushD_ok (depth := depth) (l := s.wt) t (by have := hw.len; omega)
    have he : cdEv depth s (.aw t) = ({ s with wt := s.wt ++ [t] }, []) := by
      show cdAw depth s (some t) = _
      unfold cdAw; rw [hp]
    rw [he]
    refine ⟨⟨fun _ _ _ e => (nomatch e), fun _ => rfl⟩, ⟨?_, ?_, ?_, ?_, hh, ?_⟩⟩
    · rw [fmN _ rfl, fmN _ rfl]; exact hr
    · rw [fmS (x := t) _ rfl, fmN (f := DEv.bid?) _ rfl]; exact q_push hw t
    · rw [fmN _ rfl, fmN _ rfl]; exact hc
    · rw [fmN _ rfl, fmN _ rfl]; exact hle
    · rintro x (hx | hx | hx)
      · exact hok x (Or.inl hx)
      · rcases List.mem_append.mp hx with hx | hx
        · exact hok x (Or.inr (Or.inl hx))
        · rw [List.mem_singleton] at hx; rw [hx]; exact ⟨h1, h2⟩
      · exact hok x (Or.inr (Or.inr hx))
  | ac t =>
    obtain ⟨⟨h1, h2, h3⟩, _⟩ := hq
    have hp := pushD_ok (depth := depth) (l := s.cr) t (by rw [hc, List.length_drop]; omega)
    have he : cdEv depth s (.ac t) = ({ s with cr := s.cr ++ [t] }, []) := by
      show cdAc depth s (some t) = _
      unfold cdAc; rw [hp]
    rw [he]
    refine ⟨⟨fun _ _ _ e => (nomatch e), fun _ => rfl⟩, ⟨?_, ?_, ?_, ?_, hh, ?_⟩⟩
    · rw [fmN _ rfl, fmN _ rfl]; exact hr
    · rw [fmN _ rfl, fmN _ rfl]; exact hw
    · rw [List.filterMap_append, List.filterMap_append]
      simp only [DEv.ac?, DEv.cr?, List.filterMap_cons, List.filterMap_nil, List.append_nil]
      rw [List.drop_append_of_le_length hle, hc]
    · rw [List.filterMap_append, List.filterMap_append, List.length_append, List.length_append]
      simp only [DEv.ac?, DEv.cr?, List.filterMap_cons, List.filterMap_nil, List.length_nil, List.length_singleton]
      omega
    · rintro x (hx | hx | hx)
      · exact hok x (Or.inl hx)
      · exact hok x (Or.inr (Or.inl hx))
      · rcases List.mem_append.mp hx with hx | hx
        · exact hok x (Or.inr (Or.inr hx))
        · rw [List.mem_singleton] at hx; rw [hx]; exact ⟨h1, h2⟩
  | r id last =>
    cases last with
    | false =>
      refine ⟨⟨fun _ _ _ e => (nomatch e), fun _ => rfl⟩, ⟨?_, ?_, ?_, ?_, hh, hok⟩⟩
      · rw [fmN _ rfl, fmN _ rfl]; exact hr
      · rw [fmN _ rfl, fmN _ rfl]; exact hw
      · rw [fmN _ rfl, fmN _ rfl]; exact hc
      · rw [fmN _ rfl, fmN _ rfl]; exact hle
    | true =>
      have hne := hq.1 rfl
      unfold completes at hne ⊢
      dsimp only at hne ⊢
      cases hn : nth (pre.filterMap DEv.ar?) (pre.filterMap DEv.rid?) id with
      | none => rw [hn] at hne; exact absurd rfl hne
      | some t =>
        obtain ⟨hf, hm, hq'⟩ := q_close hr id t hn
        have he : cdEv depth s (.r id true) =
            ({ s with rt := s.rt.eraseP fun (t : DTx) => t.id == id, held := cdR s.held t }, []) := by
          show (cdLast s (some (id, true)), []) = _
          unfold cdLast
          dsimp only
          rw [hf]
        rw [he]
        refine ⟨⟨fun _ _ _ e => (nomatch e), fun _ => rfl⟩, ⟨?_, ?_, ?_, ?_, h_rd hs hh t (hok t (Or.inl hm)), ?_⟩⟩
        · rw [fmN (f := DEv.ar?) _ rfl, fmS (x := id) _ rfl]; exact hq'
        · rw [fmN _ rfl, fmN _ rfl]; exact hw
        · rw [fmN _ rfl, fmN _ rfl]; exact hc
        · rw [fmN _ rfl, fmN _ rfl]; exact hle
        · rintro x (hx | hx)
          · exact hok x (Or.inl (List.mem_of_mem_eraseP hx))
          · exact hok x (Or.inr hx)
  | b id =>
    have hne := hq.1
    unfold completes at hne ⊢
    dsimp only at hne ⊢
    cases hn : nth (pre.filterMap DEv.aw?) (pre.filterMap DEv.bid?) id with
    | none => rw [hn] at hne; exact absurd rfl hne
    | some t =>
      obtain ⟨hf, hm, hq'⟩ := q_close hw id t hn
      have he : cdEv depth s (.b id) =
          ({ s with wt := s.wt.eraseP fun (t : DTx) => t.id == id, held := cdB s.held t }, []) := by
        show (cdBid s (some id), []) = _
        unfold cdBid
        dsimp only
        rw [hf]
      rw [he]
      refine ⟨⟨fun _ _ _ e => (nomatch e), fun _ => rfl⟩, ⟨?_, ?_, ?_, ?_, h_wr hs hh t (hok t (Or.inr (Or.inl hm))), ?_⟩⟩
      · rw [fmN _ rfl, fmN _ rfl]; exact hr
      · rw [fmN (f := DEv.aw?) _ rfl, fmS (x := id) _ rfl]; exact hq'
      · rw [fmN _ rfl, fmN _ rfl]; exact hc
      · rw [fmN _ rfl, fmN _ rfl]; exact hle
      · rintro x (hx | hx | hx)
        · exact hok x (Or.inl hx)
        · exact hok x (Or.inr (Or.inl (List.mem_of_mem_eraseP hx)))
        · exact hok x (Or.inr (Or.inr hx))
  | cr resp =>
    have hne := hq.1
    unfold completes at hne ⊢
    dsimp only at hne ⊢
    cases hn : (pre.filterMap DEv.ac?)[(pre.filterMap DEv.cr?).length]? with
    | none => rw [hn] at hne; exact absurd rfl hne
    | some t =>
      obtain ⟨hlt, hget⟩ := List.getElem?_eq_some_iff.mp hn
      have hc' : s.cr = t :: (pre.filterMap DEv.ac?).drop ((pre.filterMap DEv.cr?).length + 1) := by
        rw [hc, List.drop_eq_getElem_cons hlt, hget]
      have htok : t.ok size := hok t (Or.inr (Or.inr (by rw [hc']; exact List.mem_cons_self ..)))
      have he : cdEv depth s (.cr resp) =
          ({ s with cr := (pre.filterMap DEv.ac?).drop ((pre.filterMap DEv.cr?).length + 1), held := cdCr s.held t resp },
            checkCrresp s.held t resp) := by
        show cdAns s (some resp) = _
        unfold cdAns
        dsimp only
        rw [hc']
      rw [he]
      refine ⟨?_, ⟨?_, ?_, ?_, ?_, h_snp hs hh t htok resp, ?_⟩⟩
      · show checkCrresp s.held t resp = [] ↔ _
        have hl : s.held.contains t.line = holds size (t.lineOf size) done := by
          have := hh t.addr (bit t.prot 1) htok.1 htok.2
          rw [← (line_eq hs htok htok.2).mp (show t.line = ⟨t.addr, bit t.prot 1⟩ by unfold DTx.line; rw [Nat.mod_eq_of_lt htok.1])] at this
          rw [← this]
          unfold DTx.line
          rw [Nat.mod_eq_of_lt htok.1]
        rw [answer_iff, hl]
        constructor
        · intro ha t' r' e
          rw [Option.map_some, Option.some.injEq, CEv.snp.injEq] at e
          rw [← e.1, ← e.2]; exact ha
        · intro ha; exact ha t resp rfl
      · rw [fmN _ rfl, fmN _ rfl]; exact hr
      · rw [fmN _ rfl, fmN _ rfl]; exact hw
      · rw [List.filterMap_append, List.filterMap_append]
        simp only [DEv.ac?, DEv.cr?, List.filterMap_cons, List.filterMap_nil, List.append_nil, List.length_append, List.length_singleton]
      · rw [List.filterMap_append, List.filterMap_append]
        simp only [DEv.ac?, DEv.cr?, List.filterMap_cons, List.filterMap_nil, List.append_nil, List.length_append, List.length_singleton]
        exact hlt
      · rintro x (hx | hx | hx)
        · exact hok x (Or.inl hx)
        · exact hok x (Or.inr (Or.inl hx))
        · exact hok x (Or.inr (Or.inr (by rw [hc']; exact List.mem_cons_of_mem _ hx)))

theorem cd_run {size depth : Nat} (hs : 0 < size) (es : List DEv) (s : Cd) (pre : List DEv) (done : List CEv) (h : CdRel size s pre done)
    (hq : CdQuiet size depth pre es) : cdEvRun depth s es = [] ↔ CdLegal size pre done es := by
  induction es generalizing s pre done with
  | nil => simp [cdEvRun, CdLegal]
  | cons e es ih =>
    obtain ⟨h1, h2⟩ := cd_step hs h e es hq
    rw [cdEvRun, List.append_eq_nil_iff, CdLegal, h1, ih _ _ _ h2 hq.2]

/-- **The checker of snoop data reports exactly the traces in which a snoop of a line in the cache is not answered with
data though it should be, or one of a line not in the cache is answered with data**, whatever the interleaving of reads, writes
and snoops.  Missing for the full property: addresses above 4 GiB, or inside a line, as wrapping bursts have them
(`far_line_false_alarm`, `wrapped_line_false_alarm`), DVM messages (`dvm_forgets_line`), lines the cache drops without a transaction,
more than `max_depth` transactions, reset. -/
theorem snoop_data_exact_partial (size depth : Nat) (hs : 0 < size) (tr : List CdClk) (hq : CdQuiet size depth [] (dEvents tr)) :
    (cdRun depth {} tr).2 = [] ↔ CdLegal size [] [] (dEvents tr) := by
  rw [cdRun_events]
  refine cd_run hs _ {} [] [] ⟨⟨fun _ => rfl, fun _ => Nat.le_refl _, rfl, fun _ h => h⟩, ⟨fun _ => rfl, fun _ => Nat.le_refl _, rfl, fun _ h => h⟩,
    rfl, Nat.le_refl _, fun _ _ _ _ => rfl, ?_⟩ hq
  rintro t (h | h | h) <;> cases h

/-! ## Concrete traces -/

instance (h : Bool) (s r : Nat) : Decidable (AnswerOk h s r) := inferInstanceAs (Decidable (_ ∧ _))

def cdLegalB (size : Nat) : List DEv → List CEv → List DEv → Bool
  | _, _, [] => true
  | pre, done, e :: es =>
    (match completes pre e with
      | some (.snp t resp) => decide (AnswerOk (holds size (t.lineOf size) done) t.snoop resp)
      | _ => true) && cdLegalB size (pre ++ [e]) ((completes pre e).toList ++ done) es

theorem cdLegalB_iff (size : Nat) (pre : List DEv) (done : List CEv) (es : List DEv) :
    cdLegalB size pre done es = true ↔ CdLegal size pre done es := by
  induction es generalizing pre done with
  | nil => simp [cdLegalB, CdLegal]
  | cons e es ih =>
    rw [cdLegalB, CdLegal, Bool.and_eq_true, ih]
    refine and_congr_left fun _ => ?_
    cases completes pre e with
    | none => simp
    | some c => cases c <;> simp

/-- A line is read, snooped and kept, snooped and given up, snooped once more; another one is read and written back. -/
def sampleCd : List CdClk :=
  [{ ar := some ⟨1, 64, 1, 0⟩ }, { ar := some ⟨2, 128, 7, 0⟩, r := some (1, false) }, { r := some (1, true), ac := some ⟨0, 64, 1, 0⟩ },
   { cr := some 9, r := some (2, true), aw := some ⟨3, 128, 3, 0⟩ }, { ac := some ⟨0, 64, 7, 0⟩ }, { cr := some 5, b := some 3 },
   { ac := some ⟨0, 64, 1, 0⟩ }, { ac := some ⟨0, 128, 1, 0⟩, cr := some 0 }, { cr := some 0 }]

theorem sampleCd_quiet : CdQuiet 64 64 [] (dEvents sampleCd) := by
  unfold sampleCd
  simp only [dEvents, Option.toList, List.map_cons, List.map_nil, List.nil_append, List.cons_append, List.append_nil, CdQuiet]
  decide +kernel

example : CdQuiet 64 64 [] (dEvents sampleCd) ∧ CdLegal 64 [] [] (dEvents sampleCd) :=
  ⟨sampleCd_quiet, (cdLegalB_iff ..).mp (by decide +kernel)⟩

/-- Without the answer to the write, the data of line 128 are missing. -/
example : (cdRun 64 {} (sampleCd.map fun x => { x with b := none })).2 = [.missing] := by decide +kernel

/-- The trace is legal, yet an error is reported. -/
def DFalseAlarm (tr : List CdClk) : Prop := CdLegal 64 [] [] (dEvents tr) ∧ (cdRun 64 {} tr).2 ≠ []

/-- A line read above 4 GiB is taken for the one 4 GiB below. -/
theorem far_line_false_alarm :
    DFalseAlarm [{ ar := some ⟨1, 2 ^ 32 + 64, 1, 0⟩ }, { r := some (1, true) }, { ac := some ⟨0, 64, 1, 0⟩ }, { cr := some 0 }] :=
  ⟨(cdLegalB_iff ..).mp (by decide +kernel), by decide +kernel⟩

/-- A line read by a wrapping burst from its middle is kept under that address: its data are unexpected when it is snooped. -/
theorem wrapped_line_false_alarm :
    DFalseAlarm [{ ar := some ⟨1, 80, 1, 0⟩ }, { r := some (1, true) }, { ac := some ⟨0, 64, 1, 0⟩ }, { cr := some 9 }] :=
  ⟨(cdLegalB_iff ..).mp (by decide +kernel), by decide +kernel⟩

/-- The answer to a DVM message, which never has `IsShared`, makes the checker forget the line whose address the message looks
like: data the cache then gives for it are reported. -/
theorem dvm_forgets_line (a : Nat) :
    (cdRun 64 {} [{ ar := some ⟨1, a, 1, 0⟩ }, { r := some (1, true) }, { ac := some ⟨0, a, 0xf, 0⟩ }, { cr := some 0 },
      { ac := some ⟨0, a, 1, 0⟩ }, { cr := some 9 }]).2 = [.extra] := by
  simp [cdRun, cdStep, cdAr, cdLast, cdAw, cdBid, cdAc, cdAns, pushD, cdR, allocates, DTx.line, bit, checkCrresp, mustData, cdCr, drop]

end Verif.PcAce
