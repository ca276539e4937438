import Verif.LinkPair.Spec

/-!
# Both directions of a CXS link: lemmas
-/

namespace Verif.LinkPair

theorem run_append (p : Pair) (xs ys : List Op) : run p (xs ++ ys) = run (run p xs) ys := by
  induction xs generalizing p with
  | nil => rfl
  | cons o t ih => exact ih (step p o)

structure CInv (d : Dir) : Prop where
  total : d.tx + d.rx + d.gnt.toNat + d.back.toNat = 15
  stop : d.req = false → d.ack = false → d.rx = 15
  flag : d.deact = true → d.req = true

theorem cinv_start : CInv .start := ⟨rfl, fun _ _ => rfl, fun h => nomatch h⟩

theorem cinv_tick {d : Dir} (h : CInv d) (down : Bool) (c : Choice) : CInv (dirTick d down c) := by
  obtain ⟨req, ack, gnt, back, tx, rx, want, deact⟩ := d
  obtain ⟨h1, h2, h3⟩ := h
  dsimp only at h1 h2 h3
  obtain ⟨send, last⟩ := c
  constructor
  · cases req <;> cases ack <;> cases gnt <;> cases back <;>
      simp only [dirTick, rxTick, txTick, Dir.state, linkState, Bool.toNat_true, Bool.toNat_false, if_true, if_false, Bool.false_eq_true] at * <;>
      (try (have := h2 trivial trivial)) <;> (repeat' split) <;> simp_all <;> omega
  · cases req <;> cases ack <;> cases gnt <;> cases back <;> cases last <;>
      simp only [dirTick, rxTick, txTick, ackTick, reqTick, maxCredits, Dir.state, linkState, Bool.toNat_true, Bool.toNat_false, if_true, if_false, Bool.false_eq_true] at * <;>
      (try (have := h2 trivial trivial)) <;> intro e1 e2 <;> (repeat' split at e1) <;> (repeat' split at e2) <;> simp_all <;> omega
  · cases req <;> cases ack <;> cases deact <;> cases down <;> cases want <;>
      simp only [dirTick, reqTick, Dir.state, linkState] at * <;> simp_all

/-- Credits still to come back. -/
def away (d : Dir) : Nat := 2 * (d.tx + d.gnt.toNat) + d.back.toNat

def rank0 (d : Dir) : Nat :=
  match d.state with
  | .stop => 0
  | .deactivate => 1 + away d
  | .run => 40
  | .activate => 41

def rank1 (d : Dir) : Nat :=
  match d.state with
  | .run => if d.deact then 41 else 0
  | .activate => if d.deact then 42 else 1
  | .stop => 2
  | .deactivate => 3 + away d

theorem away_le {d : Dir} (h : CInv d) : away d ≤ 30 := by
  have := h.total; unfold away; omega

theorem rank0_next {d : Dir} (h : CInv d) (hw : d.want = false) (down : Bool) (c : Choice) :
    rank0 (dirTick d down c) ≤ rank0 d - 1 := by
  have hn := away_le (cinv_tick h down c)
  obtain ⟨req, ack, gnt, back, tx, rx, want, deact⟩ := d
  obtain ⟨h1, h2, h3⟩ := h
  dsimp only at h1 h2 h3 hw
  obtain ⟨send, last⟩ := c
  subst hw
  cases req <;> cases ack
  · simp [rank0, dirTick, ackTick, reqTick, Dir.state, linkState]
  · cases gnt <;> cases back <;> cases last <;>
      simp only [rank0, away, dirTick, rxTick, txTick, ackTick, reqTick, maxCredits, Dir.state, linkState, Bool.toNat_true, Bool.toNat_false, if_true, if_false, Bool.false_eq_true] at * <;>
      by_cases h0 : rx = 15 <;> by_cases h4 : rx + 1 = 15 <;> by_cases h5 : 0 < tx <;> simp_all <;> omega
  · simp [rank0, dirTick, ackTick, reqTick, Dir.state, linkState]
  · simp only [rank0, dirTick, ackTick, reqTick, Dir.state, linkState, Bool.not_false, Bool.or_true, if_true] at *
    omega

theorem rank1_next {d : Dir} (h : CInv d) (hw : d.want = true) (c : Choice) :
    rank1 (dirTick d false c) ≤ rank1 d - 1 := by
  have hn := away_le (cinv_tick h false c)
  obtain ⟨req, ack, gnt, back, tx, rx, want, deact⟩ := d
  obtain ⟨h1, h2, h3⟩ := h
  dsimp only at h1 h2 h3 hw
  obtain ⟨send, last⟩ := c
  subst hw
  cases req <;> cases ack
  · cases deact
    · simp [rank1, dirTick, ackTick, reqTick, Dir.state, linkState]
    · simp at h3
  · cases gnt <;> cases back <;> cases last <;>
      simp only [rank1, away, dirTick, rxTick, txTick, ackTick, reqTick, maxCredits, Dir.state, linkState, Bool.toNat_true, Bool.toNat_false, if_true, if_false, Bool.false_eq_true] at * <;>
      by_cases h0 : rx = 15 <;> by_cases h4 : rx + 1 = 15 <;> by_cases h5 : 0 < tx <;> simp_all <;> omega
  · cases deact <;> simp [rank1, dirTick, ackTick, reqTick, Dir.state, linkState]
  · cases deact
    · simp [rank1, dirTick, ackTick, reqTick, Dir.state, linkState]
    · simp only [rank1, dirTick, ackTick, reqTick, Dir.state, linkState, Bool.not_true, Bool.or_false, Bool.or_true, Bool.true_or, if_true] at *
      omega

structure PInv (p : Pair) : Prop where
  a : CInv p.a
  b : CInv p.b

theorem pinv_step {p : Pair} (h : PInv p) (o : Op) : PInv (step p o) := by
  cases o with
  | setA w => exact ⟨⟨h.a.total, h.a.stop, h.a.flag⟩, h.b⟩
  | setB w => exact ⟨h.a, ⟨h.b.total, h.b.stop, h.b.flag⟩⟩
  | tick a b => exact ⟨cinv_tick h.a _ _, cinv_tick h.b _ _⟩

theorem pinv_run {p : Pair} (h : PInv p) (ops : List Op) : PInv (run p ops) := by
  induction ops generalizing p with
  | nil => exact h
  | cons o t ih => exact ih (pinv_step h o)

theorem pinv_start : PInv .start := ⟨cinv_start, cinv_start⟩

theorem want_run {p : Pair} (ops : List Op) (h : Ticks ops) : (run p ops).a.want = p.a.want ∧ (run p ops).b.want = p.b.want := by
  induction ops generalizing p with
  | nil => exact ⟨rfl, rfl⟩
  | cons o t ih =>
    obtain ⟨a, b, rfl⟩ := h o List.mem_cons_self
    exact ih fun x hx => h x (List.mem_cons_of_mem _ hx)

theorem rank0_run {p : Pair} (h : PInv p) (hw : p.a.want = false) (ops : List Op) (ht : Ticks ops) :
    rank0 (run p ops).a ≤ rank0 p.a - ops.length := by
  induction ops generalizing p with
  | nil => simp [run]
  | cons o t ih =>
    obtain ⟨a, b, rfl⟩ := ht o List.mem_cons_self
    have h1 := ih (pinv_step h (.tick a b)) hw fun x hx => ht x (List.mem_cons_of_mem _ hx)
    have h2 := rank0_next h.a hw (p.b.state == .deactivate) a
    simp only [run, List.length_cons] at *
    have h3 : rank0 (step p (.tick a b)).a ≤ rank0 p.a - 1 := h2
    omega

theorem rank0_zero {d : Dir} (h : rank0 d = 0) : d.state = .stop := by
  unfold rank0 at h
  split at h
  · assumption
  · omega
  · omega
  · omega

theorem rank1_run {p : Pair} (h : PInv p) (hw : p.a.want = false) (hw2 : p.b.want = true) (h0 : rank0 p.a = 0) (ops : List Op) (ht : Ticks ops) :
    rank1 (run p ops).b ≤ rank1 p.b - ops.length := by
  induction ops generalizing p with
  | nil => simp [run]
  | cons o t ih =>
    obtain ⟨a, b, rfl⟩ := ht o List.mem_cons_self
    have h2 := rank0_next h.a hw (p.b.state == .deactivate) a
    have h1 := ih (pinv_step h (.tick a b)) hw hw2 (by show rank0 (dirTick _ _ _) = 0; omega) fun x hx => ht x (List.mem_cons_of_mem _ hx)
    have h3 := rank1_next h.b hw2 b
    have h4 : rank1 (step p (.tick a b)).b ≤ rank1 p.b - 1 := by
      simp only [step, rank0_zero h0]; exact h3
    simp only [run, List.length_cons] at *
    omega

theorem rank1_zero {d : Dir} (h : rank1 d = 0) : d.state = .run ∧ d.deact = false := by
  unfold rank1 at h
  split at h
  · rename_i h1
    refine ⟨h1, ?_⟩
    cases hd : d.deact
    · rfl
    · simp [hd] at h
  · split at h <;> omega
  · omega
  · omega

theorem rank0_le {d : Dir} (h : CInv d) : rank0 d ≤ 41 := by
  have := away_le h
  unfold rank0; split <;> omega

theorem rank1_le {d : Dir} (h : CInv d) : rank1 d ≤ 42 := by
  have := away_le h
  unfold rank1; split <;> (try split) <;> omega

/-- In Run, wanted and not about to go down. -/
def Firm (d : Dir) : Prop := d.state = .run ∧ d.want = true ∧ d.deact = false

theorem firm_tick {d : Dir} (h : Firm d) (c : Choice) : Firm (dirTick d false c) := by
  obtain ⟨req, ack, gnt, back, tx, rx, want, deact⟩ := d
  obtain ⟨h1, h2, h3⟩ := h
  dsimp only at h2 h3
  subst h2; subst h3
  cases req <;> cases ack <;> simp [Dir.state, linkState] at h1
  simp [Firm, dirTick, ackTick, reqTick, Dir.state, linkState]

theorem firm_run {p : Pair} (ha : Firm p.a) (hb : Firm p.b) (ops : List Op) (ht : Ticks ops) : Firm (run p ops).a ∧ Firm (run p ops).b := by
  induction ops generalizing p with
  | nil => exact ⟨ha, hb⟩
  | cons o t ih =>
    obtain ⟨a, b, rfl⟩ := ht o List.mem_cons_self
    refine ih ?_ ?_ fun x hx => ht x (List.mem_cons_of_mem _ hx)
    · simp only [step, hb.1]; exact firm_tick ha a
    · simp only [step, ha.1]; exact firm_tick hb b

/-- A direction which is down comes up in two edges when the other one is firm. -/
theorem join {p : Pair} (hs : p.a.state = .stop) (hw : p.a.want = true) (hd : p.a.deact = false) (hb : Firm p.b) (a b c d : Choice) :
    Firm (step (step p (.tick a b)) (.tick c d)).a ∧ Firm (step (step p (.tick a b)) (.tick c d)).b := by
  have hb1 : Firm (step p (.tick a b)).b := by simp only [step, hs]; exact firm_tick hb b
  have ha1 : (step p (.tick a b)).a.state = .activate ∧ (step p (.tick a b)).a.want = true ∧ (step p (.tick a b)).a.deact = false := by
    simp only [step, hb.1]
    generalize p.a = x at hs hw hd
    obtain ⟨req, ack, gnt, back, tx, rx, want, deact⟩ := x
    dsimp only at hw hd
    subst hw; subst hd
    cases req <;> cases ack <;> simp [Dir.state, linkState] at hs
    simp [dirTick, ackTick, reqTick, Dir.state, linkState]
  generalize step p (.tick a b) = q at hb1 ha1
  obtain ⟨h1, h2, h3⟩ := ha1
  constructor
  · simp only [step, hb1.1]
    generalize q.a = x at h1 h2 h3
    obtain ⟨req, ack, gnt, back, tx, rx, want, deact⟩ := x
    dsimp only at h2 h3
    subst h2; subst h3
    cases req <;> cases ack <;> simp [Dir.state, linkState] at h1
    simp [Firm, dirTick, ackTick, reqTick, Dir.state, linkState]
  · simp only [step, h1]; exact firm_tick hb1 d

def Pair.swap (p : Pair) : Pair := ⟨p.b, p.a⟩

def Op.swap : Op → Op
  | .setA w => .setB w
  | .setB w => .setA w
  | .tick a b => .tick b a

theorem run_swap (p : Pair) (ops : List Op) : (run p ops).swap = run p.swap (ops.map Op.swap) := by
  induction ops generalizing p with
  | nil => rfl
  | cons o t ih => rw [run, ih]; cases o <;> rfl

theorem ticks_swap {ops : List Op} (h : Ticks ops) : Ticks (ops.map Op.swap) := by
  intro o ho
  obtain ⟨x, hx, rfl⟩ := List.mem_map.mp ho
  obtain ⟨a, b, rfl⟩ := h x hx
  exact ⟨b, a, rfl⟩

end Verif.LinkPair
