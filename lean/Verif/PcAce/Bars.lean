import Verif.PcAce.Reads

/-! # C72: barrier pairs under the ACE checker -/

namespace Verif.PcAce

/-! ## Specification -/

/-- The barriers in the order of their acceptance, `true` for the read channel. -/
def barEvents : List (Option Bar × Option Bar) → List (Bool × Bar)
  | [] => []
  | x :: t => (x.1.toList.map fun b => (true, b)) ++ (x.2.toList.map fun b => (false, b)) ++ barEvents t

/-- The barriers of one channel, in order; other accesses have `AxBAR` 0. -/
def chan (rd : Bool) (evs : List (Bool × Bar)) : List Bar := (evs.filter fun e => e.1 == rd && e.2.bar != 0).map (·.2)

/-- Never more than `depth` barriers on one channel ahead of the other. -/
def BarWithin (depth : Nat) (evs : List (Bool × Bar)) : Prop :=
  ∀ pre, pre <+: evs → (chan true pre).length ≤ (chan false pre).length + depth ∧
    (chan false pre).length ≤ (chan true pre).length + depth

/-- The `k`-th barriers of both channels are the two halves of one barrier: equal in everything. -/
def Agree (r w : List Bar) : Prop := ∀ (k : Nat) (x y : Bar), r[k]? = some x → w[k]? = some y → x = y

/-! ## Proof -/

def barEv (depth : Nat) (s : Bs) (e : Bool × Bar) : Bs × List BErr :=
  if e.1 then barAr depth s (some e.2) else barAw depth s (some e.2)

def barEvRun (depth : Nat) : Bs → List (Bool × Bar) → List BErr
  | _, [] => []
  | s, e :: es => (barEv depth s e).2 ++ barEvRun depth (barEv depth s e).1 es

theorem barRun_events (depth : Nat) (s : Bs) (tr : List (Option Bar × Option Bar)) :
    (barRun depth s tr).2 = barEvRun depth s (barEvents tr) := by
  induction tr generalizing s with
  | nil => rfl
  | cons x t ih =>
    obtain ⟨r, w⟩ := x
    have n1 : ∀ s, barAr depth s none = (s, []) := fun _ => rfl
    have n2 : ∀ s, barAw depth s none = (s, []) := fun _ => rfl
    cases r <;> cases w <;> simp [barRun, barStep, barEvents, barEvRun, barEv, n1, n2, ih]

/-- What the checker keeps after the read barriers `r` and the write barriers `w`. -/
def barOf (r w : List Bar) : Bs := ⟨r.drop w.length, w.drop r.length⟩

theorem agree_snoc (r w : List Bar) (b : Bar) : Agree (r ++ [b]) w ↔ Agree r w ∧ ∀ y, w[r.length]? = some y → b = y := by
  constructor
  · intro h
    refine ⟨fun k x y hx hy => h k x y ?_ hy, fun y hy => h r.length b y (by simp) hy⟩
    rw [List.getElem?_append_left (List.getElem?_eq_some_iff.mp hx).1]; exact hx
  · rintro ⟨h1, h2⟩ k x y hx hy
    rcases Nat.lt_trichotomy k r.length with c | c | c
    · rw [List.getElem?_append_left c] at hx; exact h1 k x y hx hy
    · subst c
      simp at hx
      rw [← hx]; exact h2 y hy
    · rw [List.getElem?_eq_none (by simp; omega)] at hx; cases hx

theorem agree_symm (r w : List Bar) : Agree r w ↔ Agree w r :=
  ⟨fun h k x y hx hy => (h k y x hy hx).symm, fun h k x y hx hy => (h k y x hy hx).symm⟩

theorem kept_eq (b : Bar) (h : b.id < 256) : b.kept = b := by
  obtain ⟨id, p, d, r⟩ := b
  unfold Bar.kept
  rw [Bar.mk.injEq]
  exact ⟨Nat.mod_eq_of_lt h, rfl, rfl, rfl⟩

/-- A read barrier is accepted. -/
theorem bar_ar (depth : Nat) (hd : 0 < depth) (r w : List Bar) (b : Bar) (hb : b.bar ≠ 0) (hid : b.id < 256)
    (h : r.length < w.length + depth) :
    (barAr depth (barOf r w) (some b)).1 = barOf (r ++ [b]) w ∧
      ((barAr depth (barOf r w) (some b)).2 = [] ↔ ∀ y, w[r.length]? = some y → b = y) := by
  unfold barAr
  dsimp only
  have hlen : (barOf r w).r.length < depth := by
    unfold barOf
    dsimp only
    rw [List.length_drop]
    omega
  rw [if_neg hb, if_pos hlen, kept_eq b hid]
  have hw : (barOf r w).w = w.drop r.length := rfl
  rcases Nat.lt_or_ge r.length w.length with c | c
  · have hc : w.drop r.length = w[r.length] :: w.drop (r.length + 1) := List.drop_eq_getElem_cons c
    rw [hw, hc]
    dsimp only
    constructor
    · unfold barOf
      dsimp only
      rw [List.drop_eq_nil_of_le (show r.length ≤ w.length by omega),
        List.drop_eq_nil_of_le (show (r ++ [b]).length ≤ w.length by simp; omega), List.length_append, List.length_singleton]
    · rw [err_nil, decide_eq_true_eq, List.getElem?_eq_getElem c]
      constructor
      · intro h y hy; cases hy; exact h.symm
      · intro h; exact (h _ rfl).symm
  · have hc : w.drop r.length = [] := List.drop_eq_nil_of_le c
    rw [hw, hc]
    dsimp only
    constructor
    · unfold barOf
      dsimp only
      rw [List.drop_append_of_le_length c, List.drop_eq_nil_of_le (show w.length ≤ (r ++ [b]).length by simp; omega)]
    · rw [List.getElem?_eq_none c]
      exact ⟨fun _ y hy => (nomatch hy), fun _ => rfl⟩

/-- A write barrier is accepted. -/
theorem bar_aw (depth : Nat) (hd : 0 < depth) (r w : List Bar) (b : Bar) (hb : b.bar ≠ 0) (hid : b.id < 256)
    (h : w.length < r.length + depth) :
    (barAw depth (barOf r w) (some b)).1 = barOf r (w ++ [b]) ∧
      ((barAw depth (barOf r w) (some b)).2 = [] ↔ ∀ y, r[w.length]? = some y → b = y) := by
  obtain ⟨h1, h2⟩ := bar_ar depth hd w r b hb hid h
  have e : ∀ s : Bs, barAw depth s (some b) =
      (⟨(barAr depth ⟨s.w, s.r⟩ (some b)).1.w, (barAr depth ⟨s.w, s.r⟩ (some b)).1.r⟩, (barAr depth ⟨s.w, s.r⟩ (some b)).2) := by
    intro s
    unfold barAw barAr
    dsimp only
    rw [if_neg hb, if_neg hb]
    by_cases hd : s.w.length < depth
    · rw [if_pos hd, if_pos hd]
      cases s.r <;> rfl
    · rw [if_neg hd, if_neg hd]
  have e' : (⟨(barOf r w).w, (barOf r w).r⟩ : Bs) = barOf w r := rfl
  rw [e, e', h1]
  exact ⟨rfl, h2⟩

theorem chan_cons (rd : Bool) (e : Bool × Bar) (es : List (Bool × Bar)) :
    chan rd (e :: es) = (if e.1 == rd && e.2.bar != 0 then [e.2] else []) ++ chan rd es := by
  unfold chan
  rw [List.filter_cons]
  by_cases c : (e.1 == rd && e.2.bar != 0) = true
  · rw [if_pos c, if_pos c]; rfl
  · rw [if_neg c, if_neg c]; rfl

theorem agree_take {r w r' w' : List Bar} (h : Agree (r ++ r') (w ++ w')) : Agree r w := by
  intro k x y hx hy
  exact h k x y (by rw [List.getElem?_append_left (List.getElem?_eq_some_iff.mp hx).1]; exact hx)
    (by rw [List.getElem?_append_left (List.getElem?_eq_some_iff.mp hy).1]; exact hy)

theorem bar_run (depth : Nat) (hd : 0 < depth) (es : List (Bool × Bar)) (r w : List Bar) (ha : Agree r w)
    (hid : ∀ e ∈ es, e.2.id < 256)
    (hq : ∀ pre, pre <+: es → r.length + (chan true pre).length ≤ w.length + (chan false pre).length + depth ∧
      w.length + (chan false pre).length ≤ r.length + (chan true pre).length + depth) :
    barEvRun depth (barOf r w) es = [] ↔ Agree (r ++ chan true es) (w ++ chan false es) := by
  induction es generalizing r w with
  | nil =>
    rw [barEvRun]
    unfold chan
    simpa using ha
  | cons e es ih =>
    obtain ⟨rd, b⟩ := e
    have hid' : ∀ e ∈ es, e.2.id < 256 := fun e he => hid e (List.mem_cons_of_mem _ he)
    have hb := hid (rd, b) (List.mem_cons_self ..)
    have hq1 := hq [(rd, b)] ⟨es, rfl⟩
    have hqs := fun pre (hp : pre <+: es) => hq ((rd, b) :: pre) (List.prefix_cons_inj (rd, b) |>.mpr hp)
    have hnil : ∀ x, chan x [] = [] := fun _ => rfl
    rw [barEvRun, List.append_eq_nil_iff, chan_cons, chan_cons]
    simp only [chan_cons] at hq1 hqs
    by_cases hz : b.bar = 0
    · have hs : barEv depth (barOf r w) (rd, b) = (barOf r w, []) := by
        unfold barEv barAr barAw
        dsimp only
        rw [if_pos hz, if_pos hz]
        cases rd <;> rfl
      have hn : (b.bar != 0) = false := by simp [hz]
      rw [hs, hn, Bool.and_false, Bool.and_false]
      simp only [hn, Bool.and_false, Bool.false_eq_true, if_false, List.nil_append] at hqs ⊢
      rw [ih r w ha hid' hqs]
      simp
    · have hn : (b.bar != 0) = true := by simp [hz]
      cases rd with
      | true =>
        have t1 : ((true == true) && b.bar != 0) = true := by rw [hn]; rfl
        have t2 : ((true == false) && b.bar != 0) = false := by rw [hn]; rfl
        simp only [t1, t2, if_true, Bool.false_eq_true, if_false, List.nil_append, List.length_append, List.length_singleton, hnil,
          List.length_nil] at hq1 hqs ⊢
        obtain ⟨h1, h2⟩ := bar_ar depth hd r w b hz hb (by omega)
        have hs : barEv depth (barOf r w) (true, b) = barAr depth (barOf r w) (some b) := rfl
        rw [hs, h1, h2, ← List.append_assoc]
        have ih' := fun ha => ih (r ++ [b]) w ha hid' (fun pre hp => by
          have := hqs pre hp
          rw [List.length_append, List.length_singleton]
          omega)
        constructor
        · rintro ⟨e1, e2⟩
          exact (ih' ((agree_snoc ..).mpr ⟨ha, e1⟩)).mp e2
        · intro h
          have ha' := agree_take h
          exact ⟨((agree_snoc ..).mp ha').2, (ih' ha').mpr h⟩
      | false =>
        have t1 : ((false == true) && b.bar != 0) = false := by rw [hn]; rfl
        have t2 : ((false == false) && b.bar != 0) = true := by rw [hn]; rfl
        simp only [t1, t2, if_true, Bool.false_eq_true, if_false, List.nil_append, List.length_append, List.length_singleton, hnil,
          List.length_nil] at hq1 hqs ⊢
        obtain ⟨h1, h2⟩ := bar_aw depth hd r w b hz hb (by omega)
        have hs : barEv depth (barOf r w) (false, b) = barAw depth (barOf r w) (some b) := rfl
        rw [hs, h1, h2, ← List.append_assoc]
        have ih' := fun ha => ih r (w ++ [b]) ha hid' (fun pre hp => by
          have := hqs pre hp
          rw [List.length_append, List.length_singleton]
          omega)
        constructor
        · rintro ⟨e1, e2⟩
          exact (ih' ((agree_symm ..).mp ((agree_snoc ..).mpr ⟨(agree_symm ..).mp ha, e1⟩))).mp e2
        · intro h
          have ha' := agree_take h
          exact ⟨((agree_snoc ..).mp ((agree_symm ..).mp ha')).2, (ih' ha').mpr h⟩

/-- **The barrier checker reports exactly the traces in which some barrier of the read channel differs from its
counterpart on the write channel**, in whatever order the two channels issue them.  Missing for the full property:
identifiers of more than 8 bits (`wide_barriers_missed`), accesses that ignore barriers
(`ignore_barriers_pair_false_alarm`), more than `max_depth` unpaired barriers, reset, barriers that never get a counterpart. -/
theorem barrier_pairs_exact_partial (depth : Nat) (hd : 0 < depth) (tr : List (Option Bar × Option Bar))
    (hid : ∀ e ∈ barEvents tr, e.2.id < 256) (hq : BarWithin depth (barEvents tr)) :
    (barRun depth {} tr).2 = [] ↔ Agree (chan true (barEvents tr)) (chan false (barEvents tr)) := by
  rw [barRun_events]
  have := bar_run depth hd (barEvents tr) [] [] (fun k x y hx _ => by simp at hx) hid
    (fun pre hp => by have := hq pre hp; simpa using this)
  rw [List.nil_append, List.nil_append] at this
  exact this

/-! ## Concrete traces -/

def sampleBar : List (Option Bar × Option Bar) :=
  [(some { id := 1, domain := 1, bar := 3 }, none), (some { id := 2 }, some { id := 7, bar := 0 }),
   (none, some { id := 1, domain := 1, bar := 3 }), (none, some { id := 2 }), (some { id := 3 }, some { id := 3 })]

theorem barWithin_of (depth : Nat) (evs : List (Bool × Bar)) (h : evs.length ≤ depth) : BarWithin depth evs := by
  intro pre hp
  have h1 : ∀ rd, (chan rd pre).length ≤ depth := by
    intro rd
    unfold chan
    rw [List.length_map]
    exact Nat.le_trans (List.length_filter_le _ _) (Nat.le_trans hp.length_le h)
  have := h1 true
  have := h1 false
  omega

example : (∀ e ∈ barEvents sampleBar, e.2.id < 256) ∧ BarWithin 64 (barEvents sampleBar) ∧ (barRun 64 {} sampleBar).2 = [] :=
  ⟨by decide, barWithin_of _ _ (by decide), by decide⟩

example : (barRun 64 {} (sampleBar ++ [(some { id := 4 }, none), (none, some { id := 4, domain := 2 })])).2 = [.pair] := by decide

/-- Barriers whose identifiers differ only beyond bit 7 pass for a pair. -/
theorem wide_barriers_missed (i : Nat) : (barRun 64 {} [(some { id := i }, none), (none, some { id := i + 256 })]).2 = [] := by
  have : (i + 256) % 256 = i % 256 := by omega
  simp [barRun, barStep, barAr, barAw, Bar.kept, err, this]

/-- Reads that ignore barriers (`ARBAR` 2) are taken for barriers, and the next write barrier for their counterpart. -/
theorem ignore_barriers_pair_false_alarm :
    (barRun 64 {} [(some { id := 5, bar := 2 }, none), (some { id := 1 }, none), (none, some { id := 1 })]).2 = [.pair] := by
  decide

end Verif.PcAce
