import Verif.PcAce.Reads
import Verif.PcAce.WrSpec

/-! # C72: writes under the ACE checker -/

namespace Verif.PcAce
open Verif.PcAxi (align)

/-- The bursts whose strobes the checker judges by the right lanes (`Verif.PcAxi.strobes_checked_partial`). -/
def Ax.lanesOk (bus : Nat) (a : Ax) : Prop :=
  2 ^ a.size ∣ bus ∧
    (a.burst = 1 ∨ (a.burst = 0 ∧ 2 ^ a.size ∣ a.addr) ∨
      (a.burst = 2 ∧ 2 ^ a.size ∣ a.addr ∧ bus ∣ 2 ^ a.size * (a.len + 1)))

/-- An answer to a write without data that overtakes data of an earlier write. -/
def Overtakes (q : List Wo) (id : Nat) : Prop :=
  ∃ pre o post, q = pre ++ o :: post ∧ o.a.id = id ∧ (∀ x ∈ pre, x.a.id ≠ id) ∧ o.t.data = false ∧
    ∃ x ∈ pre, x.waits = true

/-- The cases in which the checker departs from the protocol (see `Verif.PcAce.WrFaults`) are left out, and
never more than `depth` writes are outstanding. -/
def Quiet (c : Cfg) : List Wo → List WEv → Prop
  | _, [] => True
  | q, .aw a :: es =>
    q.length < c.depth ∧ a.Wf ∧ a.id < 256 ∧ a.bar ≠ 2 ∧ a.burst ≠ 3 ∧
    ∀ t, wrOf a.snoop a.domain a.bar = some t →
      (t.back = true → a.burst = 1 ∧ a.len < 16 ∧ ∀ o ∈ q, o.t.unique = false ∧ o.t ≠ .writeClean) ∧
      (t.data = true → a.lanesOk c.bus) ∧ Quiet c (q ++ [{ t := t, a := a }]) es
  | q, .w w :: es =>
    (∀ o, q.find? Wo.waits = some o → o.t = .writeLineUnique → o.n = o.a.len → PcAxi.bit w.strb (c.bus - 1) = true) ∧
      Quiet c (feed q) es
  | q, .b b :: es =>
    b.resp < 4 ∧ ¬ Overtakes q b.id ∧ Quiet c (q.eraseP fun o => o.a.id == b.id) es

/-! ## The tables -/

def wfactsB (s d b : Nat) : Bool :=
  let a := Ax.sig s d b
  checkAWSnoop true a == (wrOf s d b).isSome && checkAWSnoop false a == (wrOf s d b).any (·.lite) &&
  match wrOf s d b with
  | none => true
  | some t =>
    a.isBarrier == (t == .barrier) && a.wrLine == t.wholeLine && a.isWriteUnique == (t == .writeUnique) &&
    a.isWriteLineUnique == (t == .writeLineUnique) && a.isWriteBack == (t == .writeBack) &&
    a.isWriteClean == (t == .writeClean) && a.isWriteNoSnoop == (t == .writeNoSnoop) && a.hasData == t.data &&
    (!(t == .barrier) || s == 0)

theorem wfactsB_all : ∀ s < 16, ∀ d < 4, ∀ b < 4, b ≠ 2 → wfactsB s d b = true := by decide +kernel

structure WFacts (a : Ax) (t : WrT) : Prop where
  barrier : a.isBarrier = (t == .barrier)
  line : a.wrLine = t.wholeLine
  wu : a.isWriteUnique = (t == .writeUnique)
  wlu : a.isWriteLineUnique = (t == .writeLineUnique)
  wb : a.isWriteBack = (t == .writeBack)
  wc : a.isWriteClean = (t == .writeClean)
  wns : a.isWriteNoSnoop = (t == .writeNoSnoop)
  data : a.hasData = t.data
  zero : t = .barrier → a.snoop = 0

theorem awsnoop_iff (ace : Bool) (a : Ax) (h : a.Wf) (hb : a.bar ≠ 2) :
    checkAWSnoop ace a = true ↔ ∃ t, wrOf a.snoop a.domain a.bar = some t ∧ (ace = true ∨ t.lite = true) := by
  have hf := wfactsB_all a.snoop h.snoop a.domain h.domain a.bar h.bar hb
  unfold wfactsB at hf
  simp only [Bool.and_eq_true] at hf
  obtain ⟨⟨h1, h2⟩, _⟩ := hf
  have e : ∀ x, checkAWSnoop x a = checkAWSnoop x (Ax.sig a.snoop a.domain a.bar) := fun _ => rfl
  cases ace
  · rw [e, eq_of_beq h2]
    cases wrOf a.snoop a.domain a.bar <;> simp
  · rw [e, eq_of_beq h1]
    cases wrOf a.snoop a.domain a.bar <;> simp

theorem wfacts (a : Ax) (t : WrT) (h : a.Wf) (hb : a.bar ≠ 2) (ht : wrOf a.snoop a.domain a.bar = some t) :
    WFacts a t := by
  have hf := wfactsB_all a.snoop h.snoop a.domain h.domain a.bar h.bar hb
  unfold wfactsB at hf
  rw [ht] at hf
  simp only [Bool.and_eq_true, Bool.or_eq_true, beq_iff_eq, Bool.not_eq_true', beq_eq_false_iff_ne] at hf
  obtain ⟨_, ⟨⟨⟨⟨⟨⟨⟨⟨h1, h2⟩, h3⟩, h4⟩, h5⟩, h6⟩, h7⟩, h8⟩, h9⟩⟩ := hf
  exact ⟨h1, h2, h3, h4, h5, h6, h7, h8, fun e => h9.resolve_left (fun n => n e)⟩

/-! ## The address -/

theorem line_iff (c : Cfg) (a : Ax) (t : WrT) (hl : a.lock < 2) (hb4 : a.burst < 4) (hb : a.burst ≠ 3) (hf : WFacts a t) :
    checkLine c a = true ↔ (t.wholeLine = true → LineOk c.line c.bus a ∧ a.lock = 0) := by
  unfold checkLine
  rw [hf.line]
  by_cases hw : t.wholeLine = true
  · rw [if_pos hw]
    unfold LineOk
    have hlk : a.lock = 0 ∨ a.lock = 1 := by omega
    by_cases h1 : 2 ^ a.size = c.bus
    · by_cases h2 : c.line = c.bus * (a.len + 1)
      · by_cases h3 : a.cache / 2 % 2 = 1
        · have h2' : c.bus * (a.len + 1) = c.line := h2.symm
          have hcase : a.burst = 0 ∨ a.burst = 1 ∨ a.burst = 2 := by omega
          rcases hcase with e | e | e <;> rcases hlk with k | k <;>
            simp [h1, h2', h3, hw, e, k, Ax.modifiable, Ax.excl, align_eq_iff]
        · simp [h1, h2.symm, h3, hw, Ax.modifiable]
      · have h2' : ¬ c.bus * (a.len + 1) = c.line := fun e => h2 e.symm
        simp [h1, h2, h2', hw]
    · simp [h1, hw]
  · rw [if_neg hw]
    simp [hw]

theorem unique_iff (a : Ax) (t : WrT) (hl : a.lock < 2) (hf : WFacts a t) :
    checkUnique a = true ↔ (t = .writeUnique → (a.burst = 1 ∨ a.burst = 2) ∧ a.cache / 2 % 2 = 1 ∧ a.lock = 0) := by
  unfold checkUnique
  rw [hf.wu]
  by_cases hw : t = .writeUnique
  · have hlk : a.lock = 0 ∨ a.lock = 1 := by omega
    by_cases h1 : a.burst = 1 <;> by_cases h2 : a.burst = 2 <;> by_cases h3 : a.cache / 2 % 2 = 1 <;>
      rcases hlk with k | k <;> simp [hw, h1, h2, h3, k, Ax.modifiable, Ax.excl]
  · simp [hw]

theorem same_line (x y n : Nat) (hn : 0 < n) : align x n = align y n ↔ x / n = y / n := by
  unfold align
  constructor
  · intro h; exact Nat.eq_of_mul_eq_mul_right hn h
  · intro h; rw [h]

theorem back_iff (c : Cfg) (a : Ax) (t : WrT) (hline : 0 < c.line) (hl : a.lock < 2)
    (hq : t.back = true → a.burst = 1 ∧ a.len < 16) (hf : WFacts a t) :
    checkBack c a = true ↔ (t.back = true → BackOk c.line c.bus a) := by
  unfold checkBack
  rw [hf.wb, hf.wc]
  have hk : (t == .writeBack || t == .writeClean) = t.back := by cases t <;> rfl
  rw [hk]
  by_cases hw : t.back = true
  · obtain ⟨hb, h16⟩ := hq hw
    rw [if_pos hw]
    unfold BackOk
    have hlk : a.lock = 0 ∨ a.lock = 1 := by omega
    by_cases h1 : 2 ^ a.size = c.bus
    · rw [h1]
      by_cases h2 : c.bus * (a.len + 1) ≤ c.line
      · by_cases h3 : a.cache / 2 % 2 = 1
        · rcases hlk with k | k
          · by_cases h4 : c.bus ∣ a.addr
            · have h4' : a.addr = align a.addr c.bus := (align_eq_iff _ _).mpr h4
              rw [if_neg (by simp), if_neg (by omega), if_neg (by simp [Ax.modifiable, h3]),
                if_neg (by simp [Ax.excl, k]), if_neg (fun h => h.2 h4'), if_pos hb, decide_eq_true_eq,
                same_line _ _ _ hline]
              simp [hw, h2, h3, k, h4, hb, h16]
            · have h4' : ¬ a.addr = align a.addr c.bus := fun h => h4 ((align_eq_iff _ _).mp h)
              rw [if_neg (by simp), if_neg (by omega), if_neg (by simp [Ax.modifiable, h3]),
                if_neg (by simp [Ax.excl, k]), if_pos ⟨by omega, h4'⟩]
              simp [hw, h4]
          · rw [if_neg (by simp), if_neg (by omega), if_neg (by simp [Ax.modifiable, h3]), if_pos (by simp [Ax.excl, k])]
            simp [hw, k]
        · rw [if_neg (by simp), if_neg (by omega), if_pos (by simp [Ax.modifiable, h3])]
          simp [hw, h3]
      · rw [if_neg (by simp), if_pos (by omega)]
        simp [hw, h2]
    · simp [h1, hw]
  · rw [if_neg hw]
    simp [hw]

/-! ## The strobes -/

theorem dvd_align {x n : Nat} (h : n ∣ x) : align x n = x := ((align_eq_iff x n).mpr h).symm

theorem line_lanes (c : Cfg) (a : Ax) (n : Nat) (h : LineOk c.line c.bus a) :
    PcAxi.lanes c.bus { aw := { id := 0, addr := a.addr, len := a.len, size := a.size, burst := a.burst }, beat := n + 1 } =
      (0, c.bus - 1) := by
  obtain ⟨h1, h2, _, h3⟩ := h
  have hd : c.bus ∣ a.addr := by
    rcases h3 with ⟨_, h⟩ | ⟨_, h⟩
    · exact Nat.dvd_trans ⟨a.len + 1, h2.symm⟩ h
    · exact h
  have hn0 : a.burst ≠ 0 := by omega
  unfold PcAxi.lanes
  simp only [h1, Nat.add_sub_cancel, dvd_align hd]
  have hd2 : c.bus ∣ a.addr + n * c.bus := Nat.dvd_add hd (Nat.dvd_mul_left _ _)
  by_cases hn : n = 0
  · subst hn
    simp only [Nat.zero_add, if_true, Nat.sub_self]
    rw [Nat.add_sub_cancel_left]
  · rw [if_neg (by omega), if_pos hn0, dvd_align hd2, Nat.sub_self, Nat.zero_add]

theorem strb_iff (c : Cfg) (hbus : 0 < c.bus) (t : WrT) (a : Ax) (n : Nat) (w : W) (hf : WFacts a t) (hn : n ≤ a.len)
    (hline : t = .writeLineUnique → LineOk c.line c.bus a) (hlo : a.lanesOk c.bus)
    (htop : t = .writeLineUnique → n = a.len → PcAxi.bit w.strb (c.bus - 1) = true) :
    checkStrb c (a, n + 1) w = true ↔ StrbOk c.bus c.gaps t a n w.strb := by
  unfold checkStrb StrbOk
  dsimp only
  rw [hf.wlu]
  by_cases ht : t = .writeLineUnique
  · rw [if_pos ht, if_pos (by simp [ht]),
      PcAxi.checkWstrb_lanes c.bus false _ w.strb (line_lanes c a n (hline ht)) (Nat.zero_le _) (by omega)]
    simp only [Bool.false_eq_true, if_false, Nat.zero_le, true_and]
    by_cases hl : n + 1 = a.len + 1
    · rw [if_pos hl]
      constructor
      · rintro ⟨m, hm1, hm⟩ l hl'
        have := (hm (c.bus - 1) (by omega)).mp (htop ht (by omega))
        exact (hm l hl').mpr (by omega)
      · intro h
        exact ⟨c.bus - 1, Nat.le_refl _, fun l hl' => ⟨fun _ => by omega, fun _ => h l hl'⟩⟩
    · rw [if_neg hl]
      constructor
      · intro h l hl'; exact (h l hl').mpr (by omega)
      · intro h l hl'; exact ⟨fun _ => by omega, fun _ => h l hl'⟩
  · rw [if_neg ht, if_neg (by simp [ht])]
    refine PcAxi.strobes_checked_partial c.bus c.gaps _ n w.strb hlo.1 hbus ?_ hn
    have m : ∀ x, 2 ^ a.size ∣ x → x % 2 ^ a.size = 0 := fun x => Nat.mod_eq_zero_of_dvd
    rcases hlo.2 with h | ⟨h, hd⟩ | ⟨h, hd, hd2⟩
    · exact Or.inl h
    · exact Or.inr (Or.inl ⟨h, Or.inr (m _ hd)⟩)
    · exact Or.inr (Or.inr ⟨h, m _ hd, hd2⟩)

/-! ## The refinement -/

def wevStep (c : Cfg) (s : Wr) : WEv → Wr × List WErr
  | .aw a => wrAw c s (some a)
  | .w w => wrW c s (some w)
  | .b b => wrB s (some b)

def wevRun (c : Cfg) : Wr → List WEv → List WErr
  | _, [] => []
  | s, e :: t => (wevStep c s e).2 ++ wevRun c (wevStep c s e).1 t

theorem wrRun_events (c : Cfg) (s : Wr) (tr : List WrClk) : (wrRun c s tr).2 = wevRun c s (wevents tr) := by
  induction tr generalizing s with
  | nil => rfl
  | cons x t ih =>
    obtain ⟨aw, w, b⟩ := x
    have n1 : ∀ s, wrAw c s none = (s, []) := fun _ => rfl
    have n2 : ∀ s, wrW c s none = (s, []) := fun _ => rfl
    have n3 : ∀ s, wrB s none = (s, []) := fun _ => rfl
    cases aw <;> cases w <;> cases b <;> simp [wrRun, wrStep, wevents, wevRun, wevStep, n1, n2, n3, ih]

/-- A write under way is one that was accepted. -/
structure Fine (c : Cfg) (o : Wo) : Prop where
  wf : o.a.Wf
  bar : o.a.bar ≠ 2
  id : o.a.id < 256
  ok : AwOk c.ace c.line c.bus o.a o.t
  lanes : o.t.data = true → o.a.lanesOk c.bus

theorem Fine.facts {c : Cfg} {o : Wo} (h : Fine c o) : WFacts o.a o.t := wfacts _ _ h.wf h.bar h.ok.1

theorem Fine.key {c : Cfg} {o : Wo} (h : Fine c o) : o.a.key = o.a.id := Nat.mod_eq_of_lt h.id

/-- The two lists of the checker are the writes under way, split where data are missing. -/
structure Rel (c : Cfg) (s : Wr) (qr qw : List Wo) : Prop where
  resp : s.resp = qr.map (·.a)
  wt : s.wt = qw.map fun o => (o.a, o.n + 1)
  rdone : ∀ o ∈ qr, o.waits = false
  head : ∀ o r, qw = o :: r → o.waits = true
  tail : ∀ o ∈ qw.tail, o.n = 0
  fine : ∀ o ∈ qr ++ qw, Fine c o
  cap : (qr ++ qw).length ≤ c.depth

theorem mem_swap {qr qw : List Wo} {o : Wo} : o ∈ qw ++ qr ↔ o ∈ qr ++ qw := by
  rw [List.mem_append, List.mem_append]; exact Or.comm

theorem any_map (q : List Wo) (p : Ax → Bool) : (q.map (·.a)).any p = q.any fun o => p o.a := by
  rw [List.any_map]; rfl

theorem rel_list {c : Cfg} {s : Wr} {qr qw : List Wo} (h : Rel c s qr qw) :
    s.wt.map (·.1) ++ s.resp = (qw ++ qr).map (·.a) := by
  rw [h.resp, h.wt, List.map_append, List.map_map]; rfl

theorem not_any {α : Type} (l : List α) (p : α → Bool) : (!l.any p) = true ↔ ∀ x ∈ l, p x = false := by
  rw [Bool.not_eq_true', List.any_eq_false]
  constructor
  · intro h x hx; simpa using h x hx
  · intro h x hx; simpa using h x hx

theorem wIn_back {c : Cfg} {q : List Wo} (hf : ∀ o ∈ q, Fine c o) :
    ((!wIn (q.map (·.a)) 3) = true ∧ (!wIn (q.map (·.a)) 2) = true) ↔ ∀ o ∈ q, o.t.back = false := by
  unfold wIn
  rw [if_pos rfl, if_neg (by decide), any_map, any_map, not_any, not_any]
  constructor
  · rintro ⟨h1, h2⟩ o ho
    have f := (hf o ho).facts
    have e1 := h1 o ho
    have e2 := h2 o ho
    rw [f.wb] at e1
    rw [f.wc] at e2
    revert e1 e2
    cases o.t <;> decide
  · intro h
    constructor
    · intro o ho
      rw [(hf o ho).facts.wb]
      have := h o ho
      revert this
      cases o.t <;> decide
    · intro o ho
      rw [(hf o ho).facts.wc]
      have := h o ho
      revert this
      cases o.t <;> decide

theorem clean_none {c : Cfg} {q : List Wo} (hf : ∀ o ∈ q, Fine c o) (h : ∀ o ∈ q, o.t ≠ .writeClean) (k : Nat) (hk : k ≠ 3) :
    (!wIn (q.map (·.a)) k) = true := by
  unfold wIn
  rw [if_neg hk, any_map, not_any]
  intro o ho
  rw [(hf o ho).facts.wc]
  exact beq_eq_false_iff_ne.mpr (h o ho)

/-- The checks on an address amount to the rules. -/
theorem aw_iff (c : Cfg) (hline : 0 < c.line) (hd : c.depth ≤ 256) (q : List Wo) (hq : ∀ o ∈ q, Fine c o)
    (hlen : q.length < c.depth) (a : Ax) (wf : a.Wf) (hid : a.id < 256) (hbar : a.bar ≠ 2) (hb3 : a.burst ≠ 3)
    (hback : ∀ t, wrOf a.snoop a.domain a.bar = some t → t.back = true →
      a.burst = 1 ∧ a.len < 16 ∧ ∀ o ∈ q, o.t.unique = false ∧ o.t ≠ .writeClean) :
    checkAw c (q.map (·.a)) a = [] ↔
      ∃ t, AwOk c.ace c.line c.bus a t ∧ (t.unique = true → ∀ o ∈ q, o.t.back = false) ∧
        (t.back = true → ∀ o ∈ q, o.t.unique = false) ∧ (∀ o ∈ q, o.a.id = a.id → (o.t = .barrier ↔ t = .barrier)) := by
  have hak : a.key = a.id := Nat.mod_eq_of_lt hid
  unfold checkAw
  simp only [List.append_eq_nil_iff, err_nil, and_assoc]
  rw [awsnoop_iff c.ace a wf hbar]
  constructor
  · rintro ⟨⟨t, ht, hl⟩, h2, h3, h4, h5, h6, h7, h8⟩
    have f := wfacts a t wf hbar ht
    rw [f.barrier] at h8
    rw [f.wu, f.wlu] at h6
    refine ⟨t, ⟨ht, hl, (cache_iff a).mp h2, (line_iff c a t wf.lock wf.burst hb3 f).mp h3, (unique_iff a t wf.lock f).mp h4,
      (back_iff c a t hline wf.lock (fun e => ⟨(hback t ht e).1, (hback t ht e).2.1⟩) f).mp h5, ?_⟩, ?_, ?_, ?_⟩
    · intro e
      rw [if_pos (by simp [e])] at h8
      simp only [List.append_eq_nil_iff, err_nil] at h8
      exact (barrier_iff a (f.zero e)).mp h8.1.1
    · intro e
      rw [if_pos (by revert e; cases t <;> decide)] at h6
      simp only [List.append_eq_nil_iff, err_nil] at h6
      exact (wIn_back hq).mp h6
    · intro e o ho
      exact ((hback t ht e).2.2 o ho).1
    · intro o ho he
      have fo := (hq o ho).facts
      have hk : o.a.key = a.key := by rw [(hq o ho).key, hak, he]
      by_cases e : t = .barrier
      · rw [if_pos (by simp [e])] at h8
        simp only [List.append_eq_nil_iff, err_nil] at h8
        have := h8.2
        rw [any_map, not_any] at this
        have := this o ho
        rw [hk, fo.barrier] at this
        simp at this
        exact ⟨fun _ => e, fun _ => this⟩
      · rw [if_neg (by simp [e]), err_nil, any_map, not_any] at h8
        have := h8 o ho
        rw [hk, fo.barrier] at this
        simp at this
        exact ⟨fun h => absurd h this, fun h => absurd h e⟩
  · rintro ⟨t, ⟨ht, hl, h2, h3, h4, h5, h6⟩, hu, hk, hi⟩
    have f := wfacts a t wf hbar ht
    rw [f.barrier, f.wu, f.wlu, f.wb, f.wc]
    refine ⟨⟨t, ht, hl⟩, (cache_iff a).mpr h2, (line_iff c a t wf.lock wf.burst hb3 f).mpr h3, (unique_iff a t wf.lock f).mpr h4,
      (back_iff c a t hline wf.lock (fun e => ⟨(hback t ht e).1, (hback t ht e).2.1⟩) f).mpr h5, ?_, ?_, ?_⟩
    · by_cases e : t.unique = true
      · rw [if_pos (by revert e; cases t <;> decide)]
        simp only [List.append_eq_nil_iff, err_nil]
        exact (wIn_back hq).mpr (hu e)
      · rw [if_neg (by revert e; cases t <;> decide)]
    · by_cases e : t.back = true
      · rw [if_pos (by revert e; cases t <;> decide)]
        simp only [List.append_eq_nil_iff, err_nil]
        have := fun o ho => ((hback t ht e).2.2 o ho).2
        exact ⟨clean_none hq this 0 (by decide), clean_none hq this 1 (by decide)⟩
      · rw [if_neg (by revert e; cases t <;> decide)]
    · by_cases e : t = .barrier
      · rw [if_pos (by simp [e])]
        have hm : (q.map (·.a)).countP (·.isBarrier) < 256 := by
          have := List.countP_le_length (p := fun x : Ax => x.isBarrier) (l := q.map (·.a))
          rw [List.length_map] at this
          omega
        have e2 : (if c.ace then err (decide ((q.map (·.a)).countP (·.isBarrier) < 256)) WErr.many else []) = [] := by
          rw [decide_eq_true hm]; cases c.ace <;> rfl
        rw [e2, List.append_nil]
        simp only [List.append_eq_nil_iff, err_nil]
        refine ⟨(barrier_iff a (f.zero e)).mpr (h6 e), ?_⟩
        rw [any_map, not_any]
        intro o ho
        have fo := (hq o ho).facts
        rw [fo.barrier, (hq o ho).key, hak]
        by_cases he : o.a.id = a.id
        · simp [(hi o ho he).mpr e]
        · simp [he]
      · rw [if_neg (by simp [e]), err_nil, any_map, not_any]
        intro o ho
        have fo := (hq o ho).facts
        rw [fo.barrier, (hq o ho).key, hak]
        by_cases he : o.a.id = a.id
        · have : ¬ o.t = .barrier := fun h => e ((hi o ho he).mp h)
          simp [this]
        · simp [he]

theorem waits_fresh (t : WrT) (a : Ax) : (Wo.mk t a 0).waits = t.data := by
  unfold Wo.waits; simp

/-- An accepted address is the next write under way. -/
theorem rel_aw {c : Cfg} {s : Wr} {qr qw : List Wo} (h : Rel c s qr qw) (a : Ax) (t : WrT) (hlen : (qr ++ qw).length < c.depth)
    (hf : Fine c { t := t, a := a }) :
    ∃ r w, Rel c (wrAw c s (some a)).1 r w ∧ r ++ w = qr ++ qw ++ [{ t := t, a := a }] := by
  have hl : s.wt.length < c.depth := by
    rw [h.wt, List.length_map]; rw [List.length_append] at hlen; omega
  have hfine : ∀ o ∈ qr ++ qw ++ [{ t := t, a := a }], Fine c o := by
    intro o ho
    rcases List.mem_append.mp ho with ho | ho
    · exact h.fine o ho
    · rw [List.mem_singleton] at ho; rw [ho]; exact hf
  have hcap : (qr ++ qw ++ [({ t := t, a := a } : Wo)]).length ≤ c.depth := by
    rw [List.length_append, List.length_singleton]; exact hlen
  unfold wrAw
  dsimp only
  rw [if_pos hl]
  by_cases hw : qw = []
  · subst hw
    have hwt : s.wt = [] := h.wt
    by_cases hd : t.data = true
    · rw [if_neg (by rw [hf.facts.data, hd]; simp)]
      refine ⟨qr, [{ t := t, a := a }], ⟨h.resp, by simp [hwt], h.rdone, ?_, by simp, ?_, ?_⟩, by simp⟩
      · intro o r e
        rw [List.cons.injEq] at e
        rw [← e.1, waits_fresh]; exact hd
      · intro o ho; exact hfine o (by simpa using ho)
      · simpa using hcap
    · have hd' : t.data = false := by simpa using hd
      rw [if_pos (by rw [hf.facts.data, hd', hwt]; rfl)]
      refine ⟨qr ++ [{ t := t, a := a }], [], ⟨by simp [h.resp], hwt, ?_, (fun o r e => by cases e), by simp, ?_, ?_⟩, by simp⟩
      · intro o ho
        rcases List.mem_append.mp ho with ho | ho
        · exact h.rdone o ho
        · rw [List.mem_singleton] at ho; rw [ho, waits_fresh]; exact hd'
      · intro o ho; exact hfine o (by simpa using ho)
      · simpa using hcap
  · have hne : s.wt.isEmpty = false := by
      rw [h.wt]; cases qw with
      | nil => exact absurd rfl hw
      | cons => rfl
    rw [if_neg (by rw [hne]; simp)]
    refine ⟨qr, qw ++ [{ t := t, a := a }], ⟨h.resp, by simp [h.wt], h.rdone, ?_, ?_, ?_, ?_⟩, by simp⟩
    · intro o r e
      cases qw with
      | nil => exact absurd rfl hw
      | cons x l =>
        rw [List.cons_append, List.cons.injEq] at e
        exact h.head o l (by rw [← e.1])
    · intro o ho
      cases qw with
      | nil => exact absurd rfl hw
      | cons x l =>
        rw [List.cons_append, List.tail_cons] at ho
        rcases List.mem_append.mp ho with ho | ho
        · exact h.tail o ho
        · rw [List.mem_singleton] at ho; rw [ho]
    · intro o ho; exact hfine o (by simpa using ho)
    · simpa using hcap

theorem move_spec {c : Cfg} (l : List Wo) (r : List Ax) (hf : ∀ o ∈ l, Fine c o) (hn : ∀ o ∈ l, o.n = 0) :
    ∃ l1 l2, l = l1 ++ l2 ∧ (∀ o ∈ l1, o.t.data = false) ∧ (∀ o t, l2 = o :: t → o.waits = true) ∧
      move (l.map fun o => (o.a, o.n + 1)) r = (l2.map fun o => (o.a, o.n + 1), r ++ l1.map (·.a)) := by
  induction l generalizing r with
  | nil => exact ⟨[], [], rfl, (fun _ h => nomatch h), (fun _ _ h => nomatch h), by simp [move]⟩
  | cons x l ih =>
    have fx := (hf x (List.mem_cons_self ..)).facts
    by_cases hd : x.t.data = true
    · refine ⟨[], x :: l, rfl, fun _ h => (nomatch h), ?_, ?_⟩
      · intro o t e
        rw [List.cons.injEq] at e
        rw [← e.1]
        unfold Wo.waits
        rw [hd, hn x (List.mem_cons_self ..)]; simp
      · rw [List.map_cons, move, if_pos (by rw [fx.data]; exact hd)]; simp
    · have hd' : x.t.data = false := by simpa using hd
      obtain ⟨l1, l2, e1, e2, e3, e4⟩ := ih (r ++ [x.a]) (fun o ho => hf o (List.mem_cons_of_mem _ ho))
        (fun o ho => hn o (List.mem_cons_of_mem _ ho))
      refine ⟨x :: l1, l2, by rw [e1]; rfl, ?_, e3, ?_⟩
      · intro o ho
        rcases List.mem_cons.mp ho with rfl | ho
        · exact hd'
        · exact e2 o ho
      · rw [List.map_cons, move, if_neg (by rw [fx.data, hd']; simp), e4]; simp

theorem find_skip (p : Wo → Bool) (qr qw : List Wo) (h : ∀ o ∈ qr, p o = false) : (qr ++ qw).find? p = qw.find? p := by
  induction qr with
  | nil => rfl
  | cons x l ih =>
    rw [List.cons_append, List.find?_cons, h x (List.mem_cons_self ..)]
    exact ih fun o ho => h o (List.mem_cons_of_mem _ ho)

theorem feed_skip (qr qw : List Wo) (h : ∀ o ∈ qr, o.waits = false) : feed (qr ++ qw) = qr ++ feed qw := by
  induction qr with
  | nil => rfl
  | cons x l ih =>
    rw [List.cons_append, feed, if_neg (by rw [h x (List.mem_cons_self ..)]; simp),
      ih fun o ho => h o (List.mem_cons_of_mem _ ho)]
    rfl

theorem waits_iff (o : Wo) : o.waits = true ↔ o.t.data = true ∧ o.n ≤ o.a.len := by
  unfold Wo.waits; simp; omega

/-- The checks on a beat of data amount to the rules. -/
theorem w_iff {c : Cfg} (hbus : 0 < c.bus) {s : Wr} {qr qw : List Wo} (h : Rel c s qr qw) (w : W)
    (hq : ∀ o, (qr ++ qw).find? Wo.waits = some o → o.t = .writeLineUnique → o.n = o.a.len →
      PcAxi.bit w.strb (c.bus - 1) = true) :
    ((wrW c s (some w)).2 = [] ↔
      ∃ o, (qr ++ qw).find? Wo.waits = some o ∧ StrbOk c.bus c.gaps o.t o.a o.n w.strb ∧ (w.last = true ↔ o.n = o.a.len)) ∧
    ((wrW c s (some w)).2 = [] → ∃ r x, Rel c (wrW c s (some w)).1 r x ∧ r ++ x = feed (qr ++ qw)) := by
  rw [find_skip _ _ _ h.rdone] at hq ⊢
  rw [feed_skip _ _ h.rdone]
  unfold wrW
  cases qw with
  | nil =>
    have hwt : s.wt = [] := h.wt
    rw [hwt]
    constructor
    · constructor
      · intro e; cases e
      · rintro ⟨o, ho, _⟩; cases ho
    · intro e; cases e
  | cons o l =>
    have hwt : s.wt = (o.a, o.n + 1) :: l.map fun o => (o.a, o.n + 1) := h.wt
    have hwait := h.head o l rfl
    have ⟨hdata, hn⟩ := (waits_iff o).mp hwait
    have hfo : Fine c o := h.fine o (List.mem_append_right _ (List.mem_cons_self ..))
    have hfind : (o :: l).find? Wo.waits = some o := by rw [List.find?_cons, hwait]
    have hfeed : feed (o :: l) = { o with n := o.n + 1 } :: l := by rw [feed, if_pos hwait]
    have hstrb := strb_iff c hbus o.t o.a o.n w hfo.facts hn (fun e => (hfo.ok.2.2.2.1 (by rw [e]; rfl)).1) (hfo.lanes hdata)
      (hq o hfind)
    have hlast : (w.last == decide (o.n + 1 + 1 > o.a.len + 1)) = true ↔ (w.last = true ↔ o.n = o.a.len) := by
      rw [beq_iff_eq]
      by_cases e : o.n = o.a.len
      · simp [e]
      · have : ¬ (o.n + 1 + 1 > o.a.len + 1) := by omega
        simp [e, this]
    have hcap : s.resp.length < c.depth := by
      have := h.cap
      rw [List.length_append, List.length_cons] at this
      rw [h.resp, List.length_map]; omega
    rw [hwt, hfind, hfeed]
    dsimp only
    have hsome : (∃ x, some o = some x ∧ StrbOk c.bus c.gaps x.t x.a x.n w.strb ∧ (w.last = true ↔ x.n = x.a.len)) ↔
        StrbOk c.bus c.gaps o.t o.a o.n w.strb ∧ (w.last = true ↔ o.n = o.a.len) :=
      ⟨fun ⟨x, e, hx⟩ => by cases e; exact hx, fun hx => ⟨o, rfl, hx⟩⟩
    rw [hsome, if_pos hcap]
    have hmem : ∀ x ∈ qr ++ { o with n := o.n + 1 } :: l, Fine c x := by
      intro x hx
      rcases List.mem_append.mp hx with hx | hx
      · exact h.fine x (List.mem_append_left _ hx)
      · rcases List.mem_cons.mp hx with rfl | hx
        · exact ⟨hfo.wf, hfo.bar, hfo.id, hfo.ok, hfo.lanes⟩
        · exact h.fine x (List.mem_append_right _ (List.mem_cons_of_mem _ hx))
    have hcap2 : (qr ++ ({ o with n := o.n + 1 } :: l : List Wo)).length ≤ c.depth := by
      have := h.cap
      rw [List.length_append, List.length_cons] at this ⊢
      exact this
    cases hwl : w.last with
    | true =>
      rw [hwl] at hlast
      rw [if_pos rfl]
      dsimp only
      rw [List.append_nil, List.append_eq_nil_iff, err_nil, err_nil, hstrb, hlast]
      refine ⟨Iff.rfl, ?_⟩
      rintro ⟨_, hl⟩
      have hlen : o.n = o.a.len := hl.mp rfl
      obtain ⟨l1, l2, e1, e2, e3, e4⟩ := move_spec (c := c) l (s.resp ++ [o.a])
        (fun x hx => h.fine x (List.mem_append_right _ (List.mem_cons_of_mem _ hx))) h.tail
      rw [e4]
      have hre : qr ++ [{ o with n := o.n + 1 }] ++ l1 ++ l2 = qr ++ { o with n := o.n + 1 } :: l := by
        rw [e1]; simp
      refine ⟨qr ++ [{ o with n := o.n + 1 }] ++ l1, l2, ⟨?_, rfl, ?_, e3, ?_, ?_, ?_⟩, hre⟩
      · simp [h.resp]
      · intro x hx
        rcases List.mem_append.mp hx with hx | hx
        · rcases List.mem_append.mp hx with hx | hx
          · exact h.rdone x hx
          · rw [List.mem_singleton] at hx
            rw [hx]
            unfold Wo.waits
            simp [hlen]
        · unfold Wo.waits
          rw [e2 x hx]; rfl
      · intro x hx
        have : x ∈ l := by rw [e1]; exact List.mem_append_right _ (List.mem_of_mem_tail hx)
        exact h.tail x this
      · rw [hre]; exact hmem
      · rw [hre]; exact hcap2
    | false =>
      rw [hwl] at hlast
      rw [if_neg (by decide)]
      dsimp only
      rw [List.append_eq_nil_iff, err_nil, err_nil, hstrb, hlast]
      refine ⟨Iff.rfl, ?_⟩
      rintro ⟨_, hl⟩
      have hne : o.n ≠ o.a.len := fun e => by cases hl.mpr e
      refine ⟨qr, { o with n := o.n + 1 } :: l, ⟨h.resp, rfl, h.rdone, ?_, ?_, hmem, hcap2⟩, rfl⟩
      · intro x r e
        rw [List.cons.injEq] at e
        rw [← e.1, waits_iff]
        exact ⟨hdata, by dsimp only; omega⟩
      · intro x hx; exact h.tail x hx

theorem bresp_iff {c : Cfg} {o : Wo} (h : Fine c o) (resp : Nat) (hr : resp < 4) :
    (checkBresp o.a resp = true ∧ (!(o.a.isBarrier && resp != 0)) = true) ↔ BrespOk o.t o.a resp := by
  have f := h.facts
  have e : resp % 4 = resp := Nat.mod_eq_of_lt hr
  have hl : o.a.lock = 0 ∨ o.a.lock = 1 := by have := h.wf.lock; omega
  unfold checkBresp BrespOk Ax.excl
  rw [f.wns, f.barrier, e]
  rcases hl with hl | hl
  · by_cases h0 : resp = 0 <;> simp [hl, h0]
  · have hb : o.t ≠ .barrier := by
      intro e
      have : o.a.lock = 0 := (h.ok.2.2.2.2.2.2 e).2.2.2.2
      omega
    by_cases hn : o.t = .writeNoSnoop
    · simp [hl, hn]; omega
    · simp [hl, hn]

theorem find_map (q : List Wo) (p : Ax → Bool) : (q.map (·.a)).find? p = (q.find? fun o => p o.a).map (·.a) := by
  rw [List.find?_map]; rfl

theorem eraseP_map (q : List Wo) (p : Ax → Bool) : (q.map (·.a)).eraseP p = (q.eraseP fun o => p o.a).map (·.a) := by
  rw [List.eraseP_map]; rfl

theorem find_congr {α : Type} {p r : α → Bool} {l : List α} (h : ∀ x ∈ l, p x = r x) : l.find? p = l.find? r := by
  induction l with
  | nil => rfl
  | cons x l ih =>
    rw [List.find?_cons, List.find?_cons, h x (List.mem_cons_self ..), ih fun y hy => h y (List.mem_cons_of_mem _ hy)]

theorem eraseP_congr {α : Type} {p r : α → Bool} {l : List α} (h : ∀ x ∈ l, p x = r x) : l.eraseP p = l.eraseP r := by
  induction l with
  | nil => rfl
  | cons x l ih =>
    rw [List.eraseP_cons, List.eraseP_cons, h x (List.mem_cons_self ..), ih fun y hy => h y (List.mem_cons_of_mem _ hy)]

/-- The checks on an answer amount to the rules. -/
theorem b_iff {c : Cfg} {s : Wr} {qr qw : List Wo} (h : Rel c s qr qw) (b : B) (hr : b.resp < 4)
    (hq : ¬ Overtakes (qr ++ qw) b.id) :
    ((wrB s (some b)).2 = [] ↔
      ∃ o, ((qr ++ qw).find? fun o => o.a.id == b.id) = some o ∧ o.waits = false ∧ BrespOk o.t o.a b.resp) ∧
    ((wrB s (some b)).2 = [] → ∃ r x, Rel c (wrB s (some b)).1 r x ∧ r ++ x = (qr ++ qw).eraseP fun o => o.a.id == b.id) := by
  have hkey : ∀ o ∈ qr, (o.a.key == b.id) = (o.a.id == b.id) := by
    intro o ho
    rw [(h.fine o (List.mem_append_left _ ho)).key]
  have hf : (s.resp.find? fun a => a.key == b.id) = (qr.find? fun o => o.a.id == b.id).map (·.a) := by
    rw [h.resp, find_map, find_congr hkey]
  have he : (s.resp.eraseP fun a => a.key == b.id) = (qr.eraseP fun o => o.a.id == b.id).map (·.a) := by
    rw [h.resp, eraseP_map, eraseP_congr hkey]
  unfold wrB
  dsimp only
  rw [hf, he]
  cases hfd : qr.find? fun o => o.a.id == b.id with
  | none =>
    have hno : ∀ o ∈ qr, (o.a.id == b.id) = false := by
      intro o ho
      have := List.find?_eq_none.mp hfd o ho
      simpa using this
    constructor
    · constructor
      · intro e; cases e
      · rintro ⟨o, ho, hw, _⟩
        exfalso
        rw [find_skip _ _ _ hno] at ho
        obtain ⟨hid, as, bs, heq, has⟩ := List.find?_eq_some_iff_append.mp ho
        have hid' : o.a.id = b.id := by simpa using hid
        cases as with
        | nil =>
          have := h.head o bs (by rw [heq]; rfl)
          rw [hw] at this; cases this
        | cons x as =>
          have hn : o.n = 0 := h.tail o (by rw [heq]; simp)
          refine hq ⟨qr ++ x :: as, o, bs, by rw [heq]; simp, hid', ?_, ?_, x, ?_, h.head x (as ++ o :: bs) (by rw [heq]; rfl)⟩
          · intro y hy
            rcases List.mem_append.mp hy with hy | hy
            · simpa using hno y hy
            · simpa using has y hy
          · unfold Wo.waits at hw
            rw [hn] at hw
            simpa using hw
          · exact List.mem_append_right _ (List.mem_cons_self ..)
    · intro e; cases e
  | some o =>
    have hmem : o ∈ qr := List.mem_of_find?_eq_some hfd
    have hfo : Fine c o := h.fine o (List.mem_append_left _ hmem)
    have hany : ∃ x ∈ qr, (fun o : Wo => o.a.id == b.id) x = true := ⟨o, hmem, List.find?_some (p := fun o : Wo => o.a.id == b.id) hfd⟩
    have hfull : ((qr ++ qw).find? fun o => o.a.id == b.id) = some o := by
      rw [List.find?_append, hfd]; rfl
    have hera : ((qr ++ qw).eraseP fun o => o.a.id == b.id) = (qr.eraseP fun o => o.a.id == b.id) ++ qw := by
      obtain ⟨x, hx, hp⟩ := hany
      exact List.eraseP_append_left (p := fun o : Wo => o.a.id == b.id) hp _ hx
    rw [hfull, hera]
    simp only [Option.map_some, List.append_eq_nil_iff, err_nil]
    rw [bresp_iff hfo b.resp hr]
    constructor
    · constructor
      · intro e; exact ⟨o, rfl, h.rdone o hmem, e⟩
      · rintro ⟨x, e, _, hx⟩; cases e; exact hx
    · intro _
      have hsub : ∀ x, x ∈ (qr.eraseP fun o => o.a.id == b.id) → x ∈ qr := fun x hx => List.mem_of_mem_eraseP hx
      refine ⟨qr.eraseP fun o => o.a.id == b.id, qw, ⟨rfl, h.wt, fun x hx => h.rdone x (hsub x hx), h.head, h.tail, ?_, ?_⟩, rfl⟩
      · intro x hx
        rcases List.mem_append.mp hx with hx | hx
        · exact h.fine x (List.mem_append_left _ (hsub x hx))
        · exact h.fine x (List.mem_append_right _ hx)
      · have h1 := h.cap
        have h2 : (qr.eraseP fun o => o.a.id == b.id).length ≤ qr.length := List.length_eraseP_le
        rw [List.length_append] at h1 ⊢
        omega

theorem wrun_iff (c : Cfg) (hline : 0 < c.line) (hbus : 0 < c.bus) (hd : c.depth ≤ 256) (evs : List WEv) (s : Wr) (qr qw : List Wo)
    (h : Rel c s qr qw) (hq : Quiet c (qr ++ qw) evs) : wevRun c s evs = [] ↔ WLegal c (qr ++ qw) evs := by
  induction evs generalizing s qr qw with
  | nil => simp [wevRun, WLegal]
  | cons e es ih =>
    rw [wevRun, List.append_eq_nil_iff]
    cases e with
    | aw a =>
      rw [Quiet] at hq
      obtain ⟨hlen, wf, hid, hbar, hb3, hq⟩ := hq
      have hq' : ∀ t, wrOf a.snoop a.domain a.bar = some t → t.back = true →
          a.burst = 1 ∧ a.len < 16 ∧ ∀ o ∈ qw ++ qr, o.t.unique = false ∧ o.t ≠ .writeClean :=
        fun t ht e => ⟨((hq t ht).1 e).1, ((hq t ht).1 e).2.1, fun o ho => ((hq t ht).1 e).2.2 o (mem_swap.mp ho)⟩
      have hl : s.wt.length < c.depth := by
        rw [h.wt, List.length_map]; rw [List.length_append] at hlen; omega
      have herr : (wevStep c s (.aw a)).2 = checkAw c ((qw ++ qr).map (·.a)) a := by
        show (wrAw c s (some a)).2 = _
        unfold wrAw
        dsimp only
        rw [if_pos hl, rel_list h]
      have key := aw_iff c hline hd (qw ++ qr) (fun o ho => h.fine o (mem_swap.mp ho))
        (by rw [List.length_append] at hlen ⊢; omega) a wf hid hbar hb3 hq'
      rw [herr, key, WLegal]
      have next : ∀ t, AwOk c.ace c.line c.bus a t →
          (wevRun c (wevStep c s (.aw a)).1 es = [] ↔ WLegal c (qr ++ qw ++ [{ t := t, a := a }]) es) := by
        intro t ht
        obtain ⟨r, w, hr, he⟩ := rel_aw h a t hlen ⟨wf, hbar, hid, ht, (hq t ht.1).2.1⟩
        have := ih _ r w hr (by rw [he]; exact (hq t ht.1).2.2)
        rw [he] at this
        exact this
      constructor
      · rintro ⟨⟨t, h1, h2, h3, h4⟩, h5⟩
        exact ⟨t, h1, fun e o ho => h2 e o (mem_swap.mpr ho), fun e o ho => h3 e o (mem_swap.mpr ho),
          fun o ho => h4 o (mem_swap.mpr ho), (next t h1).mp h5⟩
      · rintro ⟨t, h1, h2, h3, h4, h5⟩
        exact ⟨⟨t, h1, fun e o ho => h2 e o (mem_swap.mp ho), fun e o ho => h3 e o (mem_swap.mp ho),
          fun o ho => h4 o (mem_swap.mp ho)⟩, (next t h1).mpr h5⟩
    | w w =>
      rw [Quiet] at hq
      obtain ⟨h1, h2⟩ := w_iff hbus h w hq.1
      have hs : wevStep c s (.w w) = wrW c s (some w) := rfl
      rw [hs, WLegal]
      constructor
      · rintro ⟨e1, e2⟩
        obtain ⟨r, x, hr, he⟩ := h2 e1
        refine ⟨h1.mp e1, ?_⟩
        rw [← he]
        exact (ih _ r x hr (by rw [he]; exact hq.2)).mp e2
      · rintro ⟨e1, e2⟩
        have e1' := h1.mpr e1
        obtain ⟨r, x, hr, he⟩ := h2 e1'
        refine ⟨e1', ?_⟩
        rw [← he] at e2
        exact (ih _ r x hr (by rw [he]; exact hq.2)).mpr e2
    | b b =>
      rw [Quiet] at hq
      obtain ⟨h1, h2⟩ := b_iff h b hq.1 hq.2.1
      have hs : wevStep c s (.b b) = wrB s (some b) := rfl
      rw [hs, WLegal]
      constructor
      · rintro ⟨e1, e2⟩
        obtain ⟨r, x, hr, he⟩ := h2 e1
        refine ⟨h1.mp e1, ?_⟩
        rw [← he]
        exact (ih _ r x hr (by rw [he]; exact hq.2.2)).mp e2
      · rintro ⟨e1, e2⟩
        have e1' := h1.mpr e1
        obtain ⟨r, x, hr, he⟩ := h2 e1'
        refine ⟨e1', ?_⟩
        rw [← he] at e2
        exact (ih _ r x hr (by rw [he]; exact hq.2.2)).mpr e2

/-- **The write checker reports exactly the traces that break the rules**: addresses, data in the order
of the addresses with the right strobes and the right last beat, answers in order for each identifier and
only when the data are complete, and no `WriteUnique` together with `WriteBack`.  Missing for the full
property: the cases `Quiet` leaves out (`Verif.PcAce.WrFaults`), more than `max_depth` outstanding writes, data ahead of
their address (reported, though AXI allows them), reset and disabled checks. -/
theorem ace_writes_exact_partial (c : Cfg) (hline : 0 < c.line) (hbus : 0 < c.bus) (hd : c.depth ≤ 256) (tr : List WrClk)
    (hq : Quiet c [] (wevents tr)) : (wrRun c {} tr).2 = [] ↔ WLegal c [] (wevents tr) := by
  rw [wrRun_events]
  exact wrun_iff c hline hbus hd (wevents tr) {} [] []
    ⟨rfl, rfl, fun _ h => (nomatch h), (fun _ _ h => nomatch h), fun _ h => (nomatch h), fun _ h => (nomatch h), Nat.zero_le _⟩ hq

end Verif.PcAce
