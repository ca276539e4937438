import Verif.PcAce.Keyed
import Verif.PcAce.RdSpec

/-! # C72: reads under the ACE checker -/

namespace Verif.PcAce
open Verif.PcAxi (align)

/-- The cases in which the checker departs from the protocol (see `Verif.PcAce.Faults`) are left out:
identifiers of more than 8 bits, accesses that ignore barriers, the reserved burst, cache maintenance in
the non-shareable domain, and `ReadOnce` that is exclusive or answered as shared. -/
structure Plain (evs : List Ev) : Prop where
  ar : ∀ a, .inl a ∈ evs → a.Wf ∧ a.id < 256 ∧ a.bar ≠ 2 ∧ a.burst ≠ 3 ∧ ¬ (a.domain = 0 ∧ (a.snoop = 8 ∨ a.snoop = 9 ∨ a.snoop = 13))
  once : ∀ a, .inl a ∈ evs → rdOf a.snoop a.domain a.bar = some .readOnce →
    a.lock = 0 ∧ ∀ r, .inr r ∈ evs → r.id = a.id → r.resp / 8 % 2 = 0

/-! ## The tables -/

def Ax.sig (s d b : Nat) : Ax := { id := 0, snoop := s, domain := d, bar := b }

def factsB (s d b : Nat) : Bool :=
  let a := Ax.sig s d b
  checkARSnoop true a == (rdOf s d b).isSome && checkARSnoop false a == (rdOf s d b).any (·.lite) &&
  match rdOf s d b with
  | none => true
  | some t =>
    a.isBarrier == (t == .barrier) && a.isDvm == t.dvm && a.rdLine == t.wholeLine &&
    a.isRnsd == (t == .readNotSharedDirty) && a.isComplete == (t == .dvmComplete) &&
    (s == 0xf) == (t == .dvmMessage) &&
    (d == 0 && (s == 8 || s == 9 || s == 13) || a.single == t.oneBeat) &&
    (t.dvm || t == .readOnce || a.allowsShared == t.mayShare) &&
    (t.dvm || a.allowsDirty == t.mayDirty) && (t == .barrier || t == .readOnce || a.allowsExcl == t.mayExcl)

theorem factsB_all : ∀ s < 16, ∀ d < 4, ∀ b < 4, b ≠ 2 → factsB s d b = true := by decide +kernel

structure Facts (a : Ax) (t : Rd) : Prop where
  barrier : a.isBarrier = (t == .barrier)
  dvm : a.isDvm = t.dvm
  line : a.rdLine = t.wholeLine
  rnsd : a.isRnsd = (t == .readNotSharedDirty)
  complete : a.isComplete = (t == .dvmComplete)
  msg : (a.snoop == 0xf) = (t == .dvmMessage)
  single : a.single = t.oneBeat
  shared : t.dvm = false → t ≠ .readOnce → a.allowsShared = t.mayShare
  dirty : t.dvm = false → a.allowsDirty = t.mayDirty
  excl : t ≠ .barrier → t ≠ .readOnce → a.allowsExcl = t.mayExcl

structure PlainAx (a : Ax) : Prop where
  wf : a.Wf
  bar : a.bar ≠ 2
  burst : a.burst ≠ 3
  odd : ¬ (a.domain = 0 ∧ (a.snoop = 8 ∨ a.snoop = 9 ∨ a.snoop = 13))

theorem snoop_iff (ace : Bool) (a : Ax) (h : PlainAx a) :
    checkARSnoop ace a = true ↔ ∃ t, rdOf a.snoop a.domain a.bar = some t ∧ (ace = true ∨ t.lite = true) := by
  have hf := factsB_all a.snoop h.wf.snoop a.domain h.wf.domain a.bar h.wf.bar h.bar
  unfold factsB at hf
  simp only [Bool.and_eq_true] at hf
  obtain ⟨⟨h1, h2⟩, _⟩ := hf
  have e : ∀ x, checkARSnoop x a = checkARSnoop x (Ax.sig a.snoop a.domain a.bar) := fun _ => rfl
  cases ace
  · rw [e, eq_of_beq h2]
    cases rdOf a.snoop a.domain a.bar <;> simp
  · rw [e, eq_of_beq h1]
    cases rdOf a.snoop a.domain a.bar <;> simp

theorem facts (a : Ax) (t : Rd) (h : PlainAx a) (ht : rdOf a.snoop a.domain a.bar = some t) : Facts a t := by
  have hf := factsB_all a.snoop h.wf.snoop a.domain h.wf.domain a.bar h.wf.bar h.bar
  unfold factsB at hf
  rw [ht] at hf
  simp only [Bool.and_eq_true, Bool.or_eq_true, beq_iff_eq] at hf
  obtain ⟨_, ⟨⟨⟨⟨⟨⟨⟨⟨⟨h1, h2⟩, h3⟩, h4⟩, h5⟩, h6⟩, h7⟩, h8⟩, h9⟩, h10⟩⟩ := hf
  have odd := h.odd
  refine ⟨h1, h2, h3, h4, h5, h6, ?_, ?_, ?_, ?_⟩
  · rcases h7 with ⟨hd, hs⟩ | h7
    · exact absurd ⟨hd, by omega⟩ odd
    · exact h7
  · intro nd no
    rcases h8 with (h8 | h8) | h8
    · rw [nd] at h8; cases h8
    · exact absurd h8 no
    · exact h8
  · intro nd
    rcases h9 with h9 | h9
    · rw [nd] at h9; cases h9
    · exact h9
  · intro nb no
    rcases h10 with (h10 | h10) | h10
    · exact absurd h10 nb
    · exact absurd h10 no
    · exact h10

/-! ## Addresses -/

theorem err_nil {α : Type} (b : Bool) (e : α) : err b e = [] ↔ b = true := by
  unfold err; cases b <;> simp

theorem align_eq_iff (x n : Nat) : x = align x n ↔ n ∣ x := by
  unfold align
  constructor
  · intro h; exact ⟨x / n, by rw [Nat.mul_comm]; exact h⟩
  · intro h; exact (Nat.div_mul_cancel h).symm

theorem cache_iff (a : Ax) : checkCache a = true ↔ CacheOk a := by
  unfold checkCache CacheOk Ax.modifiable Ax.cacheable
  by_cases h1 : a.domain = 3 <;> by_cases h2 : a.cache / 2 % 2 = 1 <;> by_cases h3 : a.cache / 4 % 4 = 0 <;>
    simp [h1, h2, h3]

theorem burst_iff (c : Cfg) (a : Ax) (t : Rd) (h : PlainAx a) (hf : Facts a t) :
    checkBurstAddr c a = true ↔ (t.wholeLine = true → LineOk c.line c.bus a) := by
  unfold checkBurstAddr
  rw [hf.line]
  by_cases hl : t.wholeLine = true
  · have hbar : a.bar = 0 := by
      have := hf.line
      rw [hl] at this
      unfold Ax.rdLine at this
      by_cases hb : a.bar = 0
      · exact hb
      · rw [if_pos hb] at this; cases this
    have hb := h.burst
    have hb4 := h.wf.burst
    rw [if_pos hl]
    unfold LineOk
    by_cases h1 : 2 ^ a.size = c.bus
    · by_cases h2 : c.line = c.bus * (a.len + 1)
      · by_cases h3 : a.cache / 2 % 2 = 1
        · have h2' : c.bus * (a.len + 1) = c.line := h2.symm
          have hcase : a.burst = 0 ∨ a.burst = 1 ∨ a.burst = 2 := by omega
          rcases hcase with e | e | e <;>
            simp [h1, h2', hbar, h3, hl, e, Ax.modifiable, align_eq_iff]
        · simp [h1, h2.symm, hbar, h3, hl, Ax.modifiable]
      · have h2' : ¬ c.bus * (a.len + 1) = c.line := fun e => h2 e.symm
        simp [h1, h2, h2', hl]
    · simp [h1, hl]
  · rw [if_neg hl]
    simp [hl]

theorem barrier_iff (a : Ax) (hs : a.snoop = 0) : checkBarrier a = true ↔ BarOk a := by
  unfold checkBarrier BarOk
  simp [hs, and_assoc]

theorem dvm_iff (c : Cfg) (a : Ax) (t : Rd) (hf : Facts a t) :
    checkDvm c a = true ↔ DvmOk c.bus a ∧ (t = .dvmComplete → a.addr = 0) := by
  have e : (a.snoop == 0xe) = (t == .dvmComplete) := hf.complete
  unfold checkDvm DvmOk
  rw [e]
  by_cases h1 : t = .dvmComplete <;> by_cases h2 : a.addr = 0 <;> simp [h1, h2, and_assoc]

/-! ## The keyed machine -/

/-- `checkAr` without the limit on barriers. -/
def arErrs (c : Cfg) (l : List RTx) (a : Ax) : List RErr :=
  err (checkARSnoop c.ace a) .snoop ++ err (checkCache a) .cache ++ err (checkBurstAddr c a) .burst ++
  (if a.isBarrier then
    err (checkBarrier a) .barrier ++ err (!normalIn l a.key) .normalId ++ err (!dvmIn l a.key) .dvmId
  else if a.isDvm then
    err (checkDvm c a) .dvm ++ err (!normalIn l a.key) .normalId ++ err (!barrierIn l a.key) .barrierId
  else err (!barrierIn l a.key) .barrierId ++ err (!dvmIn l a.key) .dvmId)

def rdK (c : Cfg) : Keyed RTx Ax R where
  key t := t.ax.key
  ka a := a.key
  kr r := r.id
  opened a := ⟨a, a.len + 1, 0⟩
  aok l a := decide (arErrs c l a = [])
  rok t r := decide (checkResp c t r ++ err (r.last == (t.after c r).done) .order = [])
  upd t r := t.after c r
  last r := r.last
  hmk _ := rfl
  hupd _ _ := rfl

def evStep (c : Cfg) (l : List RTx) : Ev → List RTx × List RErr
  | .inl a => rdAr c l a
  | .inr r => rdR c l r

def evRun (c : Cfg) : List RTx → List Ev → List RErr
  | _, [] => []
  | l, e :: t => (evStep c l e).2 ++ evRun c (evStep c l e).1 t

theorem rdRun_events (c : Cfg) (l : List RTx) (tr : List RdCycle) (hr : RdCycle.reset ∉ tr) :
    (rdRun c l tr).2 = evRun c l (events tr) := by
  induction tr generalizing l with
  | nil => rfl
  | cons x t ih =>
    have ih' := fun l => ih l (fun h => hr (List.mem_cons_of_mem _ h))
    cases x with
    | reset => exact absurd (List.mem_cons_self ..) hr
    | clk ar r => cases ar <;> cases r <;> simp [rdRun, rdStep, events, evRun, evStep, ih']

theorem any_filter_key (l : List RTx) (k : Nat) (p : RTx → Bool) :
    ((l.filter fun t => t.ax.key == k).any fun t => p t && t.ax.key == k) = l.any fun t => p t && t.ax.key == k := by
  induction l with
  | nil => rfl
  | cons t l ih =>
    by_cases h : t.ax.key = k
    · have e : (t.ax.key == k) = true := by simpa using h
      rw [List.filter_cons, if_pos e, List.any_cons, List.any_cons, ih]
    · have e : (t.ax.key == k) = false := by simpa using h
      rw [List.filter_cons, if_neg (by simp [e]), List.any_cons, ih, e, Bool.and_false, Bool.false_or]

theorem checkAr_filter (c : Cfg) (l : List RTx) (a : Ax) (h : l.length < 256) :
    arErrs c (l.filter fun t => t.ax.key == a.key) a = checkAr c l a := by
  have h1 : normalIn (l.filter fun t => t.ax.key == a.key) a.key = normalIn l a.key :=
    any_filter_key l a.key fun t => !t.ax.isBarrier && !t.ax.isDvm
  have h2 : barrierIn (l.filter fun t => t.ax.key == a.key) a.key = barrierIn l a.key :=
    any_filter_key l a.key fun t => t.ax.isBarrier
  have h3 : dvmIn (l.filter fun t => t.ax.key == a.key) a.key = dvmIn l a.key :=
    any_filter_key l a.key fun t => t.ax.isDvm
  have b1 : barriers l < 256 := Nat.lt_of_le_of_lt List.countP_le_length h
  have e : (if c.ace then err true RErr.many else []) = [] := by cases c.ace <;> rfl
  unfold checkAr arErrs
  rw [h1, h2, h3, decide_eq_true b1, e, List.append_nil]

theorem evRun_run (c : Cfg) (hd : c.depth ≤ 256) (evs : List Ev) (l : List RTx) :
    evRun c l evs = [] ↔ (rdK c).run c.depth l evs = true := by
  induction evs generalizing l with
  | nil => simp [evRun, Keyed.run]
  | cons e t ih =>
    cases e with
    | inl a =>
      unfold evRun Keyed.run
      by_cases h : l.length < c.depth
      · have e1 : evStep c l (.inl a) = (l ++ [⟨a, a.len + 1, 0⟩], checkAr c l a) := by
          show rdAr c l a = _
          unfold rdAr; rw [if_pos h]
        rw [e1]
        simp only [List.append_eq_nil_iff, ih, Bool.and_eq_true, decide_eq_true_eq, h, true_and, rdK]
        rw [checkAr_filter c l a (by omega)]
      · have e1 : evStep c l (.inl a) = (l, [.maxDepth]) := by
          show rdAr c l a = _
          unfold rdAr; rw [if_neg h]
        rw [e1]
        simp [h]
    | inr r =>
      unfold evRun Keyed.run
      have hkk : (fun t => (rdK c).key t == (rdK c).kr r) = fun t : RTx => t.ax.key == r.id := rfl
      rw [hkk]
      cases hf : l.find? (fun t => t.ax.key == r.id) with
      | none =>
        have e1 : evStep c l (.inr r) = (l, [.unknownId]) := by
          show rdR c l r = _
          unfold rdR; rw [hf]
        rw [e1]; simp
      | some x =>
        have e1 : evStep c l (.inr r) =
            (updFirst (fun t => t.ax.key == r.id) (fun t => if r.last then none else some (t.after c r)) l,
             checkResp c x r ++ err (r.last == (x.after c r).done) .order) := by
          show rdR c l r = _
          unfold rdR; rw [hf]
        rw [e1]
        simp only [List.append_eq_nil_iff, ih, Bool.and_eq_true, decide_eq_true_eq, rdK]

/-! ## One identifier -/

/-- The checker's record of a transaction under way. -/
def Open.entry (c : Cfg) (o : Open) : RTx := ⟨o.a, (o.a.len + 1 : Int) - o.n, if c.ace then o.first else 0⟩

structure Good (c : Cfg) (es : List Ev) (o : Open) : Prop where
  ok : ArOk c.ace c.line c.bus o.a o.t
  plain : PlainAx o.a
  n : o.n < o.t.beats o.a.len
  first : o.n = 0 → o.first = 0
  once : o.t = .readOnce → o.a.lock = 0 ∧ ∀ r, .inr r ∈ es → r.resp / 8 % 2 = 0

theorem bit3 (n : Nat) : bit n 3 = decide (n / 8 % 2 = 1) := by
  unfold bit; simp [BEq.beq]
theorem bit2 (n : Nat) : bit n 2 = decide (n / 4 % 2 = 1) := by
  unfold bit; simp [BEq.beq]

theorem ar_iff (c : Cfg) (a : Ax) (q : List Open) (es : List Ev) (hp : PlainAx a) (hq : ∀ o ∈ q, Good c es o)
    (hk : ∀ o ∈ q, o.a.key = a.key) :
    arErrs c (q.map (Open.entry c)) a = [] ↔ ∃ t, ArOk c.ace c.line c.bus a t ∧ ∀ o ∈ q, o.t.kind = t.kind := by
  have fo : ∀ o ∈ q, Facts o.a o.t := fun o ho => facts o.a o.t (hq o ho).plain (hq o ho).ok.1
  have kb : ∀ o ∈ q, o.a.isBarrier = (o.t.kind == 0) := by
    intro o ho; rw [(fo o ho).barrier]; cases o.t <;> rfl
  have kd : ∀ o ∈ q, o.a.isDvm = (o.t.kind == 1) := by
    intro o ho; rw [(fo o ho).dvm]; cases o.t <;> rfl
  have kr : ∀ t : Rd, t.kind < 3 := by intro t; cases t <;> decide
  have n1 : (!normalIn (q.map (Open.entry c)) a.key) = true ↔ ∀ o ∈ q, o.t.kind ≠ 2 := by
    unfold normalIn
    simp only [Bool.not_eq_true', List.any_eq_false, List.mem_map, forall_exists_index, and_imp,
      forall_apply_eq_imp_iff₂]
    constructor
    · intro h o ho e
      apply h o ho
      simp [Open.entry, kb o ho, kd o ho, hk o ho, e]
    · intro h o ho
      have := h o ho
      have h3 := kr o.t
      simp [Open.entry, kb o ho, kd o ho, hk o ho]
      omega
  have n2 : (!barrierIn (q.map (Open.entry c)) a.key) = true ↔ ∀ o ∈ q, o.t.kind ≠ 0 := by
    unfold barrierIn
    simp only [Bool.not_eq_true', List.any_eq_false, List.mem_map, forall_exists_index, and_imp,
      forall_apply_eq_imp_iff₂]
    constructor <;> intro h o ho <;> have := h o ho <;>
      simpa [Open.entry, kb o ho, hk o ho] using this
  have n3 : (!dvmIn (q.map (Open.entry c)) a.key) = true ↔ ∀ o ∈ q, o.t.kind ≠ 1 := by
    unfold dvmIn
    simp only [Bool.not_eq_true', List.any_eq_false, List.mem_map, forall_exists_index, and_imp,
      forall_apply_eq_imp_iff₂]
    constructor <;> intro h o ho <;> have := h o ho <;>
      simpa [Open.entry, kd o ho, hk o ho] using this
  unfold arErrs
  simp only [List.append_eq_nil_iff, err_nil, snoop_iff c.ace a hp, cache_iff]
  constructor
  · rintro ⟨⟨⟨⟨t, ht, hlite⟩, hc⟩, hb⟩, hrest⟩
    have f := facts a t hp ht
    rw [burst_iff c a t hp f] at hb
    refine ⟨t, ?_⟩
    have sel : (t = .barrier → BarOk a) ∧ (t.dvm = true → DvmOk c.bus a) ∧ (t = .dvmComplete → a.addr = 0) ∧
        ∀ o ∈ q, o.t.kind = t.kind := by
      by_cases hb : t = .barrier
      · have hs : a.snoop = 0 := by
          have := ht
          subst hb
          unfold rdOf at this
          split at this
          · split at this
            · assumption
            · cases this
          · exfalso
            simp [rdTable, List.find?_cons] at this
            repeat (split at this <;> try simp at this)
        rw [f.barrier, hb] at hrest
        simp only [BEq.rfl, if_true, List.append_eq_nil_iff, err_nil, n1, n3] at hrest
        obtain ⟨⟨h1, h3⟩, h4⟩ := hrest
        subst hb
        refine ⟨fun _ => (barrier_iff a hs).mp h1, by (intro h; cases h), by (intro h; cases h), fun o ho => ?_⟩
        have := h3 o ho; have := h4 o ho; have := kr o.t
        show o.t.kind = 0
        omega
      · have e1 : a.isBarrier = false := by rw [f.barrier]; simpa using hb
        rw [e1] at hrest
        by_cases hd : t.dvm = true
        · rw [f.dvm, hd] at hrest
          simp only [Bool.false_eq_true, if_false, if_true, List.append_eq_nil_iff, err_nil, n1, n2, dvm_iff c a t f] at hrest
          obtain ⟨⟨⟨h1, h1'⟩, h3⟩, h4⟩ := hrest
          refine ⟨fun h => absurd h hb, fun _ => h1, h1', fun o ho => ?_⟩
          have := h3 o ho; have := h4 o ho; have := kr o.t
          have : t.kind = 1 := by cases t <;> first | rfl | cases hd
          omega
        · have hd' : t.dvm = false := by simpa using hd
          rw [f.dvm, hd'] at hrest
          simp only [Bool.false_eq_true, if_false, List.append_eq_nil_iff, err_nil, n2, n3] at hrest
          obtain ⟨h3, h4⟩ := hrest
          refine ⟨fun h => absurd h hb, fun h => absurd h hd, ?_, fun o ho => ?_⟩
          · intro h; subst h; cases hd'
          · have := h3 o ho; have := h4 o ho; have := kr o.t
            have : t.kind = 2 := by cases t <;> first | exact absurd rfl hb | rfl | cases hd'
            omega
    exact ⟨⟨ht, hlite, hc, hb, sel.1, sel.2.1, sel.2.2.1⟩, sel.2.2.2⟩
  · rintro ⟨t, ⟨ht, hlite, hc, hb, h5, h6, h7⟩, hkind⟩
    have f := facts a t hp ht
    refine ⟨⟨⟨⟨t, ht, hlite⟩, hc⟩, (burst_iff c a t hp f).mpr hb⟩, ?_⟩
    by_cases hbar : t = .barrier
    · have hs : a.snoop = 0 := by
        have h := h5 hbar
        have := f.line
        subst hbar
        have hz := ht
        unfold rdOf at hz
        split at hz
        · split at hz
          · assumption
          · cases hz
        · exfalso
          simp [rdTable, List.find?_cons] at hz
          repeat (split at hz <;> try simp at hz)
      have hk0 : ∀ o ∈ q, o.t.kind = 0 := fun o ho => by rw [hkind o ho, hbar]; rfl
      rw [f.barrier, hbar]
      simp only [BEq.rfl, if_true, List.append_eq_nil_iff, err_nil, n1, n3]
      refine ⟨⟨(barrier_iff a hs).mpr (h5 hbar), fun o ho => ?_⟩, fun o ho => ?_⟩ <;>
        rw [hk0 o ho] <;> decide
    · have e1 : a.isBarrier = false := by rw [f.barrier]; simpa using hbar
      rw [e1]
      by_cases hd : t.dvm = true
      · have hk1 : ∀ o ∈ q, o.t.kind = 1 := fun o ho => by
          rw [hkind o ho]; cases t <;> first | rfl | cases hd
        rw [f.dvm, hd]
        simp only [Bool.false_eq_true, if_false, if_true, List.append_eq_nil_iff, err_nil, n1, n2, dvm_iff c a t f]
        refine ⟨⟨⟨h6 hd, h7⟩, fun o ho => ?_⟩, fun o ho => ?_⟩ <;> rw [hk1 o ho] <;> decide
      · have hd' : t.dvm = false := by simpa using hd
        have hk2 : ∀ o ∈ q, o.t.kind = 2 := fun o ho => by
          rw [hkind o ho]; cases t <;> first | exact absurd rfl hbar | rfl | cases hd'
        rw [f.dvm, hd']
        simp only [Bool.false_eq_true, if_false, List.append_eq_nil_iff, err_nil, n2, n3]
        refine ⟨fun o ho => ?_, fun o ho => ?_⟩ <;> rw [hk2 o ho] <;> decide

theorem lock_zero (c : Cfg) (es : List Ev) (o : Open) (g : Good c es o) (h : o.t = .barrier ∨ o.t = .readOnce) :
    o.a.lock = 0 := by
  rcases h with h | h
  · exact (g.ok.2.2.2.2.1 h).2.2.2.2
  · exact (g.once h).1

theorem rresp_iff (c : Cfg) (es : List Ev) (o : Open) (g : Good c es o) (resp : Nat) :
    checkRresp o.a resp = true ↔
      (resp % 4 = 0 ∨ (o.a.lock = 1 ∧ resp % 4 = 1)) ∧ (o.a.lock = 1 → o.t.mayExcl = true) := by
  have f := facts o.a o.t g.plain g.ok.1
  unfold checkRresp Ax.excl
  by_cases hl : o.a.lock = 1
  · have nb : o.t ≠ .barrier := fun h => by have := lock_zero c es o g (Or.inl h); omega
    have no : o.t ≠ .readOnce := fun h => by have := lock_zero c es o g (Or.inr h); omega
    rw [f.excl nb no]
    cases o.t.mayExcl <;> simp [hl]
    omega
  · simp [hl]

theorem order_iff (c : Cfg) (es : List Ev) (o : Open) (g : Good c es o) (r : R) :
    (r.last == ((o.entry c).after c r).done) = true ↔ (r.last = true ↔ o.n + 1 = o.t.beats o.a.len) := by
  have f := facts o.a o.t g.plain g.ok.1
  have hn := g.n
  unfold RTx.done RTx.after Open.entry
  simp only [f.single]
  unfold Rd.beats at hn ⊢
  cases hs : o.t.oneBeat
  · rw [hs] at hn
    simp only [Bool.false_eq_true, if_false, Bool.false_or] at hn ⊢
    by_cases e : o.n = o.a.len
    · have : (o.a.len + 1 : Int) - o.a.len - 1 = 0 := by omega
      simp [this, e]
    · have : ¬ (o.a.len + 1 : Int) - o.n - 1 = 0 := by omega
      simp [this, e]
  · rw [hs] at hn
    simp only [if_true] at hn
    have : o.n = 0 := by omega
    simp [this]

theorem resp_iff (c : Cfg) (es : List Ev) (o : Open) (g : Good c es o) (r : R) (hr : .inr r ∈ es) :
    checkResp c (o.entry c) r ++ err (r.last == ((o.entry c).after c r).done) .order = [] ↔
      RespOk c.ace o.t o.a o.n o.first r.resp ∧ (r.last = true ↔ o.n + 1 = o.t.beats o.a.len) := by
  have f := facts o.a o.t g.plain g.ok.1
  have hfirst : ((o.entry c).left = (o.entry c).ax.len + 1) ↔ o.n = 0 := by
    show ((o.a.len + 1 : Int) - o.n = o.a.len + 1) ↔ _
    omega
  have eax : (o.entry c).ax = o.a := rfl
  rw [List.append_eq_nil_iff, err_nil, order_iff c es o g r]
  constructor
  · rintro ⟨h, hord⟩
    refine ⟨?_, hord⟩
    unfold checkResp at h
    simp only [List.append_eq_nil_iff, err_nil, eax, rresp_iff c es o g, f.barrier] at h
    obtain ⟨⟨⟨h1, h2⟩, _⟩, h4⟩ := h
    refine ⟨h1.1, h1.2, ?_, ?_⟩
    · intro hb
      simpa [hb] using h2
    · intro hace
      rw [if_pos hace] at h4
      simp only [List.append_eq_nil_iff, err_nil, f.dvm, f.rnsd, f.complete, bit3, bit2] at h4
      obtain ⟨⟨⟨⟨s1, s2⟩, s3⟩, s4⟩, s5⟩ := h4
      have d0 : o.t.dvm = true → ¬ r.resp / 8 % 2 = 1 ∧ ¬ r.resp / 4 % 2 = 1 := by
        intro hd
        rw [hd, if_pos rfl] at s4
        simp only [List.append_eq_nil_iff, err_nil] at s4
        simpa using s4.1.1.1
      refine ⟨?_, ?_, ?_, ?_, ?_, ?_⟩
      · intro h8
        by_cases hd : o.t.dvm = true
        · exact absurd h8 (d0 hd).1
        · by_cases ho : o.t = .readOnce
          · rw [ho]; rfl
          · rw [← f.shared (by simpa using hd) ho]
            simpa [h8] using s1
      · intro h4'
        by_cases hd : o.t.dvm = true
        · exact absurd h4' (d0 hd).2
        · rw [← f.dirty (by simpa using hd)]
          simpa [h4'] using s2
      · intro ht ⟨h8, h4'⟩
        simp [ht, h8, h4'] at s3
      · intro ht
        rw [ht] at s4
        have : Rd.dvmComplete.dvm = true := rfl
        rw [if_pos this] at s4
        simp only [List.append_eq_nil_iff, err_nil] at s4
        simpa using s4.1.1.2
      · intro ht hs
        have hd : o.t.dvm = true := by rw [ht]; rfl
        have hm : (o.a.snoop == 0xf) = true := by rw [f.msg, ht]; rfl
        rw [if_pos hd] at s4
        simp only [List.append_eq_nil_iff, err_nil, Ax.isSync, Ax.isHint, hm, Bool.true_and] at s4
        obtain ⟨⟨_, s6⟩, s7⟩ := s4
        rcases hs with hs | hs
        · simpa [hs] using s6
        · simpa [hs] using s7
      · intro hn
        have nf : ¬ (o.entry c).left = o.a.len + 1 := fun h => by have := hfirst.mp h; omega
        have er : (o.entry c).resp = o.first := by show (if c.ace then o.first else 0) = _; rw [if_pos hace]
        rw [er] at s5
        simpa [nf] using s5
  · rintro ⟨⟨p1, p2, p3, p4⟩, hord⟩
    refine ⟨?_, hord⟩
    unfold checkResp
    simp only [List.append_eq_nil_iff, err_nil, eax, rresp_iff c es o g, f.barrier]
    refine ⟨⟨⟨⟨p1, p2⟩, ?_⟩, ?_⟩, ?_⟩
    · by_cases hb : o.t = .barrier
      · simp [p3 hb]
      · simp [hb]
    · rw [f.single]
      cases hs : o.t.oneBeat
      · simp
      · have hn := g.n
        unfold Rd.beats at hn hord
        rw [hs] at hn hord
        simp only [if_true] at hn hord
        have : r.last = true := hord.mpr (by omega)
        simp [this]
    · by_cases hace : c.ace = true
      · obtain ⟨q1, q2, q3, q4, q5, q6⟩ := p4 hace
        rw [if_pos hace]
        have nodirty : o.t.dvm = true → ¬ r.resp / 8 % 2 = 1 ∧ ¬ r.resp / 4 % 2 = 1 := by
          intro hd
          constructor
          · intro h; have := q1 h; revert this hd; cases o.t <;> simp [Rd.dvm, Rd.mayShare]
          · intro h; have := q2 h; revert this hd; cases o.t <;> simp [Rd.dvm, Rd.mayDirty]
        simp only [List.append_eq_nil_iff, err_nil, f.dvm, f.rnsd, f.complete, bit3, bit2]
        refine ⟨⟨⟨⟨?_, ?_⟩, ?_⟩, ?_⟩, ?_⟩
        · by_cases h8 : r.resp / 8 % 2 = 1
          · by_cases hd : o.t.dvm = true
            · exact absurd h8 (nodirty hd).1
            · by_cases ho : o.t = .readOnce
              · have := (g.once ho).2 r hr
                omega
              · rw [f.shared (by simpa using hd) ho, q1 h8]
                simp
          · simp [h8]
        · by_cases h4' : r.resp / 4 % 2 = 1
          · by_cases hd : o.t.dvm = true
            · exact absurd h4' (nodirty hd).2
            · rw [f.dirty (by simpa using hd), q2 h4']
              simp
          · simp [h4']
        · by_cases ht : o.t = .readNotSharedDirty
          · have := q3 ht
            by_cases h8 : r.resp / 8 % 2 = 1 <;> by_cases h4' : r.resp / 4 % 2 = 1 <;> simp [h8, h4'] at this ⊢
          · simp [ht]
        · by_cases hd : o.t.dvm = true
          · rw [if_pos hd]
            simp only [List.append_eq_nil_iff, err_nil]
            have n := nodirty hd
            refine ⟨⟨⟨?_, ?_⟩, ?_⟩, ?_⟩
            · simp [n.1, n.2]
            · by_cases ht : o.t = .dvmComplete
              · simp [q4 ht]
              · simp [ht]
            · unfold Ax.isSync
              rw [f.msg]
              by_cases ht : o.t = .dvmMessage
              · by_cases h4' : o.a.addr / 4096 % 8 = 4
                · simp [q5 ht (Or.inl h4')]
                · simp [h4']
              · simp [ht]
            · unfold Ax.isHint
              rw [f.msg]
              by_cases ht : o.t = .dvmMessage
              · by_cases h4' : o.a.addr / 4096 % 8 = 6
                · simp [q5 ht (Or.inr h4')]
                · simp [h4']
              · simp [ht]
          · rw [if_neg hd]
        · have er : (o.entry c).resp = o.first := by show (if c.ace then o.first else 0) = _; rw [if_pos hace]
          rw [er]
          by_cases hn : o.n = 0
          · have := hfirst.mpr hn
            rw [eax] at this
            simp [this]
          · simp [q6 (by omega)]
      · rw [if_neg hace]

theorem entry_after (c : Cfg) (es : List Ev) (o : Open) (g : Good c es o) (r : R) (hl : r.last = false)
    (ho : r.last = true ↔ o.n + 1 = o.t.beats o.a.len) :
    (o.entry c).after c r = Open.entry c { o with n := o.n + 1, first := if o.n = 0 then r.resp else o.first } := by
  have f := facts o.a o.t g.plain g.ok.1
  have hn := g.n
  have hs : o.a.single = false := by
    rw [f.single]
    cases hs : o.t.oneBeat
    · rfl
    · unfold Rd.beats at hn ho
      rw [hs] at hn ho
      simp only [if_true] at hn ho
      have := ho.mpr (by omega)
      rw [hl] at this; cases this
  unfold RTx.after Open.entry
  simp only [hs, Bool.false_eq_true, if_false]
  have e : decide ((o.a.len + 1 : Int) - o.n = o.a.len + 1) = decide (o.n = 0) := by
    apply decide_eq_decide.mpr; omega
  rw [e]
  have e2 : (o.a.len + 1 : Int) - o.n - 1 = (o.a.len + 1 : Int) - ((o.n + 1 : Nat) : Int) := by omega
  rw [e2]
  cases c.ace <;> by_cases hz : o.n = 0 <;> simp [hz]

theorem Good.mono {c : Cfg} {e : Ev} {es : List Ev} {o : Open} (g : Good c (e :: es) o) : Good c es o :=
  ⟨g.ok, g.plain, g.n, g.first, fun h => ⟨(g.once h).1, fun r hr => (g.once h).2 r (List.mem_cons_of_mem _ hr)⟩⟩

/-- One identifier: the checker's queue accepts what is legal. -/
theorem one_iff (c : Cfg) (k : Nat) (es : List Ev) (q : List Open) (hq : ∀ o ∈ q, Good c es o)
    (hk : ∀ o ∈ q, o.a.key = k) (hev : ∀ a, .inl a ∈ es → PlainAx a ∧ a.key = k)
    (honce : ∀ a, .inl a ∈ es → rdOf a.snoop a.domain a.bar = some .readOnce →
      a.lock = 0 ∧ ∀ r, .inr r ∈ es → r.resp / 8 % 2 = 0) :
    (rdK c).one (q.map (Open.entry c)) es = true ↔ Legal c.ace c.line c.bus q es := by
  induction es generalizing q with
  | nil => simp [Keyed.one, Legal]
  | cons e es ih =>
    have hev' : ∀ a, .inl a ∈ es → PlainAx a ∧ a.key = k := fun a h => hev a (List.mem_cons_of_mem _ h)
    have honce' : ∀ a, .inl a ∈ es → rdOf a.snoop a.domain a.bar = some .readOnce →
        a.lock = 0 ∧ ∀ r, .inr r ∈ es → r.resp / 8 % 2 = 0 := fun a h e =>
      ⟨(honce a (List.mem_cons_of_mem _ h) e).1, fun r hr => (honce a (List.mem_cons_of_mem _ h) e).2 r (List.mem_cons_of_mem _ hr)⟩
    cases e with
    | inl a =>
      obtain ⟨hpa, hka⟩ := hev a (List.mem_cons_self ..)
      have step : ∀ t, ArOk c.ace c.line c.bus a t →
          ((rdK c).one (q.map (Open.entry c) ++ [⟨a, a.len + 1, 0⟩]) es = true ↔
            Legal c.ace c.line c.bus (q ++ [{ t := t, a := a }]) es) := by
        intro t ht
        have em : q.map (Open.entry c) ++ [⟨a, a.len + 1, 0⟩] = (q ++ [({ t := t, a := a } : Open)]).map (Open.entry c) := by
          simp [Open.entry]
        rw [em]
        apply ih
        · intro o ho
          rcases List.mem_append.mp ho with ho | ho
          · exact (hq o ho).mono
          · rw [List.mem_singleton.mp ho]
            refine ⟨ht, hpa, ?_, fun _ => rfl, ?_⟩
            · show 0 < t.beats a.len
              unfold Rd.beats; split <;> omega
            · intro e
              have e' : t = .readOnce := e
              have := honce a (List.mem_cons_self ..) (by rw [← e']; exact ht.1)
              exact ⟨this.1, fun r hr => this.2 r (List.mem_cons_of_mem _ hr)⟩
        · intro o ho
          rcases List.mem_append.mp ho with ho | ho
          · exact hk o ho
          · rw [List.mem_singleton.mp ho]; exact hka
        · exact hev'
        · exact honce'
      unfold Keyed.one Legal
      have ea : (rdK c).aok (q.map (Open.entry c)) a = decide (arErrs c (q.map (Open.entry c)) a = []) := rfl
      have eo : (rdK c).opened a = ⟨a, a.len + 1, 0⟩ := rfl
      rw [ea, eo, Bool.and_eq_true, decide_eq_true_eq,
        ar_iff c a q _ hpa hq (fun o ho => (hk o ho).trans hka.symm)]
      constructor
      · rintro ⟨⟨t, h1, h2⟩, h3⟩
        exact ⟨t, h1, h2, (step t h1).mp h3⟩
      · rintro ⟨t, h1, h2, h3⟩
        exact ⟨⟨t, h1, h2⟩, (step t h1).mpr h3⟩
    | inr r =>
      cases q with
      | nil => simp [Keyed.one, Legal]
      | cons o q =>
        have g := hq o (List.mem_cons_self ..)
        have hq' : ∀ o ∈ q, Good c es o := fun o ho => (hq o (List.mem_cons_of_mem _ ho)).mono
        rw [List.map_cons]
        unfold Keyed.one Legal
        have er : (rdK c).rok (o.entry c) r =
          decide (checkResp c (o.entry c) r ++ err (r.last == ((o.entry c).after c r).done) .order = []) := rfl
        have el : (rdK c).last r = r.last := rfl
        have eu : (rdK c).upd (o.entry c) r = (o.entry c).after c r := rfl
        rw [er, el, eu, Bool.and_eq_true, decide_eq_true_eq, resp_iff c _ o g r (List.mem_cons_self ..), and_assoc]
        apply and_congr_right
        intro _
        apply and_congr_right
        intro hord
        cases hl : r.last
        · simp only [Bool.false_eq_true, if_false]
          rw [entry_after c _ o g r hl hord, ← List.map_cons]
          apply ih
          · intro x hx
            rcases List.mem_cons.mp hx with rfl | hx
            · have g' := g.mono
              refine ⟨g'.ok, g'.plain, ?_, fun h => by simp at h, g'.once⟩
              have hn := g.n
              have : ¬ o.n + 1 = o.t.beats o.a.len := fun e => by
                have := hord.mpr e; rw [hl] at this; cases this
              show o.n + 1 < o.t.beats o.a.len
              omega
            · exact hq' x hx
          · intro x hx
            rcases List.mem_cons.mp hx with rfl | hx
            · exact hk o (List.mem_cons_self ..)
            · exact hk x (List.mem_cons_of_mem _ hx)
          · exact hev'
          · exact honce'
        · simp only [if_true]
          exact ih q hq' (fun x hx => hk x (List.mem_cons_of_mem _ hx)) hev' honce'

/-! ## The theorem -/

theorem mem_events_filter {evs : List Ev} {k : Nat} {e : Ev} (h : e ∈ evs.filter fun e => e.id == k) : e ∈ evs :=
  (List.mem_filter.mp h).1

/-- **C72 (reads).**  The checker reports nothing on a trace of the read channels exactly when every
identifier by itself sees what ACE allows: known transactions with the right attributes, barriers and DVM
on identifiers of their own, answers in order with the right number of beats, and no answer that the
transaction does not permit.

`_partial`: for traces without reset, within the depth of the checker, and without the cases listed at
`Plain`, where the checker is wrong. -/
theorem ace_reads_exact_partial (c : Cfg) (hdep : c.depth ≤ 256) (tr : List RdCycle) (hr : RdCycle.reset ∉ tr)
    (hp : Plain (events tr)) (hw : Within c.depth (events tr)) :
    (rdRun c [] tr).2 = [] ↔
      ∀ id, Legal c.ace c.line c.bus [] ((events tr).filter fun e => e.id == id) := by
  rw [rdRun_events c [] tr hr, evRun_run c hdep]
  have hA : (Keyed.isA : Ev → Bool) = Ev.isAr := by funext e; cases e <;> rfl
  have hL : (rdK c).isLast = Ev.isLast := by funext e; cases e <;> rfl
  rw [Keyed.run_iff (rdK c) c.depth (events tr) [] (by
    intro pre hpre
    have := hw pre hpre
    rw [hA, hL]
    simpa using this)]
  apply forall_congr'
  intro k
  have hkey : (events tr).filter (fun e => (rdK c).kev e == k) = (events tr).filter fun e => e.id == k := by
    apply List.filter_congr
    intro e he
    cases e with
    | inl a =>
      have : a.key = a.id := Nat.mod_eq_of_lt (hp.ar a he).2.1
      show (a.key == k) = (a.id == k)
      rw [this]
    | inr r => rfl
  rw [hkey]
  apply one_iff c k _ []
  · intro o ho; cases ho
  · intro o ho; cases ho
  · intro a ha
    have hid : (Ev.id (.inl a) == k) = true := (List.mem_filter.mp ha).2
    obtain ⟨h1, h2, h3, h4, h5⟩ := hp.ar a (mem_events_filter ha)
    refine ⟨⟨h1, h3, h4, h5⟩, ?_⟩
    have e : a.id = k := by simpa [Ev.id] using hid
    show a.id % 256 = k
    rw [Nat.mod_eq_of_lt h2, e]
  · intro a ha ht
    have hid : (Ev.id (.inl a) == k) = true := (List.mem_filter.mp ha).2
    have e : a.id = k := by simpa [Ev.id] using hid
    have := hp.once a (mem_events_filter ha) ht
    refine ⟨this.1, fun r hr => this.2 r (mem_events_filter hr) ?_⟩
    have hid' : (Ev.id (.inr r) == k) = true := (List.mem_filter.mp hr).2
    have e' : r.id = k := by simpa [Ev.id] using hid'
    rw [e, e']

end Verif.PcAce
