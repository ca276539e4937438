import Verif.RtlRdata.Lemmas

/-! # What is kept from cycle to cycle -/

namespace Verif.RtlRdata

open RtlFifo (Queue)

section
variable {δ σ : Type}

/-- Where each word is: taken, shown, in `R_fifo`, in the registers before it,
of the burst being read, of the bursts in `RIDX_fifo`. -/
structure View (δ σ : Type) where
  past : List (Item δ σ)
  sh : Option (Item δ σ)
  rq : List (Item δ σ)
  p3 : Option (Item δ σ)
  p2 : Option (Item δ σ)
  p1 : Option (Item δ σ)
  p0 : Option (Item δ σ)
  cur : List (Item δ σ)
  xs : List (Ask δ σ)

def View.rest (g : View δ σ) : List (Item δ σ) :=
  g.sh.toList ++ (g.rq ++ (g.p3.toList ++ (g.p2.toList ++ (g.p1.toList ++ (g.p0.toList ++ (g.cur ++ g.xs.flatMap items))))))

/-- How the flags go with the states. -/
structure Ctl (s : Regs δ σ) : Prop where
  rRden : s.rRden = decide (s.rst = .strt)
  strt : s.rst = .strt → s.r.items ≠ []
  rvalid : s.rvalid = decide (s.rst = .wait)
  wait : s.rst = .wait → ∃ e, s.r.last = some e

/-- What is being read. -/
def Cur (c : Cfg) (s : Regs δ σ) (g : View δ σ) : Prop :=
  match s.dst with
  | .idle => s.xRden = false ∧ g.cur = []
  | .new => (s.xRden = true ∧ g.cur = [] ∧ g.xs ≠ []) ∨ (s.xRden = false ∧ ∃ a, s.x.last = some a.idx ∧ g.cur = items a ∧ a.data ≠ [])
  | .newRead => s.xRden = false ∧ ∃ a, s.x.last = some a.idx ∧ g.cur = items a ∧ a.data ≠ []
  | _ => s.xRden = false ∧ ∃ a j, g.cur = itemsFrom a j (a.data.drop j) ∧ j < a.data.length ∧ s.count + 1 = j ∧ s.idx = a.idx ∧
      s.len + 1 = a.data.length ∧ s.next = (a.place + j) % c.words

def bit (b : Bool) : Nat := if b then 1 else 0

def reading (s : Regs δ σ) : Bool := v0Next s

/-- What is in `R_fifo` and on the way to it. -/
def held (s : Regs δ σ) : Nat := s.r.items.length + bit s.v3 + bit s.v2 + bit s.v1 + bit s.v0

/-- How many words of a burst were read without a break. -/
def Run (s : Regs δ σ) : Prop :=
  match s.dst with
  | .newRead => s.v0 = false
  | .conRead => (s.v0 = true → s.v1 = true → 1 ≤ s.count) ∧ (s.v0 = true → s.v1 = true → s.v2 = true → 2 ≤ s.count) ∧
      (s.v0 = true → s.v1 = true → s.v2 = true → s.v3 = true → 3 ≤ s.count)
  | .conWait => (s.v0 = true → s.v1 = true → 1 ≤ s.count) ∧ (s.v0 = true → s.v1 = true → s.v2 = true → 2 ≤ s.count) ∧
      (s.v0 = true → s.v1 = true → s.v2 = true → s.v3 = true → 3 ≤ s.count)
  | _ => True

structure Inv (c : Cfg) (w : World δ σ) (g : View δ σ) : Prop where
  all : w.asked.flatMap items = g.past ++ g.rest
  some : ∀ a ∈ w.asked, a.data ≠ [] ∧ a.data.length ≤ c.limit
  past : g.past.map Item.beat = w.took
  ctl : Ctl w.s
  sh : shown w.s = g.sh.map Item.beat
  rq : w.s.r.items = g.rq.map Item.beat
  v3 : w.s.v3 = g.p3.isSome
  v2 : w.s.v2 = g.p2.isSome
  v1 : w.s.v1 = g.p1.isSome
  v0 : w.s.v0 = g.p0.isSome
  d3 : ∀ t, g.p3 = .some t → w.s.d3 = .some t.side
  d2 : ∀ t, g.p2 = .some t → w.s.d2 = .some t.side
  d1 : ∀ t, g.p1 = .some t → w.s.d1 = .some t.side
  d0 : ∀ t, g.p0 = .some t → w.s.d0 = .some t.side
  m3 : ∀ t, g.p3 = .some t → w.s.m3 = .some t.x
  m2 : ∀ t, g.p2 = .some t → w.s.m2 = .some t.x
  a1 : ∀ t, g.p1 = .some t → w.s.a1 = (t.a.place + t.j) % c.words
  a0 : ∀ t, g.p0 = .some t → w.s.a0 = (t.a.place + t.j) % c.words
  x : w.s.x.items = g.xs.map (·.idx)
  xsNe : ∀ a ∈ g.xs, a.data ≠ []
  nodup : w.s.x.items.Nodup
  lt : ∀ d ∈ w.s.x.items, d < 16
  cur : Cur c w.s g
  room : held w.s + bit (reading w.s) ≤ 32
  run : Run w.s

theorem inv_start (c : Cfg) : Inv c (World.start : World δ σ) ⟨[], none, [], none, none, none, none, [], []⟩ where
  all := rfl
  some := by intro a h; cases h
  past := rfl
  ctl := ⟨rfl, (by intro h; cases h), rfl, (by intro h; cases h)⟩
  sh := rfl
  rq := rfl
  v3 := rfl
  v2 := rfl
  v1 := rfl
  v0 := rfl
  d3 := by intro t h; cases h
  d2 := by intro t h; cases h
  d1 := by intro t h; cases h
  d0 := by intro t h; cases h
  m3 := by intro t h; cases h
  m2 := by intro t h; cases h
  a1 := by intro t h; cases h
  a0 := by intro t h; cases h
  x := rfl
  xsNe := by intro a h; cases h
  nodup := List.nodup_nil
  lt := by intro d h; cases h
  cur := ⟨rfl, rfl⟩
  room := Nat.zero_le _
  run := trivial

/-! ## The channel -/

theorem r_next {s : Regs δ σ} (h3 : s.v3 = true → s.r.items.length < 32) (hd : s.v3 = true → ∃ e, rDin s = some e) :
    (rNext s).items = (if s.rRden then s.r.items.drop 1 else s.r.items) ++ (if s.v3 then (rDin s).toList else []) ∧
    (rNext s).last = (if s.rRden && !s.r.items.isEmpty then s.r.items.head? else s.r.last) := by
  unfold rNext
  cases hv : s.v3
  · cases hr : rDin s with
    | none =>
      cases s.rRden
      · simp
      · cases s.r.items <;> simp
    | some e => simp [Queue.next]
  · obtain ⟨e, he⟩ := hd hv
    rw [he]
    simp [Queue.next, h3 hv]

theorem ctl_step {c : Cfg} {s : Regs δ σ} (k : Ctl s) (h3 : s.v3 = true → s.r.items.length < 32)
    (hd : s.v3 = true → ∃ e, rDin s = some e) (i : In δ σ) : Ctl (step c s i) where
  rRden := by
    show rRdenNext s i = decide (rstNext s i = .strt)
    unfold rRdenNext rstNext
    cases s.rst <;> dsimp only
    · cases s.r.items.isEmpty <;> rfl
    · rfl
    · cases (s.rvalid && i.rready) <;> cases s.r.items.isEmpty <;> rfl
  strt := by
    intro hx
    have hx : rstNext s i = .strt := hx
    show (rNext s).items ≠ []
    rw [(r_next h3 hd).1]
    have hr := k.rRden
    unfold rstNext at hx
    cases hst : s.rst
    · rw [hst] at hx hr
      dsimp only at hx
      cases hq : s.r.items with
      | nil => rw [hq] at hx; cases hx
      | cons a t => simp [hr]
    · rw [hst] at hx; cases hx
    · rw [hst] at hx hr
      dsimp only at hx
      cases hq : s.r.items with
      | nil =>
        rw [hq] at hx
        split at hx <;> cases hx
      | cons a t => simp [hr]
  rvalid := by
    show rvalidNext s i = decide (rstNext s i = .wait)
    have hv := k.rvalid
    have hr := k.rRden
    unfold rvalidNext rstNext
    cases hst : s.rst <;> rw [hst] at hv hr <;> dsimp only
    · rw [hv, hr]
      cases s.r.items.isEmpty <;> simp
    · rw [hv, hr]; simp
    · rw [hv, hr]
      cases i.rready
      · simp
      · cases s.r.items.isEmpty <;> simp
  wait := by
    intro hx
    have hx : rstNext s i = .wait := hx
    show ∃ e, (rNext s).last = some e
    rw [(r_next h3 hd).2]
    have hr := k.rRden
    unfold rstNext at hx
    cases hst : s.rst
    · rw [hst] at hx
      dsimp only at hx
      split at hx <;> cases hx
    · rw [hst] at hr
      have := k.strt hst
      cases hq : s.r.items with
      | nil => exact absurd hq this
      | cons a t => exact ⟨a, by simp [hr]⟩
    · rw [hst] at hr
      obtain ⟨e, he⟩ := k.wait hst
      exact ⟨e, by simp [hr, he]⟩

/-! ## The next view -/

def View.shNext (g : View δ σ) (s : Regs δ σ) (i : In δ σ) : Option (Item δ σ) :=
  match s.rst with
  | .idle => none
  | .strt => g.rq.head?
  | .wait => if i.rready then none else g.sh

def View.next (g : View δ σ) (c : Cfg) (s : Regs δ σ) (i : In δ σ) : View δ σ :=
  { past := g.past ++ if i.rready then g.sh.toList else []
    sh := g.shNext s i
    rq := (if s.rst = .strt then g.rq.drop 1 else g.rq) ++ g.p3.toList
    p3 := g.p2
    p2 := g.p1
    p1 := g.p0
    p0 := if reading s then g.cur.head? else none
    cur := if s.xRden then (match g.xs.head? with
        | some a => items a
        | none => []) else if reading s then g.cur.drop 1 else g.cur
    xs := (if s.xRden then g.xs.drop 1 else g.xs) ++ i.push.toList.map (askOf c i) }

section
variable {c : Cfg} {w : World δ σ} {g : View δ σ} {i : In δ σ}

theorem room3 (v : Inv c w g) (h : w.s.v3 = true) : w.s.r.items.length < 32 := by
  have := v.room
  unfold held at this
  rw [h] at this
  simp only [bit, if_true] at this
  omega

theorem din3 (v : Inv c w g) : (if w.s.v3 then (rDin w.s).toList else []) = g.p3.toList.map Item.beat := by
  cases hp : g.p3 with
  | none => have := v.v3; rw [hp] at this; simp [this]
  | some t =>
    have h := v.v3
    rw [hp] at h
    simp [h, rDin, v.d3 t hp, v.m3 t hp, Item.beat, Item.side]

theorem din3' (v : Inv c w g) (h : w.s.v3 = true) : ∃ e, rDin w.s = some e := by
  have hv := v.v3
  rw [h] at hv
  cases hp : g.p3 with
  | none => rw [hp] at hv; cases hv
  | some t => exact ⟨_, by unfold rDin; rw [v.d3 t hp, v.m3 t hp]⟩

theorem sh_none (v : Inv c w g) (h : w.s.rst ≠ .wait) : g.sh = none := by
  have := v.sh
  unfold shown at this
  rw [v.ctl.rvalid] at this
  simp only [h, decide_false, Bool.false_eq_true, if_false] at this
  cases hs : g.sh with
  | none => rfl
  | some t => rw [hs] at this; cases this

theorem rq_next (v : Inv c w g) : (step c w.s i).r.items = (g.next c w.s i).rq.map Item.beat := by
  show (rNext w.s).items = ((if w.s.rst = .strt then g.rq.drop 1 else g.rq) ++ g.p3.toList).map Item.beat
  rw [(r_next (room3 v) (din3' v)).1, din3 v, v.ctl.rRden, v.rq, List.map_append]
  by_cases h : w.s.rst = .strt <;> simp [h]

theorem sh_next (v : Inv c w g) : shown (step c w.s i) = (g.next c w.s i).sh.map Item.beat := by
  show (if rvalidNext w.s i then (rNext w.s).last else none) = (g.shNext w.s i).map Item.beat
  rw [(r_next (room3 v) (din3' v)).2]
  unfold rvalidNext View.shNext
  rw [v.ctl.rRden, v.ctl.rvalid]
  cases hst : w.s.rst
  · simp
  · have := v.ctl.strt hst
    rw [v.rq] at this ⊢
    cases hq : g.rq with
    | nil => rw [hq] at this; exact absurd rfl this
    | cons a t => simp
  · have h := v.sh
    unfold shown at h
    rw [v.ctl.rvalid, hst] at h
    simp only [decide_true, if_true] at h
    cases i.rready <;> simp [h]

/-- The words which are shown or in `R_fifo`. -/
theorem out_next (v : Inv c w g) : (if i.rready then g.sh.toList else []) ++ ((g.next c w.s i).sh.toList ++ (g.next c w.s i).rq) =
    g.sh.toList ++ (g.rq ++ g.p3.toList) := by
  show (if i.rready then g.sh.toList else []) ++ ((g.shNext w.s i).toList ++ ((if w.s.rst = .strt then g.rq.drop 1 else g.rq) ++ g.p3.toList)) = _
  unfold View.shNext
  cases hst : w.s.rst
  · have := sh_none v (by rw [hst]; decide)
    simp [this]
  · have h := sh_none v (by rw [hst]; decide)
    have hne := v.ctl.strt hst
    rw [v.rq] at hne
    cases hq : g.rq with
    | nil => rw [hq] at hne; exact absurd rfl hne
    | cons a t => simp [h]
  · cases i.rready <;> simp

/-- The words which are not yet read. -/
theorem in_next (v : Inv c w g) : (g.next c w.s i).p0.toList ++ ((g.next c w.s i).cur ++ (g.next c w.s i).xs.flatMap items) =
    g.cur ++ (g.xs.flatMap items ++ (i.push.toList.map (askOf c i)).flatMap items) := by
  have hc := v.cur
  unfold View.next
  dsimp only
  cases hst : w.s.dst <;> unfold Cur at hc <;> rw [hst] at hc <;> dsimp only at hc
  · simp [reading, v0Next, hst, hc.1, hc.2, List.flatMap_append]
  · rcases hc with ⟨h1, h2, h3⟩ | ⟨h1, _⟩
    · cases hx : g.xs with
      | nil => exact absurd hx h3
      | cons a t => simp [reading, v0Next, hst, h1, h2, List.flatMap_append, List.flatMap_cons]
    · simp [reading, v0Next, hst, h1, List.flatMap_append]
  · cases g.cur <;> simp [reading, v0Next, hst, hc.1, List.flatMap_append]
  · cases g.cur <;> simp [reading, v0Next, hst, hc.1, List.flatMap_append]
  · simp [reading, v0Next, hst, hc.1, List.flatMap_append]

theorem all_next (v : Inv c w g) : (w.next c i).asked.flatMap items = (g.next c w.s i).past ++ (g.next c w.s i).rest := by
  show (w.asked ++ i.push.toList.map (askOf c i)).flatMap items = _
  rw [List.flatMap_append, v.all]
  have h1 := out_next v (i := i)
  have h2 := in_next v (i := i)
  unfold View.rest
  rw [h2]
  show _ = (g.past ++ if i.rready then g.sh.toList else []) ++ ((g.next c w.s i).sh.toList ++ ((g.next c w.s i).rq ++
    (g.p2.toList ++ (g.p1.toList ++ (g.p0.toList ++ _)))))
  have e : ∀ z, (g.past ++ if i.rready then g.sh.toList else []) ++ ((g.next c w.s i).sh.toList ++ ((g.next c w.s i).rq ++ z)) =
      g.past ++ (((if i.rready then g.sh.toList else []) ++ ((g.next c w.s i).sh.toList ++ (g.next c w.s i).rq)) ++ z) := by
    intro z; simp only [List.append_assoc]
  rw [e, h1]
  simp only [List.append_assoc]

/-! ## Open bursts -/

theorem mem_open (v : Inv c w g) {t : Item δ σ} (h : t ∈ g.rest) : t.a ∈ w.isOpen := by
  obtain ⟨p, q, e⟩ := List.append_of_mem h
  have hall := v.all
  rw [e, ← List.append_assoc] at hall
  have h1 := open_of w.asked (g.past ++ p) t q (fun a ha => (v.some a ha).1) hall
  unfold World.isOpen
  have h2 : w.took.countP (·.last) = g.past.countP Item.last := by
    rw [← v.past, List.countP_map]
    rfl
  rw [h2]
  rw [List.countP_append, ← List.drop_drop] at h1
  exact List.mem_of_mem_drop h1

theorem open_asked {a : Ask δ σ} (h : a ∈ w.isOpen) : a ∈ w.asked := List.mem_of_mem_drop h

theorem items_ne {a : Ask δ σ} (h : a.data ≠ []) : ∃ t, t ∈ items a := by
  cases hd : a.data with
  | nil => exact absurd hd h
  | cons x l => exact ⟨⟨a, 0, x⟩, by unfold items; rw [hd]; exact List.mem_cons_self ..⟩

theorem good_rest (v : Inv c w g) {t : Item δ σ} (h : t ∈ g.rest) : t.a.data[t.j]? = some t.x := by
  have : t ∈ w.asked.flatMap items := by rw [v.all]; exact List.mem_append_right _ h
  obtain ⟨a, _, h⟩ := List.mem_flatMap.1 this
  obtain ⟨h1, h2⟩ := mem_items h
  rw [h1]; exact h2

theorem xs_open (v : Inv c w g) {a : Ask δ σ} (h : a ∈ g.xs) : a ∈ w.isOpen := by
  obtain ⟨t, ht⟩ := items_ne (v.xsNe a h)
  have : t ∈ g.rest := by
    unfold View.rest
    simp only [List.mem_append]
    exact .inr (.inr (.inr (.inr (.inr (.inr (.inr (List.mem_flatMap.2 ⟨a, h, ht⟩)))))))
  have h1 := mem_open v this
  rw [(mem_items ht).1] at h1
  exact h1

end

end

end Verif.RtlRdata
