import Verif.RtlAxid.Lemmas

/-!
The invariant of the store.
-/

namespace Verif.RtlAxid

/-- Where the last request is: in its FIFO, about to be written to one with its
ID, about to get an empty FIFO, or about to be written to it. -/
inductive Phase (n : Nat) (w : World) (land : List (Nat × Nat)) : Option (Nat × Nat) → Prop where
  | idle (since : 2 ≤ w.since) (quiet : ∀ k < n, w.s.wen k = false ∧ w.s.alloc k = false ∧ w.s.send k = false) :
      Phase n w land none
  | hit (k : Nat) (hk : k < n) (since : w.since = 1) (id : w.s.id k = w.last.1)
      (wen : ∀ j < n, w.s.wen j = true ↔ j = k) (alloc : ∀ j < n, w.s.alloc j = false) (send : w.s.send k = false)
      (only : ∀ j < n, w.s.q j ≠ [] → w.s.id j = w.last.1 → j = k) : Phase n w land (some w.last)
  | new (since : w.since = 1) (wen : ∀ j < n, w.s.wen j = false) (alloc : ∀ j < n, w.s.alloc j = false)
      (send : ∀ j < n, w.s.send j = true) (free : w.s.free < n) (empty : w.s.q w.s.free = [])
      (fresh : ofId land w.last.1 = []) : Phase n w land (some w.last)
  | named (k : Nat) (hk : k < n) (since : w.since = 2) (id : w.s.id k = w.last.1) (wen : ∀ j < n, w.s.wen j = false)
      (send : ∀ j < n, w.s.send j = false) (alloc : ∀ j < n, w.s.alloc j = true ↔ j = k) (empty : w.s.q k = [])
      (fresh : ofId land w.last.1 = []) : Phase n w land (some w.last)

structure Inv (n : Nat) (w : World) (land : List (Nat × Nat)) (pend : Option (Nat × Nat)) : Prop where
  out : w.out = land ++ pend.toList
  fits : w.out.length ≤ n
  core : Core n w.s.q w.s.id land
  phase : Phase n w land pend
  since : 1 ≤ w.since
  valid : 4 ≤ w.since → ∀ k < n, w.s.valid k = false → w.s.q k = []
  seen : ∀ k < n, w.s.valid k = false → w.s.q k = [] ∨ w.s.id k = w.last.1
  single : ∀ k < n, ∀ j < n, w.s.valid k = true → w.s.valid j = true → w.s.id k = w.s.id j → k = j
  req : 5 ≤ w.since → ∀ k < n, w.s.req k = true → w.s.q k = []
  room1 : 1 ≤ w.room → w.out.length < n
  room2 : 2 ≤ w.room → ∃ k < n, w.s.valid k = false
  room3 : 3 ≤ w.room → ∃ k < n, w.s.req k = true
  room4 : 4 ≤ w.room → 6 ≤ w.since → w.s.idx < n ∧ w.s.q w.s.idx = []

theorem inv_start (n : Nat) (hn : 0 < n) : Inv n World.start [] none where
  out := rfl
  fits := by simp [World.start]
  core := ⟨fun _ _ h => absurd rfl h, fun _ h => absurd rfl h, fun _ _ _ _ h => absurd rfl h⟩
  phase := .idle (by simp [World.start]) (fun _ _ => ⟨rfl, rfl, rfl⟩)
  since := by simp [World.start]
  valid := fun _ _ _ _ => rfl
  seen := fun _ _ _ => Or.inl rfl
  single := fun _ _ _ _ h => by cases h
  req := fun _ _ _ _ => rfl
  room1 := fun _ => hn
  room2 := by simp [World.start]
  room3 := by simp [World.start]
  room4 := by simp [World.start]

/-- What is left in the FIFOs after a read. -/
def rest (s : Regs) (i : In) (k : Nat) : List Nat := if i.pop = some k then (s.q k).tail else s.q k

def landNext (w : World) (i : In) (land : List (Nat × Nat)) : List (Nat × Nat) :=
  match i.pop with
  | some k => drop land (w.s.id k)
  | none => land

theorem rest_nil {s : Regs} {i : In} {k : Nat} (h : s.q k = []) : rest s i k = [] := by
  unfold rest; rw [h]; simp

theorem rest_of {s : Regs} {i : In} {k : Nat} (h : rest s i k ≠ []) : s.q k ≠ [] := fun e => h (rest_nil e)

theorem core_rest {n : Nat} {w : World} {i : In} {land : List (Nat × Nat)} (h : Core n w.s.q w.s.id land)
    (g : Good n w i) : Core n (rest w.s i) w.s.id (landNext w i land) := by
  unfold landNext
  cases hp : i.pop with
  | none => exact h.congr (fun k _ => by simp [rest, hp])
  | some k =>
    obtain ⟨hk, hq⟩ := g.there k hp
    refine (h.pop hk hq).congr fun j _ => ?_
    unfold rest
    rw [hp]
    by_cases e : k = j <;> simp [e]

theorem land_out {n : Nat} {w : World} {i : In} {land : List (Nat × Nat)} {pend : Option (Nat × Nat)}
    (h : Inv n w land pend) (g : Good n w i) :
    (match i.pop with | some k => drop w.out (w.s.id k) | none => w.out) = landNext w i land ++ pend.toList := by
  unfold landNext
  cases hp : i.pop with
  | none => exact h.out
  | some k =>
    obtain ⟨hk, hq⟩ := g.there k hp
    dsimp only
    rw [h.out]
    apply drop_append
    rw [← h.core.holds k hk hq]
    exact hq

theorem fresh_next (w : World) (i : In) {land : List (Nat × Nat)} {x : Nat} (h : ofId land x = []) :
    ofId (landNext w i land) x = [] := by
  unfold landNext
  cases i.pop with
  | none => exact h
  | some k =>
    dsimp only
    rw [ofId_drop, h]
    split <;> rfl

theorem room_for {n : Nat} {w : World} {land : List (Nat × Nat)} {p : Nat × Nat}
    (h : Inv n w land (some p)) (k : Nat) (hk : k < n) : (w.s.q k).length < n := by
  have h1 := h.fits
  have h2 := h.out
  rw [h2] at h1
  simp at h1
  by_cases e : w.s.q k = []
  · rw [e]; simp; omega
  · rw [h.core.holds k hk e]
    have := ofId_length land (w.s.id k)
    omega

/-- The FIFOs and the last request, after a cycle. -/
theorem phase_next {n : Nat} {w : World} {i : In} {land : List (Nat × Nat)} {pend : Option (Nat × Nat)}
    (hn : 0 < n) (h : Inv n w land pend) (g : Good n w i) :
    ∃ land' pend', (w.next n i).out = land' ++ pend'.toList ∧ Core n (w.next n i).s.q (w.next n i).s.id land' ∧
      Phase n (w.next n i) land' pend' := by
  have hc := core_rest h.core g
  have ho := land_out h g
  have hout : (w.next n i).out = landNext w i land ++ pend.toList ++ (if i.next then [(i.id, i.desc)] else []) := by
    rw [← ho]; rfl
  have hnn : w.since ≤ 2 → i.next = false := by
    intro e
    cases x : i.next with
    | false => rfl
    | true => have := (g.apart x).1; omega
  have hlast : i.next = false → (w.next n i).last = w.last := by intro e; simp [World.next, e]
  have hsince : i.next = false → (w.next n i).since = w.since + 1 := by intro e; simp [World.next, e]
  have hhits : i.next = false → ∀ k, hits w.s i k = false := by intro e k; simp [hits, e]
  have qeq : ∀ k, (w.next n i).s.q k = if (w.s.wen k || w.s.alloc k) && decide ((w.s.q k).length < n) then rest w.s i k ++ [i.desc]
      else rest w.s i k := fun k => rfl
  have known : (∃ k < n, w.s.send k = false) → unknown n w.s = false := by
    rintro ⟨k, hk, e⟩
    unfold unknown
    rw [List.all_eq_false]
    exact ⟨k, List.mem_range.2 hk, by simp [e]⟩
  cases h.phase with
  | idle since quiet =>
    have hu : unknown n w.s = false := known ⟨0, hn, (quiet 0 hn).2.2⟩
    have ids : ∀ k, (w.next n i).s.id k = w.s.id k := by
      intro k
      show idNext n w.s i k = _
      simp [idNext, hu]
    have all : ∀ k, (w.next n i).s.alloc k = false := by
      intro k
      show allocNext n w.s k = _
      simp [allocNext, hu]
    have qe : ∀ k < n, (w.next n i).s.q k = rest w.s i k := by
      intro k hk
      rw [qeq, (quiet k hk).1, (quiet k hk).2.1]
      simp
    have core' : Core n (w.next n i).s.q (w.next n i).s.id (landNext w i land) :=
      (hc.congr qe).rename (fun k _ _ => ids k)
    cases hx : i.next with
    | false =>
      refine ⟨landNext w i land, none, ?_, core', .idle ?_ ?_⟩
      · rw [hout, hx]; simp
      · rw [hsince hx]; omega
      · intro k hk
        refine ⟨hhits hx k, all k, ?_⟩
        show sendNext w.s i k = false
        simp [sendNext, hhits hx k, hx]
    | true =>
      obtain ⟨s6, r4⟩ := g.apart hx
      have hl : (w.next n i).last = (i.id, i.desc) := by simp [World.next, hx]
      refine ⟨landNext w i land, some (w.next n i).last, ?_, core', ?_⟩
      · rw [hout, hx, hl]; simp
      · by_cases hit : ∃ k < n, hits w.s i k = true
        · obtain ⟨k, hk, hh⟩ := hit
          have hh' := hh
          simp only [hits, hx, Bool.true_and, Bool.and_eq_true, decide_eq_true_eq] at hh'
          refine .hit k hk (by simp [World.next, hx]) ?_ ?_ (fun j _ => all j) ?_ ?_
          · rw [ids, hl]; exact hh'.1.symm
          · intro j hj
            show hits w.s i j = true ↔ j = k
            constructor
            · intro hj2
              simp only [hits, hx, Bool.true_and, Bool.and_eq_true, decide_eq_true_eq] at hj2
              exact h.single j hj k hk hj2.2 hh'.2 (by rw [← hj2.1, ← hh'.1])
            · rintro rfl; exact hh
          · show sendNext w.s i k = false
            simp [sendNext, hh, (quiet k hk).2.2]
          · intro j hj hq hid
            rw [qe j hj] at hq
            rw [ids, hl] at hid
            have hv : w.s.valid j = true := by
              cases e : w.s.valid j with
              | true => rfl
              | false => exact absurd (h.valid (by omega) j hj e) (rest_of hq)
            exact h.single j hj k hk hv hh'.2 (by rw [hid]; exact hh'.1)
        · have miss : ∀ k < n, hits w.s i k = false := by
            intro k hk
            cases e : hits w.s i k with
            | false => rfl
            | true => exact absurd ⟨k, hk, e⟩ hit
          obtain ⟨i1, i2⟩ := h.room4 r4 s6
          have hf : (w.next n i).s.free = w.s.idx := rfl
          refine .new (by simp [World.next, hx]) (fun j hj => miss j hj) (fun j _ => all j) ?_ (by rw [hf]; exact i1) ?_ ?_
          · intro j hj
            show sendNext w.s i j = true
            simp [sendNext, miss j hj, hx]
          · rw [hf, qe _ i1, rest_nil i2]
          · apply fresh_next
            rw [hl]
            refine Classical.byContradiction fun hne => ?_
            obtain ⟨k, hk, h1, h2⟩ := h.core.found _ hne
            have hv : w.s.valid k = true := by
              cases e : w.s.valid k with
              | true => rfl
              | false => exact absurd (h.valid (by omega) k hk e) h2
            have := miss k hk
            simp [hits, hx, hv, h1] at this
  | hit k hk since id wen alloc send only =>
    have hx := hnn (by omega)
    obtain ⟨he1, he2⟩ := g.held (by omega)
    have hu : unknown n w.s = false := known ⟨k, hk, send⟩
    have ids : ∀ j, (w.next n i).s.id j = w.s.id j := by
      intro j
      show idNext n w.s i j = _
      simp [idNext, hu]
    have all : ∀ j, (w.next n i).s.alloc j = false := by
      intro j
      show allocNext n w.s j = _
      simp [allocNext, hu]
    have qe : ∀ j < n, (w.next n i).s.q j = if j = k then rest w.s i j ++ [i.desc] else rest w.s i j := by
      intro j hj
      rw [qeq, alloc j hj]
      have := room_for h j hj
      by_cases e : j = k
      · rw [(wen j hj).2 e, if_pos e]; simp [this]
      · have : w.s.wen j = false := by
          cases x : w.s.wen j with
          | false => rfl
          | true => exact absurd ((wen j hj).1 x) e
        rw [this, if_neg e]; simp
    refine ⟨landNext w i land ++ [w.last], none, ?_, ?_, .idle ?_ ?_⟩
    · rw [hout, hx]; simp
    · have := hc.push hk i.desc (fun j hj hq hid => only j hj (rest_of hq) (by rw [hid, id]))
      rw [id, he2] at this
      refine ((this.congr fun j hj => ?_).rename fun j _ _ => ids j)
      rw [qe j hj, he2]
    · rw [hsince hx]; omega
    · intro j hj
      refine ⟨hhits hx j, all j, ?_⟩
      show sendNext w.s i j = false
      simp [sendNext, hhits hx j, hx]
  | new since wen alloc send free empty fresh =>
    have hx := hnn (by omega)
    obtain ⟨he1, he2⟩ := g.held (by omega)
    have hu : unknown n w.s = true := by
      unfold unknown
      rw [List.all_eq_true]
      intro k hk
      exact send k (List.mem_range.1 hk)
    have qe : ∀ j < n, (w.next n i).s.q j = rest w.s i j := by
      intro j hj
      rw [qeq, alloc j hj, wen j hj]
      simp
    have hl := hlast hx
    refine ⟨landNext w i land, some (w.next n i).last, ?_, ?_, .named w.s.free free ?_ ?_ ?_ ?_ ?_ ?_ ?_⟩
    · rw [hout, hx, hl]; simp
    · refine (hc.congr qe).rename fun j hj hq => ?_
      show idNext n w.s i j = _
      have : j ≠ w.s.free := by
        rintro rfl
        rw [qe _ hj, rest_nil empty] at hq
        exact hq rfl
      simp [idNext, this]
    · rw [hsince hx, since]
    · show idNext n w.s i _ = _
      rw [hl]
      simp [idNext, hu, he1]
    · intro j hj; exact hhits hx j
    · intro j hj
      show sendNext w.s i j = false
      simp [sendNext, hhits hx j, hx]
    · intro j hj
      show allocNext n w.s j = true ↔ _
      simp [allocNext, hu, alloc j hj]
    · rw [qe _ free, rest_nil empty]
    · rw [hl]; exact fresh_next w i fresh
  | named k hk since id wen send alloc empty fresh =>
    have hx := hnn (by omega)
    obtain ⟨he1, he2⟩ := g.held (by omega)
    have hu : unknown n w.s = false := known ⟨k, hk, send k hk⟩
    have ids : ∀ j, (w.next n i).s.id j = w.s.id j := by
      intro j
      show idNext n w.s i j = _
      simp [idNext, hu]
    have all : ∀ j, (w.next n i).s.alloc j = false := by
      intro j
      show allocNext n w.s j = _
      simp [allocNext, hu]
    have qe : ∀ j < n, (w.next n i).s.q j = if j = k then rest w.s i j ++ [i.desc] else rest w.s i j := by
      intro j hj
      rw [qeq, wen j hj]
      have := room_for h j hj
      by_cases e : j = k
      · rw [(alloc j hj).2 e, if_pos e]; simp [this]
      · have : w.s.alloc j = false := by
          cases x : w.s.alloc j with
          | false => rfl
          | true => exact absurd ((alloc j hj).1 x) e
        rw [this, if_neg e]; simp
    refine ⟨landNext w i land ++ [w.last], none, ?_, ?_, .idle ?_ ?_⟩
    · rw [hout, hx]; simp
    · have := hc.push hk i.desc (fun j hj hq hid => by
        have h1 := h.core.holds j hj (rest_of hq)
        rw [hid, id, fresh] at h1
        exact absurd h1 (rest_of hq))
      rw [id, he2] at this
      refine ((this.congr fun j hj => ?_).rename fun j _ _ => ids j)
      rw [qe j hj, he2]
    · rw [hsince hx]; omega
    · intro j hj
      refine ⟨hhits hx j, all j, ?_⟩
      show sendNext w.s i j = false
      simp [sendNext, hhits hx j, hx]

/-- A cycle after which three or more have passed since the last request writes
no FIFO and no ID, but the last of them. -/
theorem still {n : Nat} {w : World} {i : In} {land : List (Nat × Nat)} {pend : Option (Nat × Nat)}
    (h : Inv n w land pend) (hs : 3 ≤ w.since) : pend = none ∧
    ∀ k < n, w.s.wen k = false ∧ w.s.alloc k = false ∧ w.s.send k = false := by
  cases h.phase with
  | idle _ q => exact ⟨rfl, q⟩
  | hit _ _ s => omega
  | new s => omega
  | named _ _ s => omega

theorem inv_next {n : Nat} {w : World} {i : In} {land : List (Nat × Nat)} {pend : Option (Nat × Nat)}
    (hn : 0 < n) (h : Inv n w land pend) (g : Good n w i) : ∃ land' pend', Inv n (w.next n i) land' pend' := by
  obtain ⟨land', pend', h1, h2, h3⟩ := phase_next hn h g
  have ho := land_out h g
  have hsi : (w.next n i).since = if i.next then 1 else w.since + 1 := rfl
  have hro : (w.next n i).room = if (w.next n i).out.length < n then w.room + 1 else 0 := rfl
  have older : ∀ m, 1 ≤ m → m + 1 ≤ (w.next n i).since → i.next = false ∧ m ≤ w.since := by
    intro m hm e
    rw [hsi] at e
    cases x : i.next with
    | false => rw [x] at e; simp at e; exact ⟨rfl, e⟩
    | true => rw [x] at e; simp at e; omega
  have wide : ∀ m, m + 1 ≤ (w.next n i).room → m ≤ w.room := by
    intro m e
    rw [hro] at e
    split at e <;> omega
  have empty_next : 3 ≤ w.since → ∀ k < n, w.s.q k = [] → (w.next n i).s.q k = [] := by
    intro e k hk hq
    obtain ⟨_, q⟩ := still (i := i) h e
    show qNext n w.s i k = []
    simp [qNext, q k hk, hq]
  have known : (∃ k < n, w.s.send k = false) → unknown n w.s = false := by
    rintro ⟨k, hk, e⟩
    unfold unknown
    rw [List.all_eq_false]
    exact ⟨k, List.mem_range.2 hk, by simp [e]⟩
  refine ⟨land', pend', h1, ?_, h2, h3, ?_, ?_, ?_, ?_, ?_, ?_, ?_, ?_, ?_⟩
  · have : (w.next n i).out = landNext w i land ++ pend.toList ++ (if i.next then [(i.id, i.desc)] else []) := by
      rw [← ho]; rfl
    rw [this, List.length_append]
    have hle : (landNext w i land ++ pend.toList).length ≤ w.out.length := by
      rw [← ho]
      cases i.pop with
      | none => exact Nat.le_refl _
      | some k => exact drop_length _ _
    have hf := h.fits
    cases x : i.next with
    | false => simp; simp at hle; omega
    | true =>
      have := h.room1 (by have := (g.apart x).2; omega)
      simp; simp at hle; omega
  · rw [hsi]; split <;> omega
  · intro e k hk hv
    obtain ⟨_, e3⟩ := older 3 (by omega) e
    have : w.s.q k = [] := by
      have hv : (!(w.s.q k).isEmpty) = false := hv
      simpa using hv
    exact empty_next e3 k hk this
  · intro k hk hv
    have hq : w.s.q k = [] := by
      have hv : (!(w.s.q k).isEmpty) = false := hv
      simpa using hv
    cases x : i.next with
    | true => exact Or.inl (empty_next (by have := (g.apart x).1; omega) k hk hq)
    | false =>
      have hl : (w.next n i).last = w.last := by simp [World.next, x]
      have qe : (w.next n i).s.q k = if (w.s.wen k || w.s.alloc k) && decide ((w.s.q k).length < n) then
          rest w.s i k ++ [i.desc] else rest w.s i k := rfl
      have keep : w.s.wen k = false → w.s.alloc k = false → (w.next n i).s.q k = [] := by
        intro a b
        rw [qe, a, b, rest_nil hq]; simp
      rw [hl]
      cases h.phase with
      | idle _ q => exact Or.inl (keep (q k hk).1 (q k hk).2.1)
      | hit j hj _ id wen alloc send =>
        cases e : w.s.wen k with
        | false => exact Or.inl (keep e (alloc k hk))
        | true =>
          refine Or.inr ?_
          rw [(wen k hk).1 e]
          rw [show (w.next n i).s.id j = idNext n w.s i j from rfl, idNext, known ⟨j, hj, send⟩]
          simpa using id
      | new _ wen alloc => exact Or.inl (keep (wen k hk) (alloc k hk))
      | named j hj _ id wen send alloc =>
        cases e : w.s.alloc k with
        | false => exact Or.inl (keep (wen k hk) e)
        | true =>
          refine Or.inr ?_
          rw [(alloc k hk).1 e]
          rw [show (w.next n i).s.id j = idNext n w.s i j from rfl, idNext, known ⟨j, hj, send j hj⟩]
          simpa using id
  · intro k hk j hj hk1 hj1 hid
    have hk1 : (!(w.s.q k).isEmpty) = true := hk1
    have hj1 : (!(w.s.q j).isEmpty) = true := hj1
    have ids : ∀ j, j < n → w.s.q j ≠ [] → (w.next n i).s.id j = w.s.id j := by
      intro j hj hq
      show idNext n w.s i j = _
      cases h.phase with
      | idle _ q => simp [idNext, known ⟨0, hn, (q 0 hn).2.2⟩]
      | hit k hk _ _ _ _ send => simp [idNext, known ⟨k, hk, send⟩]
      | new _ _ _ _ _ empty =>
        have : j ≠ w.s.free := by rintro rfl; exact hq empty
        simp [idNext, this]
      | named _ _ _ _ _ s => simp [idNext, known ⟨0, hn, s 0 hn⟩]
    have a : w.s.q k ≠ [] := by simpa using hk1
    have b : w.s.q j ≠ [] := by simpa using hj1
    rw [ids k hk a, ids j hj b] at hid
    exact h.core.uniq k hk j hj a b hid
  · intro e k hk hr
    obtain ⟨_, e4⟩ := older 4 (by omega) e
    have hr : (!w.s.valid k) = true := hr
    exact empty_next (by omega) k hk (h.valid e4 k hk (by simpa using hr))
  · intro e
    rw [hro] at e
    split at e
    · assumption
    · omega
  · intro e
    have r1 := wide 1 e
    have hl : land.length < n := by
      have := h.room1 r1
      rw [h.out] at this
      simp at this; omega
    obtain ⟨k, hk, hq⟩ := h.core.spare hl
    exact ⟨k, hk, by show (!(w.s.q k).isEmpty) = false; rw [hq]; rfl⟩
  · intro e
    obtain ⟨k, hk, hv⟩ := h.room2 (wide 2 e)
    exact ⟨k, hk, by show (!w.s.valid k) = true; rw [hv]; rfl⟩
  · intro e1 e2
    obtain ⟨k, hk, hr⟩ := h.room3 (wide 3 e1)
    obtain ⟨_, e5⟩ := older 5 (by omega) e2
    have hix : (w.next n i).s.idx = ((List.range n).find? w.s.req).getD 0 := rfl
    cases hf : (List.range n).find? w.s.req with
    | none =>
      rw [List.find?_eq_none] at hf
      exact absurd hr (hf k (List.mem_range.2 hk))
    | some j =>
      have h1 := List.find?_some hf
      have h2 := List.mem_range.1 (List.mem_of_find?_eq_some hf)
      rw [hix, hf]
      exact ⟨h2, empty_next (by omega) j h2 (h.req e5 j h2 h1)⟩

theorem inv_run {n : Nat} (hn : 0 < n) (t : List In) {w : World} {land : List (Nat × Nat)} {pend : Option (Nat × Nat)}
    (h : Inv n w land pend) (g : All n w t) : ∃ land' pend', Inv n (w.run n t) land' pend' := by
  induction t generalizing w land pend with
  | nil => exact ⟨land, pend, h⟩
  | cons i t ih =>
    obtain ⟨l, p, h'⟩ := inv_next hn h g.1
    exact ih h' g.2

end Verif.RtlAxid
