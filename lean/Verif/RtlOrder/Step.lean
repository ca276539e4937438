import Verif.RtlOrder.Lemmas

/-! # One cycle -/

namespace Verif.RtlOrder

open RtlFifo (Queue)

section
variable {ι : Type} [DecidableEq ι]

theorem any_iff {v : Nat → Bool} : any v = true ↔ ∃ k, k < 16 ∧ v k = true := by simp [any]

theorem any_false {v : Nat → Bool} : any v = false ↔ ∀ k, k < 16 → v k = false := by simp [any]

theorem lowest_some {v : Nat → Bool} {d : Nat} (h : lowest v = some d) : d < 16 ∧ v d = true :=
  ⟨List.mem_range.1 (List.mem_of_find?_eq_some h), by simpa using List.find?_some h⟩

theorem lowest_none {v : Nat → Bool} (h : lowest v = none) : ∀ k, k < 16 → v k = false := by
  intro k hk
  have := List.find?_eq_none.1 h k (List.mem_range.2 hk)
  simpa using this

/-- What waits to be written, while the request is accepted. -/
def FillOK (s : Regs ι) (Q : Nat → List Nat) (d : Nat) (x : ι) : Prop :=
  d < 16 ∧ (∀ j, d ∉ Q j) ∧ ∃ t, t < 16 ∧ (∀ k, k ≠ t → Q k ≠ [] → s.ids k ≠ some x) ∧
    ((s.ids t = some x ∧ ∀ k, s.matched k = decide (k = t)) ∨
     (Q t = [] ∧ (∀ k, s.matched k = false) ∧ ∀ k, s.new k = decide (k = t)))

structure Inv (w : World ι) (q : Nat → Queue Nat) (f : Flight ι) : Prop where
  fifo : ∀ j, RtlFifo.Inv fc (w.s.fifo j) (q j)
  ff : w.s.initFf = w.prev
  held : Held (fun j => (q j).items) w.s.ids w.acc w.sent f
  idle : f = none → (∀ j, w.s.wren j = false) ∧ w.s.stage ≠ .done
  fill : ∀ d x, w.s.stage = .fill d x → f = none ∧ FillOK w.s (fun j => (q j).items) d x
  done : ∀ t d x, f = some (t, d, x) → w.s.stage = .done ∧ w.s.din = d ∧ ∀ j, w.s.wren j = decide (j = t)
  pre : ∀ j, (q j).items ≠ [] → (w.s.fifo j).pre = (q j).items.head? ∨
    (w.just j = true ∧ ∃ y, (q j).items = [y] ∧ w.s.req y = false)
  req : ∀ d, d < 16 → w.s.req d = true → ∃ j, d ∈ (q j).items
  proc : ∀ d, w.s.proc d = true → w.s.req d = true
  fail : ∀ d, w.s.fail d = true → w.s.req d = true
  ser : (∀ k, w.s.ser k = false) ∧ (∀ j, w.s.rden j = false) ∧
      (∀ k, w.s.fail k = true → ∀ j, (q j).items.head? ≠ some k) ∨
    ∃ d j, (∀ k, w.s.ser k = decide (k = d)) ∧ (∀ k, w.s.rden k = decide (k = j)) ∧ w.s.sig = d ∧
      (q j).items.head? = some d ∧ w.s.req d = true
  asked : ∀ d, d < 16 → w.asked.count d = uses w.sent d + if w.s.req d then 1 else 0

theorem inv_start : Inv (World.start : World ι) (fun _ => ⟨[], none⟩) none where
  fifo := fun _ => RtlFifo.inv_reset fc
  ff := rfl
  held := held_start
  idle := fun _ => ⟨fun _ => rfl, by simp [World.start, reset]⟩
  fill := by simp [World.start, reset]
  done := by simp
  pre := by simp
  req := by simp [World.start, reset]
  proc := by simp [World.start, reset]
  fail := by simp [World.start, reset]
  ser := by left; simp [World.start, reset]
  asked := by simp [World.start, reset, uses]

/-- The queues after a cycle. -/
def qNext (s : Regs ι) (q : Nat → Queue Nat) : Nat → Queue Nat := fun j => (q j).next 16 ⟨s.wren j, s.rden j, s.din⟩

omit [DecidableEq ι] in
theorem items_next (s : Regs ι) (q : Nat → Queue Nat) (j : Nat) (h : s.wren j = true → (q j).items.length < 16) :
    (qNext s q j).items = (if s.rden j then (q j).items.drop 1 else (q j).items) ++ if s.wren j then [s.din] else [] := by
  unfold qNext Queue.next
  dsimp only
  cases hw : s.wren j
  · simp
  · simp [h hw]

/-- There is room. -/
theorem room {w : World ι} {q : Nat → Queue Nat} {f : Flight ι} (v : Inv w q f) (j : Nat) (h : w.s.wren j = true) :
    (q j).items.length < 16 := by
  cases hf : f with
  | none => rw [(v.idle hf).1 j] at h; cases h
  | some p =>
    obtain ⟨t, d, x⟩ := p
    obtain ⟨_, _, _, hd, hout, _, _⟩ := v.held.fly t d x hf
    have hn : (d :: (q j).items).Nodup := List.nodup_cons.2 ⟨hout j, v.held.nodup j⟩
    have := List.Nodup.length_le_of_subset hn (l₂ := List.range 16) (by
      intro a ha
      rcases List.mem_cons.1 ha with rfl | ha
      · exact List.mem_range.2 hd
      · exact List.mem_range.2 (v.held.el j a ha))
    simp only [List.length_cons, List.length_range] at this
    omega

/-- The state of the FIFOs after the read of a cycle. -/
def popped (s : Regs ι) (q : Nat → Queue Nat) : Nat → List Nat := fun j => if s.rden j then (q j).items.drop 1 else (q j).items

omit [DecidableEq ι] in
theorem mem_popped {s : Regs ι} {q : Nat → Queue Nat} {j d : Nat} (h : d ∈ popped s q j) : d ∈ (q j).items := by
  unfold popped at h
  split at h
  · exact List.mem_of_mem_drop h
  · exact h

omit [DecidableEq ι] in
theorem popped_ne {s : Regs ι} {q : Nat → Queue Nat} {j : Nat} (h : popped s q j ≠ []) : (q j).items ≠ [] := by
  intro hc
  apply h
  unfold popped
  rw [hc]
  simp

theorem held_popped {w : World ι} {q : Nat → Queue Nat} {f : Flight ι} (v : Inv w q f) :
    Held (popped w.s q) w.s.ids w.acc (w.sent ++ w.sends) f := by
  rcases v.ser with ⟨_, hr, _⟩ | ⟨d, j, _, hr, hs, hh, _⟩
  · have h1 : w.sends = [] := by
      unfold World.sends
      rw [if_neg]
      simp [any_iff, hr]
    have h2 : popped w.s q = fun j => (q j).items := by
      funext j
      simp [popped, hr]
    rw [h1, h2, List.append_nil]
    exact v.held
  · obtain ⟨r, hq⟩ : ∃ r, (q j).items = d :: r := by
      cases h : (q j).items with
      | nil => rw [h] at hh; cases hh
      | cons a r => rw [h] at hh; cases hh; exact ⟨r, rfl⟩
    have hne : (q j).items ≠ [] := by rw [hq]; simp
    obtain ⟨x, hx⟩ := v.held.idsome j hne
    have hl := v.held.lab j d x (by rw [hq]; simp) hx
    have h1 : w.sends = [(d, x)] := by
      unfold World.sends
      rw [if_pos (any_iff.2 ⟨j, v.held.lt j hne, by simp [hr]⟩), hs]
      unfold lastOf at hl
      rw [hl]
      rfl
    have h2 : popped w.s q = upd (fun j => (q j).items) j r := by
      funext k
      unfold popped
      rw [hr]
      by_cases hk : k = j
      · subst hk; simp [hq]
      · simp [hk, upd]
    rw [h1, h2]
    exact v.held.pop hq hx

/-- What is under way after a cycle. -/
def flightNext (w : World ι) : Flight ι → Flight ι
  | some _ => none
  | none =>
    match w.s.stage with
    | .fill d x => (lowest (fun k => if any w.s.matched then w.s.matched k else w.s.new k)).map fun t => (t, d, x)
    | _ => none

theorem lowest_single {v : Nat → Bool} {t : Nat} (ht : t < 16) (h : ∀ k, v k = decide (k = t)) : lowest v = some t := by
  cases hl : lowest v with
  | none =>
    have := lowest_none hl t ht
    rw [h t] at this
    simp at this
  | some d =>
    have := (lowest_some hl).2
    rw [h d] at this
    simpa using this

/-- The facts about a request being accepted. -/
theorem fill_facts {w : World ι} {q : Nat → Queue Nat} {f : Flight ι} (v : Inv w q f) {d : Nat} {x : ι} (h : w.s.stage = .fill d x) :
    ∃ t, t < 16 ∧ flightNext w f = some (t, d, x) ∧ (∀ j, wrenNext w.s j = decide (j = t)) ∧
      ((w.s.ids t = some x ∧ idsNext w.s = w.s.ids) ∨ ((q t).items = [] ∧ idsNext w.s = upd w.s.ids t (some x))) ∧
      (∀ k, k ≠ t → (q k).items ≠ [] → w.s.ids k ≠ some x) := by
  obtain ⟨hf, hd, hout, t, ht, hoth, hc⟩ := v.fill d x h
  obtain ⟨hw, -⟩ := v.idle hf
  subst hf
  refine ⟨t, ht, ?_⟩
  rcases hc with ⟨hid, hm⟩ | ⟨hq, hm, hn⟩
  · have ha : any w.s.matched = true := any_iff.2 ⟨t, ht, by simp [hm]⟩
    refine ⟨?_, ?_, .inl ⟨hid, ?_⟩, hoth⟩
    · simp only [flightNext, h, ha, if_true]
      rw [lowest_single ht hm]
      rfl
    · intro j
      simp [wrenNext, h, ha, hm, hw]
    · simp [idsNext, h, ha]
  · have ha : any w.s.matched = false := any_false.2 fun k _ => hm k
    refine ⟨?_, ?_, .inr ⟨hq, ?_⟩, hoth⟩
    · simp only [flightNext, h, ha, Bool.false_eq_true, if_false]
      rw [lowest_single ht hn]
      rfl
    · intro j
      simp [wrenNext, h, ha, hn, hw]
    · funext k
      simp [idsNext, h, ha, hn, upd]

theorem held_next {w : World ι} {q : Nat → Queue Nat} {f : Flight ι} (v : Inv w q f) :
    Held (fun j => (qNext w.s q j).items) (idsNext w.s) (w.acc ++ w.accepts) (w.sent ++ w.sends) (flightNext w f) := by
  have hp := held_popped v
  have hi : ∀ j, (qNext w.s q j).items = popped w.s q j ++ if w.s.wren j then [w.s.din] else [] := fun j => items_next _ _ _ (room v j)
  cases hf : f with
  | some p =>
    obtain ⟨t, d, x⟩ := p
    obtain ⟨hst, hdin, hw⟩ := v.done t d x hf
    subst hf
    have h1 : (fun j => (qNext w.s q j).items) = upd (popped w.s q) t (popped w.s q t ++ [d]) := by
      funext j
      rw [hi, hw, hdin]
      by_cases hj : j = t
      · subst hj; simp
      · simp [hj, upd]
    have h2 : idsNext w.s = w.s.ids := by simp [idsNext, hst]
    have h3 : w.accepts = [] := by simp [World.accepts, hst]
    rw [h1, h2, h3, List.append_nil]
    exact hp.push
  | none =>
    obtain ⟨hw, hnd⟩ := v.idle hf
    have h1 : (fun j => (qNext w.s q j).items) = popped w.s q := by
      funext j
      rw [hi, hw]
      simp
    rw [h1]
    cases hst : w.s.stage with
    | done => exact absurd hst hnd
    | idle =>
      have h2 : idsNext w.s = w.s.ids := by simp [idsNext, hst]
      have h3 : w.accepts = [] := by simp [World.accepts, hst]
      have h4 : flightNext w none = none := by simp [flightNext, hst]
      rw [h2, h3, h4, List.append_nil, ← hf]
      exact hp
    | fill d x =>
      obtain ⟨t, ht, hfl, _, hids, hoth⟩ := fill_facts v hst
      obtain ⟨_, hd, hout, _⟩ := v.fill d x hst
      have h3 : w.accepts = [(d, x)] := by simp [World.accepts, hst]
      rw [h3, ← hf, hfl]
      rw [hf] at hp
      refine hp.accept ht hd (fun j hj => hout j (mem_popped hj)) ?_ (fun k hk h => hoth k hk (popped_ne h))
      rcases hids with h | ⟨h, h'⟩
      · exact .inl h
      · refine .inr ⟨?_, h'⟩
        exact Classical.byContradiction fun hc => popped_ne hc h

end

end Verif.RtlOrder
