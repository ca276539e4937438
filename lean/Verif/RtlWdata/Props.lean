import Verif.RtlWdata.Soon

/-!
# Write data of the AXI RTL slave bridge

For every history of requests and beats in which a descriptor is not given
again before it was announced.
-/

namespace Verif.RtlWdata

/-- The first burst goes to the place of the first request, beat after beat,
the second to that of the second and so on: no beat is lost, doubled or put
elsewhere.  The descriptors are announced in the order of the requests, each
when the last beat of its burst is written, with the right word about missing
strobes and with an error if and only if the burst had not the length of the
request.

`_partial`: a burst longer than its request is written to the end, over what
comes after its place (`long_burst_overwrites`). -/
theorem in_order_partial (c : Cfg) (t : List In) (p : AllPolite c .start t) :
    let w := World.start.run c t
    ∃ v, Pairs c w v ∧ w.writes ++ w.writing = v.writes c ∧ w.told ++ w.telling = v.done.map tell := by
  obtain ⟨v, h⟩ := inv_run t (inv_start c) p
  exact ⟨v, h.pairs, h.writes, h.told⟩

/-- When nothing comes in for 46 cycles, every beat which has a request is in
the RAM and every finished burst is announced; if no beat is left over, the
bridge takes beats again. -/
theorem all_stored_partial (c : Cfg) (t : List In) (p : AllPolite c .start t) (n : Nat) (hn : 46 ≤ n) :
    let w := World.start.run c (t ++ List.replicate n .quiet)
    ∃ v, Pairs c w v ∧ w.writes = v.writes c ∧ w.told = v.done.map tell ∧ (v.rest = [] ∨ v.reqs = []) ∧
      (v.rest = [] → w.s.ready = true) := by
  obtain ⟨v, h⟩ := inv_run t (inv_start c) p
  rw [run_append]
  generalize World.start.run c t = w0 at h
  obtain ⟨m, rfl⟩ : ∃ m, n = m + 1 := ⟨n - 1, by omega⟩
  have hl := left_le h
  obtain ⟨⟨v1, h1⟩, hr1⟩ := rest_run (c := c) m h (.inr (by omega))
  have hr1 := hr1 (by omega)
  have e : w0.run c (List.replicate (m + 1) .quiet) = (w0.run c (List.replicate m .quiet)).next c .quiet := by
    rw [List.replicate_succ', run_append]
    rfl
  rw [e]
  generalize w0.run c (List.replicate m .quiet) = w1 at h1 hr1
  have hr2 := rest_next h1 hr1
  have hav : (w1.next c .quiet).telling = [] := by
    refine telling_none fun j => ?_
    show availNext c w1.s j = _
    rcases hr1.st with ⟨hs, _⟩ | ⟨hs, _⟩
    · simp only [availNext, hs]
    · simp only [availNext, hs]
      exact telling_avail h1 (by rw [hs]; decide) j
  obtain ⟨v2, h2⟩ := inv_next h1 (polite_quiet (c := c) (w := w1))
  have hwr : (w1.next c .quiet).writing = [] := by
    unfold World.writing
    rw [hr2.we]
    rfl
  have hit : (w1.next c .quiet).s.w.items = w1.s.w.items := by
    have n1 := h1.now
    unfold Now at n1
    rw [items_next h1, hr1.din]
    rcases hr1.st with ⟨hs, _⟩ | ⟨hs, _⟩ <;> rw [hs] at n1 <;> dsimp only at n1
    · rw [n1.2.2.2.1]
      simp
    · rw [n1.2.2.1]
      simp
  have n2 := h2.now
  unfold Now at n2
  have hrest : v2.rest = (w1.next c .quiet).s.w.items := by
    rcases hr2.st with ⟨hs, _⟩ | ⟨hs, _⟩ <;> rw [hs] at n2 <;> dsimp only at n2
    · rw [n2.2.1, hr2.din]
      simp
    · rw [n2.2.1, hr2.din]
      simp
  refine ⟨v2, h2.pairs, ?_, ?_, ?_, ?_⟩
  · have := h2.writes
    rw [hwr, List.append_nil] at this
    exact this
  · have := h2.told
    rw [hav, List.append_nil] at this
    exact this
  · rcases hr2.st with ⟨hs, hb⟩ | ⟨hs, hb⟩
    · rw [hs] at n2
      dsimp only at n2
      rcases hb with hb | hb
      · right
        have := n2.2.2.1
        rw [hb] at this
        simpa using this
      · left
        rw [hrest, hb]
    · left
      rw [hrest, hb]
  · intro hv
    rw [hv, hit] at hrest
    show (!decide (6 ≤ w1.s.w.items.length)) = true
    rw [← hrest]
    rfl

/-! ## The RAM -/

def store (m : Nat → Nat) (l : List (Nat × Nat)) : Nat → Nat := l.foldl (fun m x => set m x.1 x.2) m

theorem ram_next {c : Cfg} {w : World} {i : In} {m : Nat → Nat} (h : w.s.ram = store m w.writes) :
    (w.next c i).s.ram = store m (w.next c i).writes := by
  show (if w.s.we then set w.s.ram w.s.addr w.s.data else w.s.ram) = store m (w.writes ++ w.writing)
  unfold World.writing
  rw [h]
  split
  · simp [store, List.foldl_append]
  · simp [store]

theorem ram_run {c : Cfg} {m : Nat → Nat} (t : List In) : ∀ {w : World}, w.s.ram = store m w.writes →
    (w.run c t).s.ram = store m (w.run c t).writes := by
  induction t with
  | nil => exact fun h => h
  | cons i t ih => exact fun h => ih (ram_next h)

/-- Places not written keep what they had. -/
theorem store_other (l : List (Nat × Nat)) : ∀ (m : Nat → Nat) (a : Nat), (∀ x ∈ l, x.1 ≠ a) → store m l a = m a := by
  induction l with
  | nil => exact fun _ _ _ => rfl
  | cons x l ih =>
    intro m a h
    show store (set m x.1 x.2) l a = _
    rw [ih _ _ fun y hy => h y (List.mem_cons_of_mem _ hy)]
    have := h x (List.mem_cons_self ..)
    rw [set_apply, if_neg (Ne.symm this)]

theorem mod_ne {n a j k : Nat} (hjk : j < k) (hk : k < n) : (a + j) % n ≠ (a + k) % n := by
  intro h
  have h1 := Nat.div_add_mod (a + j) n
  have h2 := Nat.div_add_mod (a + k) n
  rw [h] at h1
  have hlt : n * ((a + j) / n) < n * ((a + k) / n) := by omega
  have hle : n * ((a + j) / n) + n ≤ n * ((a + k) / n) := by
    have := Nat.lt_of_mul_lt_mul_left hlt
    calc n * ((a + j) / n) + n = n * ((a + j) / n + 1) := by rw [Nat.mul_add, Nat.mul_one]
      _ ≤ _ := Nat.mul_le_mul_left n this
  omega

theorem store_places (c : Cfg) (r : Req) (b : List Beat) (m : Nat → Nat) (h : b.length ≤ c.words) (j : Nat) (x : Beat)
    (hx : b[j]? = some x) : store m (places c r b) ((r.off + j) % c.words) = x.data := by
  have hj : j < b.length := (List.getElem?_eq_some_iff.mp hx).1
  have e : places c r b = (places c r b).take j ++ (((r.off + j) % c.words, x.data) :: (places c r b).drop (j + 1)) := by
    have hlen : j < (places c r b).length := by simpa [places] using hj
    have hget : (places c r b)[j] = ((r.off + j) % c.words, x.data) := by
      have := (List.getElem?_eq_some_iff.mp hx).2
      simp [places, this]
    rw [← hget, ← List.drop_eq_getElem_cons hlen, List.take_append_drop]
  rw [e]
  unfold store
  rw [List.foldl_append, List.foldl_cons]
  show store _ _ _ = _
  rw [store_other, set_apply, if_pos rfl]
  intro y hy
  obtain ⟨k, hk, ek⟩ := List.getElem_of_mem hy
  rw [List.getElem_drop] at ek
  have hk' : j + 1 + k < b.length := by
    simp [places] at hk
    omega
  have e1 : y.1 = (r.off + (j + 1 + k)) % c.words := by
    rw [← ek]
    simp [places]
  rw [e1]
  exact (mod_ne (by omega) (by omega)).symm

/-- When a descriptor is announced, the RAM holds the burst of its request: at
the clock edge at which software can first see it, every beat is at its place.

`_partial`: until then only; that it stays there needs that no other burst is
longer than its request. -/
theorem data_there_partial (c : Cfg) (t : List In) (p : AllPolite c .start t) (i : In) (x : Told)
    (hx : x ∈ (World.start.run c t).telling) :
    ∃ v r b, Pairs c (World.start.run c t) v ∧ (∃ d, v.done = d ++ [(r, b)]) ∧ x = tell (r, b) ∧
      (b.length ≤ c.words → ∀ j y, b[j]? = some y →
        ((World.start.run c t).next c i).s.ram ((r.off + j) % c.words) = y.data) := by
  obtain ⟨v, h⟩ := inv_run t (inv_start c) p
  have hram := ram_run (c := c) (m := fun _ => 0) t (w := .start) rfl
  generalize World.start.run c t = w at h hram hx
  rcases h.avail with ha | ⟨hs, a, ha, hav⟩
  · rw [telling_none ha] at hx
    exact absurd hx (by simp)
  · have ht := telling_one ha hav
    have htold := h.told
    rw [ht] at htold hx
    rw [List.mem_singleton] at hx
    have hne : v.done ≠ [] := by
      intro e
      rw [e] at htold
      simp at htold
    obtain ⟨d, ⟨r, b⟩, e⟩ : ∃ d y, v.done = d ++ [y] := ⟨v.done.dropLast, v.done.getLast hne, (List.dropLast_concat_getLast hne).symm⟩
    rw [e, List.map_append] at htold
    have hlast := (List.append_inj' htold rfl).2
    rw [List.map_singleton, List.singleton_inj] at hlast
    refine ⟨v, r, b, h.pairs, ⟨d, e⟩, by rw [hx, hlast], ?_⟩
    intro hb j y hy
    rw [ram_next hram]
    have hw : (w.next c i).writes = v.writes c := h.writes
    have n := h.now
    unfold Now at n
    rw [hs] at n
    dsimp only at n
    have e2 : v.writes c = d.flatMap (fun d => places c d.1 d.2) ++ places c r b := by
      unfold View.writes
      rw [n.1, e]
      cases v.reqs <;> simp [places]
    rw [hw, e2]
    unfold store
    rw [List.foldl_append]
    exact store_places c r b _ hb j y hy

/-! ## The error status -/

theorem bad_next {c : Cfg} {w : World} {i : In} (h : (∃ d ∈ w.told, d.wrong = true) ∨ w.flagged = true) :
    (∃ d ∈ (w.next c i).told, d.wrong = true) ∨ (w.next c i).flagged = true := by
  rcases h with ⟨d, hd, e⟩ | h
  · exact .inl ⟨d, List.mem_append_left _ hd, e⟩
  · cases ht : w.telling with
    | nil =>
      right
      rw [flagged_next, ht, h]
      rfl
    | cons x l =>
      left
      refine ⟨x, List.mem_append_right _ (by rw [ht]; exact List.mem_cons_self ..), ?_⟩
      have hx : x ∈ w.telling := by rw [ht]; exact List.mem_cons_self ..
      obtain ⟨j, _, e⟩ := List.mem_map.mp hx
      rw [← e]
      exact h

/-- No error is there without a burst of wrong length. -/
def NoFalse (w : World) : Prop :=
  w.s.anyErr || w.prev || w.s.ctl || w.s.ctlFf || w.s.status → (∃ d ∈ w.told, d.wrong = true) ∨ w.flagged = true

theorem noFalse_next {c : Cfg} {w : World} {i : In} (ho : i.other = false) (h : NoFalse w) : NoFalse (w.next c i) := by
  intro hx
  simp only [Bool.or_eq_true] at hx
  have old : (w.s.anyErr || w.prev || w.s.ctl || w.s.ctlFf || w.s.status) = true →
      (∃ d ∈ (w.next c i).told, d.wrong = true) ∨ (w.next c i).flagged = true := fun k => bad_next (h k)
  rcases hx with (((hx | hx) | hx) | hx) | hx
  · cases hp : w.s.anyErr with
    | true => exact old (by rw [hp]; simp)
    | false =>
      right
      rw [flagged_next, hx, hp]
      simp
  · have hx : w.s.anyErr = true := hx
    exact old (by rw [hx]; simp)
  · have hx : (w.s.anyErr || i.other) = true := hx
    rw [ho, Bool.or_false] at hx
    exact old (by rw [hx]; simp)
  · have hx : w.s.ctl = true := hx
    exact old (by rw [hx]; simp)
  · have hx : statusNext w.s i = true := hx
    unfold statusNext at hx
    split at hx
    · rename_i hc
      rw [Bool.and_eq_true] at hc
      exact old (by rw [hc.1]; simp)
    · split at hx
      · exact absurd hx (by simp)
      · exact old (by rw [hx]; simp)

theorem noFalse_run {c : Cfg} (t : List In) : ∀ {w : World}, (∀ i ∈ t, i.other = false) → NoFalse w → NoFalse (w.run c t) := by
  induction t with
  | nil => exact fun _ h => h
  | cons i t ih =>
    intro w o h
    exact ih (fun j hj => o j (List.mem_cons_of_mem _ hj)) (noFalse_next (o i (List.mem_cons_self ..)) h)

/-- Without errors of another kind, the error status is set only when a burst
was longer or shorter than its request. -/
theorem error_only_if_wrong (c : Cfg) (t : List In) (p : AllPolite c .start t) (o : ∀ i ∈ t, i.other = false)
    (hs : (World.start.run c t).s.status = true) :
    ∃ v, Pairs c (World.start.run c t) v ∧
      ((∃ d ∈ v.done, d.2.length ≠ d.1.len + 1) ∨ ∃ r rs, v.reqs = r :: rs ∧ r.len + 1 ≤ v.part.length) := by
  obtain ⟨v, h⟩ := inv_run t (inv_start c) p
  have hf := noFalse_run (c := c) t (w := .start) o (by intro h; simp [World.start, reset, Regs.anyErr] at h)
  generalize World.start.run c t = w at h hf hs
  refine ⟨v, h.pairs, ?_⟩
  have ofTold : ∀ x ∈ w.told ++ w.telling, x.wrong = true → ∃ d ∈ v.done, d.2.length ≠ d.1.len + 1 := by
    intro x hx e
    rw [h.told] at hx
    obtain ⟨d, hd, e'⟩ := List.mem_map.mp hx
    refine ⟨d, hd, ?_⟩
    rw [← e'] at e
    simpa [tell] using e
  rcases hf (by rw [hs]; simp) with ⟨d, hd, e⟩ | hfl
  · exact .inl (ofTold d (List.mem_append_left _ hd) e)
  · have con : Con c w v → ∃ r rs, v.reqs = r :: rs ∧ r.len + 1 ≤ v.part.length := by
      intro k
      obtain ⟨r, rs, e1, _, _, _, _, _, _, e8⟩ := k.own
      rw [hfl] at e8
      exact ⟨r, rs, e1, of_decide_eq_true e8.symm⟩
    have n := h.now
    unfold Now at n
    cases hs : w.s.st <;> rw [hs] at n <;> dsimp only at n
    · left
      cases ht : w.telling with
      | nil =>
        have := n.2.2.2.2.2.2 ht
        rw [hfl] at this
        exact absurd this (by simp)
      | cons x l =>
        have hx : x ∈ w.telling := by rw [ht]; exact List.mem_cons_self ..
        refine ofTold x (List.mem_append_right _ hx) ?_
        obtain ⟨j, _, e⟩ := List.mem_map.mp hx
        rw [← e]
        exact hfl
    · have := n.2.2.2.2.2.2.2.2
      rw [hfl] at this
      exact absurd this (by simp)
    · obtain ⟨_, b, r, rs, _, _, _, _, _, _, _, _, e9, _⟩ := n
      rw [hfl] at e9
      exact absurd e9 (by simp)
    · exact .inr (con n.1)
    · exact .inr (con n.1)
    · exact .inr (con n.1)

/-- Without errors of another kind, a new error of length is in the status two
cycles later, whatever software clears meanwhile.

`_partial`: with errors of another kind one of the two can go unseen
(`other_error_lost`). -/
theorem error_reaches_status_partial (c : Cfg) (t : List In) (o : ∀ i ∈ t, i.other = false) (i j : In)
    (h : (World.start.run c t).s.anyErr = true) (hp : (World.start.run c t).prev = false) :
    (((World.start.run c t).next c i).next c j).s.status = true := by
  have key : ∀ (t : List In) (w : World), w.s.ctl = w.prev → (∀ i ∈ t, i.other = false) → (w.run c t).s.ctl = (w.run c t).prev := by
    intro t
    induction t with
    | nil => exact fun _ h _ => h
    | cons i t ih =>
      intro w _ o
      refine ih (w.next c i) ?_ fun j hj => o j (List.mem_cons_of_mem _ hj)
      show (w.s.anyErr || i.other) = w.s.anyErr
      rw [o i (List.mem_cons_self ..), Bool.or_false]
  have hc := key t .start rfl o
  generalize World.start.run c t = w at h hp hc
  show statusNext (step c w.s i) j = true
  have h1 : (step c w.s i).ctl = true := by
    show (w.s.anyErr || i.other) = true
    rw [h]
    rfl
  have h2 : (step c w.s i).ctlFf = false := by
    show w.s.ctl = false
    rw [hc, hp]
  unfold statusNext
  rw [h1, h2]
  rfl

end Verif.RtlWdata
