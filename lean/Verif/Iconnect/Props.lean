import Verif.Iconnect.Model

/-! # C14, C15: interconnect routing and DMI translation -/

namespace Verif.Iconnect

/-! ## Specification -/

/-- A region the user asked for. -/
structure Region where
  base : Nat
  size : Nat
  absolute : Bool
  deriving DecidableEq, Repr

/-- A usable region: not empty and ending below the top of the address space. -/
def Region.Wf (r : Region) : Prop := 0 < r.size ∧ r.base + r.size < M

def Region.contains (r : Region) (a : Nat) : Prop := r.base ≤ a ∧ a < r.base + r.size

/-- The address a target sees. -/
def Region.local (r : Region) (a : Nat) : Nat := if r.absolute then a else a - r.base

/-- Mapping a list of regions one after the other, each to its own socket. -/
def mapAll (map : List Slot) : List Region → Option (List Slot)
  | [] => some map
  | r :: rs =>
    match memmap map r.base r.size r.absolute none with
    | none => none
    | some (m, _) => mapAll m rs

/-! ## Lemmas -/

def entries (k : Nat) : List Region → List Slot
  | [] => []
  | r :: rs => some { addr := r.base, size := r.size, absolute := r.absolute, sk := k } :: entries (k + 1) rs

theorem entries_append (k : Nat) (rs ss : List Region) :
    entries k (rs ++ ss) = entries k rs ++ entries (k + rs.length) ss := by
  induction rs generalizing k with
  | nil => rfl
  | cons r rs ih =>
    simp only [List.cons_append, entries, ih, List.length_cons]
    congr 3; omega

theorem memmapFrom_entries (rs : List Region) (h : ∀ r ∈ rs, 0 < r.size) (k : Nat) (e : Entry) (he : e.size = 0)
    (rest : List Slot) (r : Region) :
    memmapFrom r.base r.size r.absolute none k (entries k rs ++ some e :: rest) =
      some (entries k rs ++ some { addr := r.base, size := r.size, absolute := r.absolute, sk := k + rs.length } :: rest,
        k + rs.length) := by
  induction rs generalizing k with
  | nil => simp [entries, memmapFrom, he]
  | cons x xs ih =>
    have hx : ¬ x.size = 0 := by have := h x (by simp); omega
    simp only [entries, List.cons_append, memmapFrom, hx, if_false]
    rw [ih (fun r hr => h r (by simp [hr])) (k + 1)]
    have e1 : k + 1 + xs.length = k + (x :: xs).length := by simp; omega
    rw [e1]
    rfl

/-- **C14 (mapping).** Mapping up to `N_TARGETS` non-empty regions succeeds and
gives region `i` the target socket `i`. -/
theorem mapAll_init (n : Nat) (rs : List Region) (hn : rs.length ≤ n) (h : ∀ r ∈ rs, 0 < r.size) :
    ∃ rest, mapAll (init n) rs = some (entries 0 rs ++ rest) := by
  suffices H : ∀ (done todo : List Region) (free : List Slot) (tail : List Slot),
      (∀ r ∈ done, 0 < r.size) → (∀ r ∈ todo, 0 < r.size) → todo.length ≤ free.length →
      (∀ s ∈ free, ∃ e, s = some e ∧ e.size = 0) →
      ∃ rest, mapAll (entries 0 done ++ (free ++ tail)) todo = some (entries 0 (done ++ todo) ++ rest) by
    have := H [] rs (List.replicate n (some { addr := 0, size := 0, absolute := false, sk := 0 }))
      (List.replicate (n * 3) none) (by simp) h (by simpa using hn)
      (by intro s hs; exact ⟨_, List.eq_of_mem_replicate hs, rfl⟩)
    simpa [entries, init] using this
  intro done todo
  induction todo generalizing done with
  | nil => intro free tail _ _ _ _; exact ⟨free ++ tail, by simp [mapAll]⟩
  | cons r rs ih =>
    intro free tail hd ht hl hf
    cases free with
    | nil => simp at hl
    | cons f fs =>
      obtain ⟨e, rfl, he⟩ := hf f (by simp)
      simp only [mapAll, memmap, List.cons_append]
      rw [memmapFrom_entries done hd 0 e he (fs ++ tail) r]
      simp only [Nat.zero_add]
      have hstep : entries 0 done ++ some { addr := r.base, size := r.size, absolute := r.absolute, sk := done.length } ::
          (fs ++ tail) = entries 0 (done ++ [r]) ++ (fs ++ tail) := by
        rw [entries_append]; simp [entries]
      rw [hstep]
      obtain ⟨rest, hr⟩ := ih (done ++ [r]) fs tail
        (by intro x hx; rcases List.mem_append.mp hx with h1 | h1
            · exact hd x h1
            · simp at h1; subst h1; exact ht x (by simp))
        (fun x hx => ht x (by simp [hx])) (by simpa using hl) (fun s hs => hf s (by simp [hs]))
      exact ⟨rest, by simpa using hr⟩

theorem mapAddress_skip (rs : List Region) (k : Nat) (a : Nat) (rest : List Slot)
    (h : ∀ r ∈ rs, r.base + r.size < M ∧ ¬ (r.base ≤ a ∧ a ≤ r.base + r.size)) :
    mapAddress (entries k rs ++ rest) a = mapAddress rest a := by
  induction rs generalizing k with
  | nil => rfl
  | cons x xs ih =>
    have hx := h x (by simp)
    simp only [entries, List.cons_append, mapAddress]
    rw [if_neg]
    · exact ih (k + 1) (fun r hr => h r (by simp [hr]))
    · rintro ⟨_, h2, h3⟩
      rw [Nat.mod_eq_of_lt hx.1] at h3
      exact hx.2 ⟨h2, h3⟩

/-! ## C14 -/

/-- **C14 (routing, part).** After mapping any regions `pre ++ r :: post` (at
most as many as there are target sockets), an access by an initiator without
offset to an address inside region `r`, which no earlier region contains *or
ends at*, is sent to that region's target with the relative or absolute address
asked for; the payload's address is afterwards what it was before. -/
theorem routed_to_region_partial (n : Nat) (pre post : List Region) (r : Region) (a : Nat)
    (hn : (pre ++ r :: post).length ≤ n) (hwf : ∀ x ∈ pre ++ r :: post, x.Wf)
    (hin : r.contains a) (hpre : ∀ x ∈ pre, ¬ x.contains a ∧ a ≠ x.base + x.size) :
    ∃ map, mapAll (init n) (pre ++ r :: post) = some map ∧
      bTransport map 0 a = some { target := pre.length, offset := some (r.local a), addrAfter := a } := by
  obtain ⟨rest, hm⟩ := mapAll_init n (pre ++ r :: post) hn (fun x hx => (hwf x hx).1)
  refine ⟨_, hm, ?_⟩
  have hr := hwf r (by simp)
  have ha : (a + 0) % M = a := by
    rw [Nat.add_zero, Nat.mod_eq_of_lt]
    have := hin.2; have := hr.2; omega
  unfold bTransport
  simp only [ha]
  rw [entries_append, List.append_assoc, mapAddress_skip]
  · simp only [entries, List.cons_append, mapAddress, Nat.zero_add]
    have hs := hr.1
    rw [if_pos ⟨by omega, hin.1, by rw [Nat.mod_eq_of_lt hr.2]; have := hin.2; omega⟩]
    rfl
  · intro x hx
    refine ⟨(hwf x (by simp [hx])).2, ?_⟩
    rintro ⟨h1, h2⟩
    have := hpre x hx
    exact this.1 ⟨h1, by omega⟩

/-- A two-region map and an access to the second region. -/
example : ∃ (pre post : List Region) (r : Region) (a : Nat), (pre ++ r :: post).length ≤ 2 ∧
    (∀ x ∈ pre ++ r :: post, x.Wf) ∧ r.contains a ∧ ∀ x ∈ pre, ¬ x.contains a ∧ a ≠ x.base + x.size :=
  ⟨[⟨0, 0x1000, false⟩], [], ⟨0x2000, 0x1000, false⟩, 0x2010, by decide, by unfold Region.Wf M; decide,
    by unfold Region.contains; decide, by unfold Region.contains; decide⟩

/-- First match wins: if two mapped regions contain the address, the one mapped
first gets the access. -/
theorem first_match_wins (n : Nat) (pre post : List Region) (r : Region) (a : Nat)
    (hn : (pre ++ r :: post).length ≤ n) (hwf : ∀ x ∈ pre ++ r :: post, x.Wf)
    (hin : r.contains a) (hpre : ∀ x ∈ pre, ¬ x.contains a ∧ a ≠ x.base + x.size) (_ : ∃ x ∈ post, x.contains a) :
    ∃ map, mapAll (init n) (pre ++ r :: post) = some map ∧
      (bTransport map 0 a).map (·.target) = some pre.length := by
  obtain ⟨map, h1, h2⟩ := routed_to_region_partial n pre post r a hn hwf hin hpre
  exact ⟨map, h1, by rw [h2]; rfl⟩

/-- **C14 is violated at region ends**: the upper bound of the address match is
inclusive, so with two adjacent regions mapped in ascending order the first
address of the second is sent to the first target, at an offset equal to that
region's size. -/
theorem adjacent_region_misrouted :
    ∃ (r1 r2 : Region) (map : List Slot), r1.Wf ∧ r2.Wf ∧ r1.base + r1.size = r2.base ∧
      mapAll (init 2) [r1, r2] = some map ∧ r2.contains r2.base ∧
      bTransport map 0 r2.base = some { target := 0, offset := some r1.size, addrAfter := r2.base } :=
  ⟨⟨0, 0x1000, false⟩, ⟨0x1000, 0x1000, false⟩, _, by unfold Region.Wf M; decide, by unfold Region.Wf M; decide, rfl,
    rfl, by unfold Region.contains; decide, by decide +kernel⟩

/-- **C14 is violated at the top of the address space**: a region that ends at
2^64 is never matched. -/
theorem top_region_unreachable (base size sk : Nat) (abs : Bool) (h : base + size = M) (hb : 0 < base) (a : Nat) (rest : List Slot) :
    mapAddress (some { addr := base, size := size, absolute := abs, sk := sk } :: rest) a = mapAddress rest a := by
  simp only [mapAddress]
  rw [if_neg]
  rintro ⟨_, h2, h3⟩
  rw [h, Nat.mod_self] at h3
  omega

example : (2 ^ 63 : Nat) + 2 ^ 63 = M ∧ 0 < (2 ^ 63 : Nat) := by unfold M; decide

/-- **C14 is violated for unmapped addresses**: whatever the (initialised) map, an
address that matches nothing is still sent to target 0, with an offset that was
never assigned. -/
theorem unmapped_reaches_target_zero (map : List Slot) (toff a : Nat) (h : mapAddress map ((a + toff) % M) = .miss) :
    bTransport map toff a = some { target := 0, offset := none, addrAfter := (a + toff) % M } := by
  simp [bTransport, h]

example : mapAddress [some ⟨0x1000, 0x1000, false, 0⟩] ((0 + 0) % M) = .miss := by decide

/-- With fewer regions than four times the number of sockets, a miss also reads
map elements the constructor never initialised. -/
theorem miss_reads_uninitialised (n : Nat) (hn : 0 < n) (a : Nat) : mapAddress (init n) a = .undefined := by
  unfold init
  have : ∀ k (rest : List Slot), mapAddress
      (List.replicate k (some { addr := 0, size := 0, absolute := false, sk := 0 }) ++ rest) a = mapAddress rest a := by
    intro k rest
    induction k with
    | zero => rfl
    | succ k ih => simp [List.replicate_succ, mapAddress, ih]
  rw [this]
  obtain ⟨m, hm⟩ : ∃ m, n * 3 = m + 1 := ⟨n * 3 - 1, by omega⟩
  rw [hm, List.replicate_succ]
  rfl

/-- **C14 is violated for initiators with an offset**: after the access the
payload holds the translated address, not the one the initiator put there. -/
theorem address_not_restored (map : List Slot) (toff a : Nat) (r : Routed)
    (h : bTransport map toff a = some r) (ha : a < M) (ht : 0 < toff) (ht2 : toff < M) : r.addrAfter ≠ a := by
  have hr : r.addrAfter = (a + toff) % M := by
    unfold bTransport at h
    simp only [] at h
    split at h
    · cases h; rfl
    · cases h; rfl
    · cases h
  rw [hr]
  rcases Nat.lt_or_ge (a + toff) M with h1 | h1
  · rw [Nat.mod_eq_of_lt h1]; omega
  · rw [Nat.mod_eq_sub_mod h1, Nat.mod_eq_of_lt (by omega)]; omega

/-- Debug transport always reports zero bytes. -/
theorem debug_reports_nothing (k : Nat) : dbgCount k = 0 := rfl

/-! ## C15 -/

theorem entries_get (k : Nat) (pre post : List Region) (r : Region) (rest : List Slot) :
    (entries k (pre ++ r :: post) ++ rest)[pre.length]? =
      some (some { addr := r.base, size := r.size, absolute := r.absolute, sk := k + pre.length }) := by
  induction pre generalizing k with
  | nil => simp [entries]
  | cons x xs ih =>
    have := ih (k + 1)
    simp only [List.cons_append, entries, List.length_cons, List.getElem?_cons_succ]
    rw [this]
    congr 3; omega

/-- The range `[s, e]` of target-local addresses, seen from the bus: exactly the
addresses of the region whose local address is in the range. -/
def ExactRange (r : Region) (s e s' e' : Nat) : Prop :=
  ∀ a, (s' ≤ a ∧ a ≤ e') ↔ (∃ o, s ≤ o ∧ o ≤ e ∧ (if r.absolute then a = o else a = r.base + o))

/-- **C15 (DMI, part).** For an initiator without offset and one region per
target socket: if the access is routed to region `r` and the target returns a
range inside the region, the initiator gets exactly the bus addresses of those
target bytes.  Missing: initiators with an offset, targets mapped through more
than one region, and answers beyond the region (see the witnesses below). -/
theorem dmi_range_partial (n : Nat) (pre post : List Region) (r : Region) (a : Nat)
    (dmi : Nat → Nat → Nat × Nat × Bool) (s e : Nat) (granted : Bool)
    (hn : (pre ++ r :: post).length ≤ n) (hwf : ∀ x ∈ pre ++ r :: post, x.Wf)
    (hin : r.contains a) (hpre : ∀ x ∈ pre, ¬ x.contains a ∧ a ≠ x.base + x.size)
    (hdmi : dmi pre.length (r.local a) = (s, e, granted))
    (hrange : r.absolute = false → s < r.size ∧ e < r.size) :
    ∃ map s' e', mapAll (init n) (pre ++ r :: post) = some map ∧
      getDmi n map 0 a dmi = some (s', e', granted) ∧ ExactRange r s e s' e' := by
  obtain ⟨rest, hm⟩ := mapAll_init n (pre ++ r :: post) hn (fun x hx => (hwf x hx).1)
  have hb := routed_to_region_partial n pre post r a hn hwf hin hpre
  obtain ⟨map, hm', hbt⟩ := hb
  rw [hm] at hm'
  cases hm'
  have hr := hwf r (by simp)
  have hma : mapAddress (entries 0 (pre ++ r :: post) ++ rest) ((a + 0) % M) = .hit pre.length (r.local a) := by
    unfold bTransport at hbt
    simp only [] at hbt
    split at hbt
    · rename_i h; rw [h]; simp at hbt; rw [hbt.1, hbt.2.1]
    · simp at hbt
    · simp at hbt
  have hlt : ¬ pre.length ≥ n := by simp at hn; omega
  have hget := entries_get 0 pre post r rest
  have hg : ∀ x y, unmapOffset n (entries 0 (pre ++ r :: post) ++ rest) pre.length s = some x →
      unmapOffset n (entries 0 (pre ++ r :: post) ++ rest) pre.length e = some y →
      getDmi n (entries 0 (pre ++ r :: post) ++ rest) 0 a dmi = some (x, y, granted) := by
    intro x y h1 h2
    unfold getDmi
    rw [hma]
    simp only [hdmi, h1, h2]
  simp only [unmapOffset, hlt, if_false, hget] at hg
  cases habs : r.absolute with
  | true =>
    refine ⟨_, s, e, hm, hg s e (by simp [habs]) (by simp [habs]), ?_⟩
    intro x
    simp [habs]
  | false =>
    obtain ⟨hs, he⟩ := hrange habs
    refine ⟨_, r.base + s, r.base + e, hm, ?_, ?_⟩
    · have h2 := hr.2
      apply hg
      · simp only [habs, Bool.false_eq_true, if_false, show ¬ s ≥ r.size by omega]
        rw [Nat.mod_eq_of_lt (by omega)]
      · simp only [habs, Bool.false_eq_true, if_false, show ¬ e ≥ r.size by omega]
        rw [Nat.mod_eq_of_lt (by omega)]
    · intro x
      simp only [habs, Bool.false_eq_true, if_false]
      constructor
      · rintro ⟨h1, h2⟩; exact ⟨x - r.base, by omega, by omega, by omega⟩
      · rintro ⟨o, h1, h2, rfl⟩; omega

/-- **C15 (invalidation, part).** With no initiator offsets, an invalidation
`[s, e]` inside the region reaches every initiator as exactly the bus addresses
of those target bytes. -/
theorem invalidate_range_partial (n : Nat) (pre post : List Region) (r : Region) (nInit s e : Nat)
    (hn : (pre ++ r :: post).length ≤ n) (hwf : ∀ x ∈ pre ++ r :: post, x.Wf)
    (hi : pre.length < nInit) (hs64 : s < M) (he64 : e < M)
    (hrange : r.absolute = false → s < r.size ∧ e < r.size) :
    ∃ map s' e', mapAll (init n) (pre ++ r :: post) = some map ∧
      invalidate n map (List.replicate nInit 0) pre.length s e = some (s', e') ∧ ExactRange r s e s' e' := by
  obtain ⟨rest, hm⟩ := mapAll_init n (pre ++ r :: post) hn (fun x hx => (hwf x hx).1)
  have hr := hwf r (by simp)
  have hlt : ¬ pre.length ≥ n := by simp at hn; omega
  have hget := entries_get 0 pre post r rest
  have hto : (List.replicate nInit 0)[pre.length]? = some 0 := by simp [hi]
  cases habs : r.absolute with
  | true =>
    refine ⟨_, s, e, hm, ?_, ?_⟩
    · simp only [invalidate, unmapOffset, hlt, if_false, hget, hto, habs, if_true, Nat.sub_zero, Nat.add_mod_right, Nat.mod_eq_of_lt hs64, Nat.mod_eq_of_lt he64]
    · intro x; simp [habs]
  | false =>
    obtain ⟨hs, he⟩ := hrange habs
    have h2 := hr.2
    refine ⟨_, r.base + s, r.base + e, hm, ?_, ?_⟩
    · simp only [invalidate, unmapOffset, hlt, hget, hto, habs, Bool.false_eq_true, if_false,
        show ¬ s ≥ r.size by omega, show ¬ e ≥ r.size by omega, Nat.sub_zero, Nat.add_mod_right, Nat.mod_mod]
      rw [Nat.mod_eq_of_lt (by omega), Nat.mod_eq_of_lt (by omega)]
    · intro x
      simp only [habs, Bool.false_eq_true, if_false]
      constructor
      · rintro ⟨h1, h2⟩; exact ⟨x - r.base, by omega, by omega, by omega⟩
      · rintro ⟨o, h1, h2, rfl⟩; omega

example : ∃ (pre post : List Region) (r : Region), (pre ++ r :: post).length ≤ 2 ∧ (∀ x ∈ pre ++ r :: post, x.Wf) ∧
    r.absolute = false ∧ 0x10 < r.size ∧ 0x1f < r.size ∧ pre.length < 2 :=
  ⟨[⟨0, 0x1000, false⟩], [], ⟨0x2000, 0x1000, false⟩, by unfold Region.Wf M; decide⟩

/-- **C15 is violated for a target without DMI**: the default answer (granted =
false, range 0 to 2^64-1) makes the interconnect report a fatal error instead of
returning "no". -/
theorem refused_dmi_is_fatal (n : Nat) (map : List Slot) (toff a sk o : Nat) (e : Entry)
    (hhit : mapAddress map ((a + toff) % M) = .hit sk o) (he : map[sk]? = some (some e)) (hrel : e.absolute = false)
    (hsize : e.size < M) : getDmi n map toff a (fun _ _ => (0, M - 1, false)) = none := by
  have : unmapOffset n map sk (M - 1) = none := by
    unfold unmapOffset
    split
    · rfl
    · rw [he]
      simp only [hrel, Bool.false_eq_true, if_false]
      rw [if_pos (by omega)]
  unfold getDmi
  rw [hhit]
  simp only [this]
  split <;> rfl

example : mapAddress [some ⟨0x1000, 0x1000, false, 0⟩] ((0x1004 + 0) % M) = .hit 0 4 := by decide

/-- **C15 is violated for initiators with an offset**: the returned range is in
bus addresses, not the initiator's. -/
theorem dmi_ignores_initiator_offset :
    ∃ (map : List Slot) (toff a s e : Nat), mapAll (init 1) [⟨0x1000, 0x100, false⟩] = some map ∧
      getDmi 1 map toff a (fun _ _ => (0, 0xff, true)) = some (s, e, true) ∧
      -- the initiator itself is not even inside the range it got
      ¬ (s ≤ a ∧ a ≤ e) :=
  ⟨_, 0x1000, 0, 0x1000, 0x10ff, rfl, by decide +kernel, by decide⟩

/-- **C15 is violated when a target is mapped through two regions**: ranges are
translated with the map element whose *index* is the socket number, here the
wrong one. -/
theorem dmi_wrong_region :
    ∃ (m1 m2 : List Slot), memmap (init 2) 0x1000 0x100 false none = some (m1, 0) ∧
      memmap m1 0x8000 0x100 false (some 0) = some (m2, 1) ∧
      getDmi 2 m2 0 0x8010 (fun _ _ => (0, 0xff, true)) = some (0x1000, 0x10ff, true) :=
  ⟨_, _, rfl, rfl, by decide +kernel⟩

/-- **C15 (invalidation) uses the wrong offset**: the offset of the initiator
whose number equals the target's is subtracted for all initiators. -/
theorem invalidate_wrong_offset :
    ∃ (m : List Slot), mapAll (init 2) [⟨0x1000, 0x100, false⟩, ⟨0x2000, 0x100, false⟩] = some m ∧
      invalidate 2 m [0x1000, 0] 0 0 0xff = some (0, 0xff) ∧
      -- initiator 1 (no offset) reaches those bytes at 0x1000, not at 0
      bTransport m 0 0x1000 = some { target := 0, offset := some 0, addrAfter := 0x1000 } :=
  ⟨_, rfl, by decide +kernel, by decide +kernel⟩

end Verif.Iconnect
