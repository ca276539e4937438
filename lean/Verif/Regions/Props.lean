import Verif.Regions.Lemmas

/-! # Address regions: what they do, and which are lost -/

namespace Verif.Regions

/-- **C99** (part).  A request to an address goes to the node of the region added last among those
holding it: of the regions of prefetches for a prefetch, of the others for any other request but a
DVM operation. -/
theorem last_region_wins_partial (m : Maps) (k : Kind) (hk : k ≠ .dvm) (xs ys : List Region)
    (r : Region) (hm : (if k = .prefetch then m.prefetch else m.maps) = xs ++ r :: ys)
    (hf : ∀ x ∈ r :: ys, x.Fits) (a t : Nat) (hr : r.Holds a) (hy : ∀ y ∈ ys, ¬ y.Holds a) :
    updateTgt m k a t = r.tgt := by
  have key : iterateMaps (xs ++ r :: ys) a t = r.tgt := by
    rw [iterate_append]
    have e := (inRegion_iff r (hf r (by simp)) a).2 hr
    simp only [iterateMaps, e, if_true]
    apply iterate_none
    intro y hy'
    cases h : inRegion y a
    · rfl
    · exact absurd ((inRegion_iff y (hf y (by simp [hy'])) a).1 h) (hy y hy')
  cases k with
  | dvm => exact absurd rfl hk
  | prefetch => simp only [if_true] at hm; simp only [updateTgt, hm]; exact key
  | other => simp at hm; simp only [updateTgt, hm]; exact key

example : updateTgt ⟨[⟨0, 0x1000, 1⟩, ⟨0x800, 0x100, 2⟩, ⟨0x2000, 64, 3⟩], []⟩ .other 0x810 9 = 2 ∧
    (⟨0x800, 0x100, 2⟩ : Region).Holds 0x810 ∧ ¬ (⟨0x2000, 64, 3⟩ : Region).Holds 0x810 := by
  simp only [Region.Holds]; decide +kernel

/-- **C99** (part).  A request to an address no region holds keeps its target. -/
theorem no_region_keeps_partial (m : Maps) (k : Kind) (a t : Nat)
    (hf : ∀ r ∈ m.maps ++ m.prefetch, r.Fits)
    (h : ¬ Private (if k = .prefetch then m.prefetch else m.maps) a) : updateTgt m k a t = t := by
  have key : ∀ rs : List Region, (∀ r ∈ rs, r.Fits) → ¬ Private rs a → iterateMaps rs a t = t := by
    intro rs hf h
    apply iterate_none
    intro r hr
    cases e : inRegion r a
    · rfl
    · exact absurd ⟨r, hr, (inRegion_iff r (hf r hr) a).1 e⟩ h
  cases k with
  | dvm => rfl
  | prefetch => exact key _ (fun r hr => hf r (by simp [hr])) (by simpa using h)
  | other => exact key _ (fun r hr => hf r (by simp [hr])) (by simpa using h)

example : updateTgt ⟨[⟨0, 0x1000, 1⟩], []⟩ .other 0x1000 9 = 9 ∧
    updateTgt ⟨[⟨0, 0x1000, 1⟩], []⟩ .prefetch 0x800 9 = 9 := by decide +kernel

/-- **C99** (part).  A DVM operation keeps its target, whatever the maps. -/
theorem dvm_keeps (m : Maps) (a t : Nat) : updateTgt m .dvm a t = t := rfl

example : updateTgt ⟨[⟨0, 0x1000, 1⟩], [⟨0, 0x1000, 2⟩]⟩ .dvm 0x800 9 = 9 := by decide +kernel

/-- **C99** (part).  With regions of whole lines, and accesses which do not run into one from
outside: no assertion fails in any sequence of accesses, no line with a private address in it is ever
held, an access starting at a private address goes to memory, and any other access to the cache. -/
theorem private_never_cached_partial (rs : List Region) (hf : ∀ r ∈ rs, r.Fits)
    (ha : ∀ r ∈ rs, r.Aligned) (ops : List Op) (hc : ∀ o ∈ ops, o.Clear rs) :
    ∃ held, run rs [] ops = some held ∧ (∀ a, Private rs a → lineOf a ∉ held) ∧
      (∀ a n, Private rs a → access rs held a n = (.memory, held)) ∧
      (∀ a n, ¬ Private rs a → (access rs held a n).1 = .cache ∧
        ∀ l, l ∈ (access rs held a n).2 ↔ (∃ i, i < n ∧ lineOf (a + i) = l) ∨ l ∈ held) := by
  obtain ⟨held, h1, h2⟩ := inv_run rs hf ha ops hc [] (fun a h => nomatch h)
  refine ⟨held, h1, fun a p h => h2 a h p, fun a n p => ?_, fun a n p => ?_⟩
  · have e := (inNonShareable_iff rs hf a).2 p
    have hn : lineOf a ∉ held := fun h => h2 a h p
    simp only [access, e, if_true, hn, if_false]
  · have e : inNonShareable rs a = false := by
      cases h : inNonShareable rs a
      · rfl
      · exact absurd ((inNonShareable_iff rs hf a).1 h) p
    simp only [access, e, Bool.false_eq_true, if_false, List.mem_append, mem_linesOf]
    exact ⟨trivial, fun _ => trivial⟩

example : (⟨0x1000, 0x80, 0⟩ : Region).Fits ∧ (⟨0x1000, 0x80, 0⟩ : Region).Aligned ∧
    run [⟨0x1000, 0x80, 0⟩] [] [.acc 0xfc0 64, .acc 0x1000 8, .leave 63, .acc 0x1080 65] =
      some [66, 67] := by
  simp only [Region.Fits, Region.Aligned]; decide +kernel

/-- What a sequence leaves the cache holding is what it fetched and has not lost since. -/
theorem left_not_held (rs : List Region) (held : List Nat) (l : Nat) :
    ∃ held', run rs held [.leave l] = some held' ∧ ∀ x, x ∈ held' ↔ x ∈ held ∧ x ≠ l := by
  refine ⟨_, rfl, fun x => ?_⟩
  simp [List.mem_filter]

example : run [] [3, 4] [.leave 3] = some [4] := by decide +kernel

/-- **C99 is false.**  A region whose length is a multiple of 4 GiB holds nothing: the length is
taken as a number of 32 bits. -/
theorem four_gib_lost (r : Region) (hs : r.start < 2 ^ 64) (hl : r.len % 2 ^ 32 = 0) (a : Nat) :
    inRegion r a = false := by
  have e : r.stop = r.start := by
    unfold Region.stop; rw [hl, Nat.add_zero, Nat.mod_eq_of_lt hs]
  cases h : inRegion r a
  · rfl
  · simp only [inRegion, e, Bool.and_eq_true, decide_eq_true_eq] at h; omega

example : (⟨0, 2 ^ 32, 5⟩ : Region).Holds 0x1000 ∧
    updateTgt ⟨[⟨0, 2 ^ 32, 5⟩], []⟩ .other 0x1000 9 = 9 := by
  simp only [Region.Holds]; decide +kernel

/-- **C99 is false.**  A longer region is cut to its length modulo 4 GiB. -/
theorem long_region_cut (r : Region) (hs : r.start + r.len < 2 ^ 64) (hl : 2 ^ 32 ≤ r.len) :
    r.Holds (r.start + r.len - 1) ∧ inRegion r (r.start + r.len - 1) = false := by
  refine ⟨⟨by omega, by omega⟩, ?_⟩
  have h1 : r.len % 2 ^ 32 < 2 ^ 32 := Nat.mod_lt _ (by decide)
  have e : r.stop = r.start + r.len % 2 ^ 32 := by
    unfold Region.stop; exact Nat.mod_eq_of_lt (by omega)
  cases h : inRegion r (r.start + r.len - 1)
  · rfl
  · simp only [inRegion, e, Bool.and_eq_true, decide_eq_true_eq] at h; omega

example : (0 : Nat) + (2 ^ 32 + 0x1000) < 2 ^ 64 ∧ 2 ^ 32 ≤ 2 ^ 32 + 0x1000 := by decide +kernel

/-- **C99 is false.**  A region reaching to the last address holds nothing: its end is taken
modulo `2^64`. -/
theorem top_region_lost (r : Region) (hl : r.len < 2 ^ 32) (he : r.start + r.len = 2 ^ 64)
    (a : Nat) : inRegion r a = false := by
  have e : r.stop = 0 := by
    unfold Region.stop; rw [Nat.mod_eq_of_lt hl, he]
  simp [inRegion, e]

example : (⟨2 ^ 64 - 0x1000, 0x1000, 5⟩ : Region).Holds (2 ^ 64 - 1) ∧
    updateTgt ⟨[⟨2 ^ 64 - 0x1000, 0x1000, 5⟩], []⟩ .other (2 ^ 64 - 1) 9 = 9 := by
  simp only [Region.Holds]; decide +kernel

/-- **C99 is false.**  An access starting in a region and ending outside goes to memory as a whole,
even if the cache holds the line of its last byte. -/
theorem straddle_bypasses (r : Region) (hf : r.Fits) (held : List Nat) (a n : Nat) (ha : r.Holds a)
    (hn : ¬ r.Holds (a + n - 1)) (h1 : lineOf a ∉ held) (h2 : lineOf (a + n - 1) ∈ held) :
    ¬ Private [r] (a + n - 1) ∧ lineOf (a + n - 1) ∈ held ∧
      access [r] held a n = (.memory, held) := by
  have e : inNonShareable [r] a = true := by simp [inNonShareable, inRegion_iff r hf, ha]
  refine ⟨?_, h2, by simp only [access, e, if_true, h1, if_false]⟩
  rintro ⟨x, hx, hh⟩
  simp only [List.mem_singleton] at hx
  exact hn (hx ▸ hh)

example : run [⟨0x1000, 0x80, 0⟩] [] [.acc 0x1080 4] = some [66] ∧
    access [⟨0x1000, 0x80, 0⟩] [66] 0x107c 8 = (.memory, [66]) := by decide +kernel

/-- **C99 is false.**  If a region does not start at a line, an access to the byte before it makes
the next access to the region fail an assertion. -/
theorem unaligned_aborts (r : Region) (hf : r.Fits) (hl : 0 < r.len) (hs : r.start % 64 ≠ 0)
    (n : Nat) : run [r] [] [.acc (r.start - 1) 1, .acc r.start n] = none := by
  have e1 : inNonShareable [r] (r.start - 1) = false := by
    cases h : inNonShareable [r] (r.start - 1)
    · rfl
    · simp only [inNonShareable, List.any_cons, List.any_nil, Bool.or_false,
        inRegion_iff r hf, Region.Holds] at h
      omega
  have e2 : inNonShareable [r] r.start = true := by
    simp only [inNonShareable, List.any_cons, List.any_nil, Bool.or_false,
      inRegion_iff r hf, Region.Holds]
    omega
  have e3 : lineOf r.start ∈ linesOf (r.start - 1) 1 ++ [] := by
    rw [List.append_nil, mem_linesOf]
    exact ⟨0, by omega, by unfold lineOf; omega⟩
  rw [List.append_nil] at e3
  simp [run, access, e1, e2, e3]

example : run [⟨0x1020, 0x80, 0⟩] [] [.acc 0x101f 1, .acc 0x1020 4] = none := by decide +kernel

/-- **C99 is false.**  An access running from outside into a region, of whole lines or not, has its
private bytes cached, and the next access to the region fails an assertion. -/
theorem run_in_aborts (r : Region) (hf : r.Fits) (hl : 0 < r.len) (hs : 0 < r.start)
    (n : Nat) : run [r] [] [.acc (r.start - 1) 2, .acc r.start n] = none := by
  have e1 : inNonShareable [r] (r.start - 1) = false := by
    cases h : inNonShareable [r] (r.start - 1)
    · rfl
    · simp only [inNonShareable, List.any_cons, List.any_nil, Bool.or_false,
        inRegion_iff r hf, Region.Holds] at h
      omega
  have e2 : inNonShareable [r] r.start = true := by
    simp only [inNonShareable, List.any_cons, List.any_nil, Bool.or_false,
      inRegion_iff r hf, Region.Holds]
    omega
  have e3 : lineOf r.start ∈ linesOf (r.start - 1) 2 ++ [] := by
    rw [List.append_nil, mem_linesOf]
    exact ⟨1, by omega, by unfold lineOf; omega⟩
  rw [List.append_nil] at e3
  simp [run, access, e1, e2, e3]

example : run [⟨0x1000, 0x80, 0⟩] [] [.acc 0xffc 8, .acc 0x1000 4] = none := by decide +kernel

end Verif.Regions
