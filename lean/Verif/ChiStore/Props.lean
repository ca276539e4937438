import Verif.ChiStore.Lemmas

/-! # Loads and stores of the CHI cache: every byte, and the bytes that are lost -/

namespace Verif.ChiStore

/-- **C100** (part).  A load of any address, length and byte enables fills every enabled byte of the
buffer with the byte at its address, and no other. -/
theorem load_whole (p : Payload) (m b : Nat → Nat) (i : Nat) :
    ((i < p.data.length ∧ p.Enabled i) → load p m b i = m (p.addr + i)) ∧
    (¬ (i < p.data.length ∧ p.Enabled i) → load p m b i = b i) := by
  have hl : p.len = p.data.length := rfl
  unfold load
  rw [steps_read p p.len 0 m b i (by omega), hl]
  constructor
  · rintro ⟨h1, h2⟩
    rw [if_pos ⟨Nat.zero_le _, h1, (on_iff p i).2 h2⟩]
  · intro h
    rw [if_neg]
    rintro ⟨_, h1, h2⟩
    exact h ⟨h1, (on_iff p i).1 h2⟩

example : (List.range 10).map (load ⟨60, List.replicate 8 0, [true, true, false]⟩ id (fun _ => 7)) =
    [60, 61, 7, 63, 64, 7, 66, 67, 7, 7] := by decide +kernel

/-- **C100** (part).  A store changes no byte but the enabled bytes of its range, whichever ways its
lines go. -/
theorem store_no_other (p : Payload) (ch : Nat → Bool) (m : Nat → Nat) (x : Nat)
    (h : ¬ p.Touches x) : store p ch m x = m x :=
  writeAll_other p _ m x h

/-- **C100** (part).  After a store each byte is the old one or the one stored. -/
theorem store_old_or_new (p : Payload) (ch : Nat → Bool) (m : Nat → Nat) (x : Nat) :
    store p ch m x = m x ∨ store p ch m x = p.data.getD (x - p.addr) 0 :=
  writeAll_old_or_new p _ m x

example : store ⟨60, List.replicate 8 5, []⟩ (fun _ => false) id 59 = 59 ∧
    store ⟨60, List.replicate 8 5, []⟩ (fun _ => false) id 68 = 68 ∧
    ¬ (⟨60, List.replicate 8 5, []⟩ : Payload).Touches 68 := by
  simp only [Payload.Touches]
  refine ⟨by decide +kernel, by decide +kernel, ?_⟩
  rintro ⟨_, h, _⟩
  simp at h

/-- **C100** (part).  A store which goes through the cache, or starts at a line, or lies within one
writes every enabled byte. -/
theorem store_whole_partial (p : Payload) (ch : Nat → Bool) (m : Nat → Nat)
    (h : (∀ q, ch q = false) ∨ p.Simple) (x : Nat) (hx : p.Touches x) :
    store p ch m x = p.data.getD (x - p.addr) 0 := by
  have hl : p.len = p.data.length := rfl
  unfold store
  rw [steps_write p ch p.len 0 m x (by omega) (by
    rcases h with h | h
    · exact .inl h
    · simp only [Payload.Simple] at h
      exact .inr (by simpa [hl] using h))]
  obtain ⟨h1, h2, h3⟩ := hx
  rw [if_pos ⟨by omega, by omega, (on_iff p _).2 h3⟩]

example : (List.range 10).map (fun i => store ⟨60, [1, 2, 3, 4, 5, 6], []⟩ (fun _ => false)
      (fun _ => 0) (59 + i)) = [0, 1, 2, 3, 4, 5, 6, 0, 0, 0] ∧
    (⟨128, List.replicate 100 1, []⟩ : Payload).Simple ∧
    store ⟨128, List.replicate 100 1, []⟩ (fun q => q == 64) (fun _ => 0) 227 = 1 := by
  simp only [Payload.Simple]; decide +kernel

/-- **C100** (part).  So does such a store to a non-shareable region. -/
theorem private_whole_partial (p : Payload) (m : Nat → Nat) (h : p.Simple) (x : Nat)
    (hx : p.Touches x) : storePrivate p m x = p.data.getD (x - p.addr) 0 :=
  store_whole_partial p _ m (.inr h) x hx

example : (⟨60, [1, 2, 3, 4], []⟩ : Payload).Simple ∧
    storePrivate ⟨60, [1, 2, 3, 4], []⟩ (fun _ => 0) 63 = 4 := by
  simp only [Payload.Simple]; decide +kernel

/-- **C100 is false.**  When the first line of a store which starts within a line and ends beyond it
goes past the cache, the bytes from the end of that line to byte 64 of the store are not written: the
loop goes on by 64 bytes, the request took those up to the end of the line. -/
theorem straddle_lost (p : Payload) (ch : Nat → Bool) (hc : ch 0 = true) (m : Nat → Nat) (i : Nat)
    (h1 : 64 - p.addr % 64 ≤ i) (h2 : i < p.data.length) (h3 : i < 64) :
    store p ch m (p.addr + i) = m (p.addr + i) := by
  have hl : p.len = p.data.length := rfl
  unfold store
  obtain ⟨f, hf⟩ : ∃ f, p.len = f + 1 := ⟨p.len - 1, by omega⟩
  rw [hf]
  simp only [steps, show 0 < p.len by omega, if_true, writeAll]
  rw [steps_before]
  · rw [writePart, if_neg]
    unfold inLine
    simp only [Nat.add_zero]
    omega
  · simp only [hc, advance, if_true]
    split <;> omega

/-- Eight bytes at 60: the last four are lost. -/
example : (⟨60, [1, 2, 3, 4, 5, 6, 7, 8], []⟩ : Payload).Touches 64 ∧
    (List.range 8).map (fun i => store ⟨60, [1, 2, 3, 4, 5, 6, 7, 8], []⟩ (fun _ => true)
      (fun _ => 0) (60 + i)) = [1, 2, 3, 4, 0, 0, 0, 0] := by
  refine ⟨⟨by decide, by decide, .inl rfl⟩, by decide +kernel⟩

/-- **C100 is false.**  A store to a non-shareable region which starts within a line and ends beyond
it always loses these bytes. -/
theorem private_straddle_lost (p : Payload) (m : Nat → Nat) (i : Nat)
    (h1 : 64 - p.addr % 64 ≤ i) (h2 : i < p.data.length) (h3 : i < 64) :
    storePrivate p m (p.addr + i) = m (p.addr + i) :=
  straddle_lost p _ rfl m i h1 h2 h3

example : storePrivate ⟨60, [1, 2, 3, 4, 5, 6, 7, 8], []⟩ (fun _ => 0) 64 = 0 := by decide +kernel

/-- **C100** (part).  Each write request of a store is for a line that goes past the cache, from the
position the store has come to, and covers the bytes from there to the end of line or data. -/
theorem requests_past_only (p : Payload) (ch : Nat → Bool) (r : Req)
    (h : r ∈ reqs p (steps p ch p.len 0)) :
    ∃ q, q < p.data.length ∧ ch q = true ∧ r.line % 64 = 0 ∧ r.line ≤ p.addr + q ∧
      p.addr + q < r.line + 64 ∧ 0 < r.bytes ∧
      (p.addr + q + r.bytes = r.line + 64 ∨
        (p.addr + q + r.bytes < r.line + 64 ∧ q + r.bytes = p.data.length)) := by
  obtain ⟨s, hs, h1, h2⟩ := (mem_reqs p _ r).1 h
  obtain ⟨h3, h4⟩ := steps_way p ch _ _ s hs
  have hl : p.len = p.data.length := rfl
  refine ⟨s.1, h4, h3 ▸ h1, ?_⟩
  rw [h2]
  simp only [inLine]
  omega

example : reqs ⟨64, List.replicate 130 1, []⟩
      (steps ⟨64, List.replicate 130 1, []⟩ (fun q => q == 64) 130 0) =
    [⟨.writeUniquePtl, 128, 64⟩] := by decide +kernel

/-- **C100 is false.**  The requests of a store to a non-shareable region are those of a shareable
one: each snoops the other caches. -/
theorem private_store_snoops (p : Payload) (h : p.data ≠ []) :
    reqs p (steps p (fun _ => true) p.len 0) ≠ [] ∧
    ∀ r ∈ reqs p (steps p (fun _ => true) p.len 0),
      r.op ≠ .writeNoSnpFull ∧ r.op ≠ .writeNoSnpPtl := by
  have hl : 0 < p.len := List.length_pos_iff.2 h
  refine ⟨?_, fun r hr => ?_⟩
  · obtain ⟨f, hf⟩ : ∃ f, p.len = f + 1 := ⟨p.len - 1, by omega⟩
    rw [hf]
    simp [steps, hl, reqs]
  · rw [reqs_op p _ r hr, opOf]
    split <;> decide

example : reqs ⟨64, List.replicate 70 1, []⟩
      (steps ⟨64, List.replicate 70 1, []⟩ (fun _ => true) 70 0) =
    [⟨.writeUniquePtl, 64, 64⟩, ⟨.writeUniquePtl, 128, 6⟩] := by decide +kernel

/-- **C100 is false.**  With 64 or more byte enables, all set, a store starting within a line sends
a full-line write for a part of a line. -/
theorem full_write_of_part (p : Payload) (ch : Nat → Bool) (hc : ch 0 = true) (h : p.data ≠ [])
    (hb : 64 ≤ p.be.length) (ha : ∀ b ∈ p.be, b = true) (ho : p.addr % 64 ≠ 0) :
    ∃ r ∈ reqs p (steps p ch p.len 0), r.op = .writeUniqueFull ∧ r.bytes < 64 := by
  have hl : 0 < p.len := List.length_pos_iff.2 h
  obtain ⟨f, hf⟩ : ∃ f, p.len = f + 1 := ⟨p.len - 1, by omega⟩
  have hall : allOn p = true := by
    simp only [allOn, Bool.and_eq_true, decide_eq_true_eq, List.all_eq_true, id]
    exact ⟨hb, ha⟩
  rw [hf]
  simp only [steps, hl, if_true, reqs, hc]
  refine ⟨_, List.mem_cons_self, by simp [opOf, hall], ?_⟩
  simp only [inLine, Nat.add_zero]
  omega

example : (reqs ⟨60, List.replicate 64 1, List.replicate 64 true⟩
      (steps ⟨60, List.replicate 64 1, List.replicate 64 true⟩ (fun _ => true) 64 0)) =
    [⟨.writeUniqueFull, 0, 4⟩] := by decide +kernel

end Verif.ChiStore
