import Verif.RtlAxid.Step

/-!
The properties of the store of IDs.  They are partial: requests are to be six
cycles apart and a descriptor is to be spare for four (`Good`).
`Verif.RtlAxid.Faults` shows what happens otherwise.
-/

namespace Verif.RtlAxid

/-- Three cycles after a request, each ID in flight has a FIFO, which holds the
descriptors of its requests in their order. -/
theorem each_id_has_fifo_partial (n : Nat) (hn : 0 < n) (t : List In) (g : All n World.start t) (x : Nat)
    (hs : 3 ≤ (World.start.run n t).since) (hx : ofId (World.start.run n t).out x ≠ []) :
    ∃ k < n, (World.start.run n t).s.id k = x ∧ (World.start.run n t).s.q k = ofId (World.start.run n t).out x := by
  obtain ⟨land, pend, h⟩ := inv_run hn t (inv_start n hn) g
  obtain ⟨e, _⟩ := still (i := ⟨false, 0, 0, none⟩) h hs
  subst e
  have ho : (World.start.run n t).out = land := by rw [h.out]; simp
  rw [ho] at hx ⊢
  obtain ⟨k, hk, h1, h2⟩ := h.core.found x hx
  exact ⟨k, hk, h1, by rw [h.core.holds k hk h2, h1]⟩

/-- Nothing is in a FIFO but that, at any time: the descriptors in it are those
in flight of its ID, but for the newest, which may be on its way. -/
theorem fifo_holds_partial (n : Nat) (hn : 0 < n) (t : List In) (g : All n World.start t) (k : Nat) (hk : k < n)
    (hq : (World.start.run n t).s.q k ≠ []) :
    ∃ late, ofId (World.start.run n t).out ((World.start.run n t).s.id k) = (World.start.run n t).s.q k ++ late ∧
      late.length ≤ 1 ∧ (3 ≤ (World.start.run n t).since → late = []) := by
  obtain ⟨land, pend, h⟩ := inv_run hn t (inv_start n hn) g
  refine ⟨ofId pend.toList ((World.start.run n t).s.id k), ?_, ?_, ?_⟩
  · rw [h.out, ofId_append, h.core.holds k hk hq]
  · refine Nat.le_trans (ofId_length _ _) ?_
    cases pend <;> simp
  · intro hs
    obtain ⟨e, _⟩ := still (i := ⟨false, 0, 0, none⟩) h hs
    subst e
    rfl

/-- Reading a FIFO gives the oldest request in flight of its ID. -/
theorem oldest_read_partial (n : Nat) (hn : 0 < n) (t : List In) (g : All n World.start t) (k d : Nat) (hk : k < n)
    (hq : (World.start.run n t).s.q k ≠ []) (hd : ((World.start.run n t).s.q k).head? = some d) :
    (World.start.run n t).out.find? (fun p => p.1 = (World.start.run n t).s.id k) =
      some ((World.start.run n t).s.id k, d) := by
  obtain ⟨late, h, _⟩ := fifo_holds_partial n hn t g k hk hq
  generalize World.start.run n t = w at *
  have hh : (ofId w.out (w.s.id k)).head? = some d := by
    rw [h, List.head?_append, hd]; rfl
  unfold ofId at hh
  rw [List.head?_map, List.head?_filter] at hh
  cases hf : w.out.find? (fun p => p.1 = w.s.id k) with
  | none => rw [hf] at hh; cases hh
  | some p =>
    rw [hf] at hh
    have h1 := List.find?_some hf
    simp at h1 hh
    rw [← h1, ← hh]

/-- Two FIFOs in use are of two IDs. -/
theorem one_fifo_per_id_partial (n : Nat) (hn : 0 < n) (t : List In) (g : All n World.start t) (k j : Nat) (hk : k < n)
    (hj : j < n) (h1 : (World.start.run n t).s.q k ≠ []) (h2 : (World.start.run n t).s.q j ≠ [])
    (he : (World.start.run n t).s.id k = (World.start.run n t).s.id j) : k = j := by
  obtain ⟨land, pend, h⟩ := inv_run hn t (inv_start n hn) g
  exact h.core.uniq k hk j hj h1 h2 he

/-- What a response is compared with: exactly one FIFO is marked as in use with
the ID of requests in flight, and it is the one which holds them; of the ID
asked for last this is so four cycles after. -/
theorem response_finds_partial (n : Nat) (hn : 0 < n) (t : List In) (g : All n World.start t) (x : Nat)
    (hs : 4 ≤ (World.start.run n t).since ∨ x ≠ (World.start.run n t).last.1)
    (hx : ofId (World.start.run n t).out x ≠ []) :
    ∃ k < n, (World.start.run n t).s.q k = ofId (World.start.run n t).out x ∧
      ∀ j < n, ((World.start.run n t).s.valid j = true ∧ (World.start.run n t).s.id j = x) ↔ j = k := by
  obtain ⟨land, pend, h⟩ := inv_run hn t (inv_start n hn) g
  generalize World.start.run n t = w at *
  have hp : ofId w.out x = ofId land x := by
    rw [h.out, ofId_append]
    have : ofId pend.toList x = [] := by
      rcases hs with hs | hs
      · rw [(still (i := ⟨false, 0, 0, none⟩) h (by omega)).1]; rfl
      · cases h.phase with
        | idle => rfl
        | hit => simp [ofId, Ne.symm hs]
        | new => simp [ofId, Ne.symm hs]
        | named => simp [ofId, Ne.symm hs]
    rw [this, List.append_nil]
  rw [hp] at hx ⊢
  obtain ⟨k, hk, h1, h2⟩ := h.core.found x hx
  have hv : w.s.valid k = true := by
    cases e : w.s.valid k with
    | true => rfl
    | false =>
      rcases hs with hs | hs
      · exact absurd (h.valid hs k hk e) h2
      · rcases h.seen k hk e with a | a
        · exact absurd a h2
        · exact absurd (h1.symm.trans a) hs
  refine ⟨k, hk, by rw [h.core.holds k hk h2, h1], fun j hj => ⟨fun ⟨a, b⟩ => ?_, ?_⟩⟩
  · exact h.single j hj k hk a hv (by rw [b, h1])
  · rintro rfl; exact ⟨hv, h1⟩

end Verif.RtlAxid
