import Verif.RtlAxid.Props
import Verif.RtlAxid.FetchStep

/-!
The properties of the store in the AXI master, whose machine keeps the cycles
between requests the store asks for.
-/

namespace Verif.RtlAxid

theorem minv_run {n : Nat} (t : List FIn) {m : Master} (h : MInv n m) (g : AllKept n m t) : MInv n (m.run n t) := by
  induction t generalizing m with
  | nil => exact h
  | cons i t ih => exact ih (next_good h g.1).2 g.2

/-- Two requests of the master are nine cycles apart, however soon the other side
takes them. -/
theorem requests_apart (n : Nat) (t : List FIn) (g : AllKept n Master.start t)
    (h : (Master.start.run n t).f.valid = true) : 9 ≤ (Master.start.run n t).w.since := by
  rcases (minv_run t (minv_start n) g).where_ with r | ⟨j, d, r⟩
  · rw [r.valid] at h; cases h
  · have := r.since
    have hv := r.valid
    rw [h] at hv
    have : j = 6 := by simpa using hv.symm
    omega

/-- Every response of the master finds the FIFO of its ID, and there the
descriptors of all requests in flight with this ID, in their order. -/
theorem master_response_finds (n : Nat) (hn : 0 < n) (t : List FIn) (g : AllKept n Master.start t) (x : Nat)
    (hs : 4 ≤ (Master.start.run n t).w.since ∨ x ≠ (Master.start.run n t).w.last.1)
    (hx : ofId (Master.start.run n t).w.out x ≠ []) :
    ∃ k < n, (Master.start.run n t).w.s.q k = ofId (Master.start.run n t).w.out x ∧
      ∀ j < n, ((Master.start.run n t).w.s.valid j = true ∧ (Master.start.run n t).w.s.id j = x) ↔ j = k := by
  obtain ⟨u, hu, e⟩ := run_good t (minv_start n) g
  rw [e] at hs hx ⊢
  exact response_finds_partial n hn u hu x hs hx

/-- Reading a FIFO of the master gives the oldest request in flight of its ID, at
any time. -/
theorem master_oldest_read (n : Nat) (hn : 0 < n) (t : List FIn) (g : AllKept n Master.start t) (k d : Nat)
    (hk : k < n) (hd : ((Master.start.run n t).w.s.q k).head? = some d) :
    (Master.start.run n t).w.out.find? (fun p => p.1 = (Master.start.run n t).w.s.id k) =
      some ((Master.start.run n t).w.s.id k, d) := by
  obtain ⟨u, hu, e⟩ := run_good t (minv_start n) g
  rw [e] at hd ⊢
  exact oldest_read_partial n hn u hu k d hk (by intro h; rw [show Master.start.w = World.start from rfl, h] at hd; cases hd) hd

/-- No descriptor is in flight twice. -/
theorem master_descriptors_once (n : Nat) (t : List FIn) (g : AllKept n Master.start t) :
    ((Master.start.run n t).w.out.map (·.2)).Nodup :=
  (minv_run t (minv_start n) g).nodup

end Verif.RtlAxid
