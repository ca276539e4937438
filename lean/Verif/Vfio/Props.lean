import Verif.Vfio.Model
import Verif.DevAccess.Props

/-! # C58: device accesses and interrupts through VFIO -/

namespace Verif.Vfio
open Verif

/-! ### Accesses: specification -/

/-- The region as the bus sees it: bus address `a` is region byte `a + offset`. -/
def seen (r : Region) (offset : Nat) : Mem := fun a => r.io (a + offset)

/-- The access lies in the region. -/
def Inside (r : Region) (offset : Nat) (g : Gp) : Prop := g.addr + offset + g.len ≤ r.size

/-! ### Helpers -/

theorem toIo_store (io : Mem) (addr : Nat) (buf : List Byte) :
    (DevAccess.toIo io addr buf).1 = io.store addr buf := by
  obtain ⟨h1, h2⟩ := DevAccess.to_io_exact io addr buf
  funext x
  unfold Mem.store
  by_cases h : addr ≤ x ∧ x < addr + buf.length
  · rw [if_pos h]
    have := h1 (x - addr) (by omega)
    rw [show addr + (x - addr) = x by omega] at this
    rw [this, List.getD_eq_getElem?_getD, List.getElem?_eq_getElem (by omega)]
    rfl
  · rw [if_neg h, h2 x (by omega)]

theorem bTransport_eq (r : Region) (offset : Nat) (g : Gp) (hbe : g.be = []) (hsw : g.len ≤ g.sw)
    (hin : Inside r offset g) (hr : r.size < 2 ^ 64) :
    bTransport r offset g = match g.cmd with
      | .read => .done r.io (DevAccess.fromIo .little r.io (g.addr + offset) g.len).1 .ok (decide (g.len < 8))
      | _ => .done (DevAccess.toIo r.io (g.addr + offset) g.data).1 g.data .ok (decide (g.len < 8)) := by
  unfold Inside at hin
  unfold bTransport
  rw [if_neg (by rw [hbe]; simp), if_neg (by omega), Nat.mod_eq_of_lt (by omega)]
  simp only []
  rw [if_neg (by omega)]
  cases g.cmd <;> rfl

/-! ### Accesses -/

/-- A plain read or write that lies in the region is carried out exactly as on a byte
memory at the bridge's offset: the caller gets the device's bytes, the device gets the
caller's, nothing else changes, and the status is OK.  Shorter than eight bytes, it
acknowledges the interrupt. -/
theorem access_right_partial (r : Region) (offset : Nat) (g : Gp) (hbe : g.be = [])
    (hsw : g.len ≤ g.sw) (hin : Inside r offset g) (hr : r.size < 2 ^ 64) (hc : g.cmd ≠ .ignore) :
    ∃ io data, bTransport r offset g = .done io data .ok (decide (g.len < 8)) ∧
      (seen ⟨io, r.size⟩ offset, data) = g.run (seen r offset) ∧
      ∀ x, x < offset → io x = r.io x := by
  rw [bTransport_eq r offset g hbe hsw hin hr]
  unfold Inside Gp.len at *
  cases h : g.cmd with
  | ignore => exact absurd h hc
  | read =>
    refine ⟨_, _, rfl, ?_, fun _ _ => rfl⟩
    rw [DevAccess.from_io_exact]
    unfold Gp.run
    rw [h]
    simp only []
    rw [hbe, readFrom_range _ _ _ _ _ (by omega)]
    refine Prod.ext rfl ?_
    show DevAccess.bytesAt _ _ _ = Mem.range _ _ _
    unfold DevAccess.bytesAt Mem.range seen
    apply List.map_congr_left
    intro k _
    congr 1; omega
  | write =>
    refine ⟨_, _, rfl, ?_, ?_⟩
    · rw [toIo_store]
      unfold Gp.run
      rw [h]
      simp only []
      rw [hbe, writeFrom_store _ _ _ _ _ (by omega)]
      refine Prod.ext ?_ rfl
      funext x
      show Mem.store _ _ _ (x + offset) = Mem.store _ _ _ x
      unfold Mem.store
      by_cases hx : g.addr ≤ x ∧ x < g.addr + g.data.length
      · rw [if_pos (by omega), if_pos (by omega)]
        congr 1; omega
      · rw [if_neg (by omega), if_neg (by omega)]; rfl
    · intro x hx
      rw [toIo_store]
      unfold Mem.store
      rw [if_neg (by omega)]

/-- A write at 4 through a bridge with offset 8 lands at region byte 12. -/
example : ∃ io data, bTransport ⟨fun _ => 0, 64⟩ 8 ⟨.write, 4, [1, 2], [], 2⟩ = .done io data .ok true ∧
    io 12 = 1 ∧ io 13 = 2 ∧ io 14 = 0 := ⟨_, _, rfl, rfl, rfl, rfl⟩

/-- Byte enables and streaming are refused with the status that names them. -/
theorem unsupported_refused (r : Region) (offset : Nat) (g : Gp) :
    (g.be ≠ [] → bTransport r offset g = .refused .byteEnable) ∧
    (g.be = [] → g.sw ≠ 0 → g.sw < g.len → bTransport r offset g = .refused .burst) := by
  refine ⟨fun h => if_pos h, fun h1 h2 h3 => ?_⟩
  unfold bTransport
  rw [if_neg (by rw [h1]; simp), if_pos ⟨h2, h3⟩]

example : bTransport ⟨fun _ => 0, 64⟩ 0 ⟨.write, 4, [1, 2], [true], 2⟩ = .refused .byteEnable := rfl

/-- FINDING. No access past the end of the region is refused: each one is carried out
outside the mapping. -/
theorem out_of_range_never_refused (r : Region) (offset : Nat) (g : Gp) (hbe : g.be = [])
    (hsw : g.len ≤ g.sw) (hin : ¬ Inside r offset g) (hw : g.addr + offset < 2 ^ 64) :
    bTransport r offset g = .outside := by
  unfold Inside at hin
  unfold bTransport
  rw [if_neg (by rw [hbe]; simp), if_neg (by omega), Nat.mod_eq_of_lt (by omega)]
  simp only []
  rw [if_pos (by omega)]

example : bTransport ⟨fun _ => 0, 64⟩ 0 ⟨.read, 62, [0, 0, 0, 0], [], 4⟩ = .outside := rfl

/-- FINDING. An IGNORE command writes its data to the device. -/
theorem ignore_writes :
    ∃ io, bTransport ⟨fun _ => 0, 64⟩ 0 ⟨.ignore, 4, [7], [], 1⟩ = .done io [7] .ok true ∧ io 4 = 7 :=
  ⟨_, rfl, rfl⟩

/-- Direct access reaches the byte a transported access reaches, for every address of the
region, exactly when the bridge has no offset. -/
theorem dmi_right_iff (r : Region) (offset : Nat) :
    (∀ a, (dmi r).first ≤ a → a ≤ (dmi r).last → (dmi r).byte a = a + offset) ↔ offset = 0 := by
  unfold Dmi.byte dmi
  refine ⟨fun h => ?_, fun h a _ _ => by simp only []; omega⟩
  have := h 0 (by simp) (by simp)
  simp only [] at this
  omega

/-- With no offset, everything granted is in the region. -/
theorem dmi_inside (r : Region) (a : Nat) (hr : 0 < r.size)
    (h : a ≤ (dmi r).last) :
    (dmi r).byte a < r.size := by
  unfold Dmi.byte dmi at *
  simp only [] at *
  omega

/-! ### DMA buffers -/

/-- As long as the sizes fit 32 bits, every descriptor's data and byte enables are its own
and lie in the mapping. -/
theorem buffers_apart (nr size : Nat) (h : nr * size * 2 < 2 ^ 32) (i j : Nat) (hi : i < nr) (hj : j < nr) :
    dataOff size i + size ≤ mapped nr size ∧ beOff nr size i + size ≤ mapped nr size ∧
    dataOff size i + size ≤ beOff nr size j ∧
    (i < j → dataOff size i + size ≤ dataOff size j ∧ beOff nr size i + size ≤ beOff nr size j) := by
  have key : ∀ i k, i < k → i * size + size ≤ k * size := by
    intro i k h
    rw [← Nat.succ_mul]; exact Nat.mul_le_mul_right _ h
  have h1 := key i nr hi
  have h2 := key j nr hj
  unfold dataOff beOff mapped mapSize
  rw [Nat.mod_eq_of_lt (a := i * size) (by omega), Nat.mod_eq_of_lt (a := j * size) (by omega),
    Nat.mod_eq_of_lt (a := nr * size) (by omega), Nat.mod_eq_of_lt h]
  refine ⟨by omega, by omega, by omega, fun hij => ?_⟩
  have h3 := key i j hij
  omega

example : dataOff 4096 3 = 12288 ∧ beOff 16 4096 3 = 77824 ∧ mapped 16 4096 = 262144 := by decide

/-- FINDING. Half of the mapping stays behind when the manager is destroyed. -/
theorem unmap_leaves_half (nr size : Nat) (h : nr * size * 2 < 2 ^ 32) :
    unmapped nr size = 2 * nr * size ∧ mapped nr size = 4 * nr * size := by
  unfold unmapped mapped mapSize
  rw [Nat.mod_eq_of_lt h, Nat.mul_assoc 2, Nat.mul_assoc 4]
  omega

/-- FINDING. Past 32 bits the mapping is too small for the buffers. -/
theorem large_pool_overruns : mapped 65536 65536 = 0 ∧ 0 < dataOff 65536 1 := by decide

/-! ### Interrupts: specification -/

/-- Nothing is under way: the polling thread waits with nothing signalled, no
acknowledgement is running and the output has been updated. -/
def Quiet (s : Irq) : Prop :=
  s.poll = .reading ∧ s.efd = 0 ∧ s.ack = .idle ∧ s.requested = false ∧ s.fired = false

instance (s : Irq) : Decidable (Quiet s) := by unfold Quiet; infer_instance

/-- Steps of the bridge itself, as opposed to the device and the accesses. -/
def Internal : Move → Prop
  | .raise => False
  | .lower => False
  | .access _ => False
  | _ => True

/-! ### Interrupts: invariants -/

/-- A masked interrupt is on its way, or shown. -/
structure Inv (s : Irq) : Prop where
  masked : s.masked = true → 0 < s.efd ∨ s.poll = .got ∨ s.val = true ∨ s.ack = .cleared
  line : s.line = true → s.masked = true
  holding : s.poll = .holding → s.val = true ∧ s.ack = .idle
  acking : s.ack ≠ .idle → s.val = false
  out : s.out ≠ s.val → s.requested = true ∨ s.fired = true ∨ s.poll = .holding ∨ s.ack ≠ .idle

theorem Inv.init : Inv Irq.init := by constructor <;> decide

theorem Inv.step {s t : Irq} (m : Move) (h : Inv s) (hm : s.move m = some t) : Inv t := by
  obtain ⟨h1, h2, h3, h4, h5⟩ := h
  cases m <;> simp only [Irq.move, Irq.unmask, Irq.locked] at hm
  all_goals (constructor <;> grind)

theorem Inv.reach {s₀ s : Irq} (h₀ : Inv s₀) (h : Reach s₀ s) : Inv s := by
  induction h with
  | init => exact h₀
  | step m _ hm ih => exact ih.step m hm

/-- Once the polling thread has started, at most one "token" stands for a masked
interrupt. -/
structure Inv1 (s : Irq) : Prop where
  base : Inv s
  masked : 0 < s.efd ∨ s.poll = .got ∨ s.val = true ∨ s.ack = .cleared → s.masked = true
  efd : 0 < s.efd → s.poll ≠ .got ∧ s.val = false ∧ s.ack ≠ .cleared
  got : s.poll = .got → s.val = false ∧ s.ack ≠ .cleared
  start : s.poll ≠ .start
  seen : (0 < s.efd ∨ s.poll = .got ∨ s.val = true) → s.seen = true
  lineSeen : s.line = true → s.ack ≠ .cleared → s.seen = true

theorem Inv1.init : Inv1 Irq.started := ⟨by constructor <;> decide, by decide, by decide, by decide, by decide,
  by decide, by decide⟩

theorem Inv1.step {s t : Irq} (m : Move) (h : Inv1 s) (hm : s.move m = some t) : Inv1 t := by
  obtain ⟨hb, h1, h2, h3, h4, h5, h6⟩ := h
  have hb' := hb.step m hm
  obtain ⟨b1, b2, b3, b4, b5⟩ := hb
  cases m <;> simp only [Irq.move, Irq.unmask, Irq.locked] at hm
  all_goals (refine ⟨hb', ?_, ?_, ?_, ?_, ?_, ?_⟩ <;> clear hb' b5 <;> grind)

theorem Inv1.reach {s : Irq} (h : Reach Irq.started s) : Inv1 s := by
  induction h with
  | init => exact Inv1.init
  | step m _ hm ih => exact ih.step m hm

/-! ### Interrupts -/

/-- No interrupt is lost: whatever the interleaving of device, kernel, polling thread,
accesses and simulator, once the bridge is quiet an active line shows at its output. -/
theorem no_interrupt_lost {s : Irq} (h : Reach Irq.init s) (q : Quiet s) (hl : s.line = true) : s.out = true := by
  have i := Inv.reach Inv.init h
  obtain ⟨q1, q2, q3, q4, q5⟩ := q
  have hm := i.masked (i.line hl)
  have ho := i.out
  grind

/-- No interrupt is made up: at quiet, the output is active only if the line was active
at some moment since the last acknowledgement, provided the polling thread started
before the device's first interrupt. -/
theorem no_interrupt_invented_partial {s : Irq} (h : Reach Irq.started s) (q : Quiet s) (ho : s.out = true) :
    s.seen = true := by
  have i := Inv1.reach h
  obtain ⟨q1, q2, q3, q4, q5⟩ := q
  have h1 := i.base.out
  have h2 := i.seen
  grind

/-- Steps left until the bridge is quiet. -/
def Irq.work (s : Irq) : Nat :=
  (match s.poll with | .start => 7 | .reading => 0 | .got => 5 | .holding => 4) +
  (if 0 < s.efd then 6 else 0) +
  (match s.ack with | .idle => 0 | .cleared => 10 | .unmasked => 3) +
  (if s.requested then 2 else 0) + (if s.fired then 1 else 0)

theorem work_step {s t : Irq} (m : Move) (hi : Internal m) (hm : s.move m = some t) : t.work < s.work := by
  cases m <;> simp only [Internal] at hi <;> simp only [Irq.move, Irq.unmask, Irq.locked] at hm
  all_goals (simp only [Irq.work]; grind)

/-- A run of internal steps. -/
inductive Runs : Irq → Nat → Irq → Prop
  | nil (s) : Runs s 0 s
  | cons {s t u n} (m : Move) : Internal m → s.move m = some t → Runs t n u → Runs s (n + 1) u

/-- The bridge settles: left alone it takes at most 33 steps of its own, in whatever order. -/
theorem settles {s u : Irq} {n : Nat} (h : Runs s n u) : n ≤ 33 := by
  have key : n + u.work ≤ s.work := by
    induction h with
    | nil => simp
    | cons m hi hm _ ih => have := work_step m hi hm; omega
  have : s.work ≤ 33 := by
    obtain ⟨line, masked, efd, poll, ack, val, req, fired, out, seen⟩ := s
    unfold Irq.work
    cases poll <;> cases ack <;> simp only [] <;> grind
  omega

/-- And it is never stuck: if it is not quiet, it can take a step of its own. -/
theorem never_stuck {s : Irq} (q : ¬ Quiet s) : ∃ m t, Internal m ∧ s.move m = some t := by
  by_cases h1 : s.poll = .start
  · exact ⟨.pollStart, _, trivial, if_pos h1⟩
  by_cases h2 : s.poll = .holding
  · exact ⟨.pollNotify, _, trivial, if_pos h2⟩
  by_cases h3 : s.ack = .cleared
  · exact ⟨.ackUnmask, _, trivial, if_pos h3⟩
  by_cases h4 : s.ack = .unmasked
  · exact ⟨.ackNotify, _, trivial, if_pos h4⟩
  have h5 : s.ack = .idle := by cases h : s.ack <;> simp_all
  by_cases h6 : s.poll = .got
  · exact ⟨.pollSet, _, trivial, if_pos ⟨h6, by unfold Irq.locked; rw [h6, h5]; decide⟩⟩
  have h7 : s.poll = .reading := by cases h : s.poll <;> simp_all
  by_cases h8 : 0 < s.efd
  · exact ⟨.pollRead, _, trivial, if_pos ⟨h7, h8⟩⟩
  by_cases h9 : s.requested = true
  · exact ⟨.update, _, trivial, if_pos h9⟩
  by_cases h10 : s.fired = true
  · exact ⟨.proxy, _, trivial, if_pos h10⟩
  exact absurd ⟨h7, by omega, h5, by simpa using h9, by simpa using h10⟩ q

/-- The moves of a run, one after the other. -/
def Irq.runs (s : Irq) : List Move → Option Irq
  | [] => some s
  | m :: ms => (s.move m).bind fun t => t.runs ms

theorem Reach.runs {s₀ s t : Irq} (h : Reach s₀ s) :
    ∀ {ms : List Move}, s.runs ms = some t → Reach s₀ t := by
  intro ms
  induction ms generalizing s with
  | nil => intro e; cases e; exact h
  | cons m ms ih =>
    intro e
    unfold Irq.runs at e
    cases hm : s.move m with
    | none => rw [hm] at e; cases e
    | some u => rw [hm] at e; exact ih (.step m h hm) e

/-- From power up to an interrupt shown at the output. -/
def delivered : List Move :=
  [.proxy, .pollStart, .raise, .pollRead, .pollSet, .pollNotify, .update, .proxy]

/-- The interrupt is delivered, an access that quiets the device acknowledges it, and an
access that does not brings it back. -/
example : (Irq.init.runs delivered).map (fun s => (s.out, s.line, decide (Quiet s))) =
    some (true, true, true) := by decide
example : (Irq.init.runs (delivered ++ [.lower, .access 4, .ackUnmask, .ackNotify, .update, .proxy])).map
    (fun s => (s.out, s.seen, decide (Quiet s))) = some (false, false, true) := by decide
example : (Irq.init.runs (delivered ++ [.access 4, .ackUnmask, .ackNotify, .update, .proxy, .pollRead, .pollSet,
    .pollNotify, .update, .proxy])).map (fun s => (s.out, decide (Quiet s))) = some (true, true) := by decide

/-- FINDING. An access of eight bytes or more never acknowledges: a device quieted by one
leaves the output active, although nothing is under way. -/
theorem wide_access_no_ack (len : Nat) (h : 8 ≤ len) :
    ∃ s, Reach Irq.init s ∧ Quiet s ∧ s.line = false ∧ s.out = true ∧ s.move (.access len) = some s := by
  have e : ∃ s, Irq.init.runs (delivered ++ [.lower]) = some s ∧ Quiet s ∧ s.line = false ∧ s.out = true :=
    ⟨_, rfl, by decide, rfl, rfl⟩
  obtain ⟨s, hs, q, hl, ho⟩ := e
  refine ⟨s, Reach.runs .init hs, q, hl, ho, ?_⟩
  simp only [Irq.move]
  rw [if_neg (by omega)]

/-- After an acknowledgement with the line low, and no new interrupt, the output goes
low and the interrupt is armed again. -/
theorem low_after_ack_partial {s : Irq} (h : Reach Irq.started s) (q : Quiet s) (hs : s.seen = false) :
    s.out = false ∧ s.masked = false := by
  have i := Inv1.reach h
  obtain ⟨q1, q2, q3, q4, q5⟩ := q
  have h1 := i.base.out
  have h2 := i.seen
  have h3 := i.base.masked
  grind

/-- The moment of acknowledgement: what the ghost flag means. -/
theorem ack_rearms {s t : Irq} (hm : s.move .ackUnmask = some t) : t.seen = s.line := by
  simp only [Irq.move, Irq.unmask] at hm
  grind

/-- FINDING. An interrupt before the polling thread's first unmask can be signalled twice:
the second shows although the line has been low since the first was acknowledged. -/
theorem startup_spurious : ∃ s, Reach Irq.init s ∧ Quiet s ∧ s.line = false ∧ s.seen = false ∧ s.out = true := by
  have e : ∃ s, Irq.init.runs [.proxy, .raise, .lower, .pollStart, .pollRead, .raise, .lower, .pollSet, .pollNotify,
      .access 4, .ackUnmask, .ackNotify, .pollRead, .pollSet, .pollNotify, .update, .proxy] = some s ∧
      Quiet s ∧ s.line = false ∧ s.seen = false ∧ s.out = true := ⟨_, rfl, by decide, rfl, rfl, rfl⟩
  obtain ⟨s, hs, q⟩ := e
  exact ⟨s, Reach.runs .init hs, q⟩

end Verif.Vfio
