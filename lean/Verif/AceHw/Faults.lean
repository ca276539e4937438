import Verif.AceHw.Access

/-! # C65: legality of the bursts, and the accesses that go wrong -/

namespace Verif.AceHw
open Verif Verif.Axi
open Verif.HwMaster (axsizeOf)

/-- **C65, bursts.** The burst of an access is one the AXI specification allows if it
does not leave a 4 KB page and, when it starts again each bus word, has at most 16
beats.  The bridge checks neither. -/
theorem burst_legal_partial (db : Nat) (hbus : Bus db) (g : Gp) (hf : Fits db g)
    (hpage : g.len ≤ g.sw → g.addr / 4096 = (g.addr + g.len - 1) / 4096) (hfix : ¬ g.len ≤ g.sw → g.len ≤ 16 * db) :
    HwSlave.Legal db (burstFor db g) := by
  obtain ⟨k, hk0, hk, hb, hlen⟩ := beats_eq hbus hf
  have h0 := hf.nonempty
  have ha := hf.aligned
  have hw : (burstFor db g).nb = db := rfl
  refine ⟨?_, ?_, by rw [hb]; exact hk0, ?_, ?_, ?_⟩
  · rw [hw]; rcases hbus with h | h | h <;> subst h
    · exact ⟨2, rfl⟩
    · exact ⟨3, rfl⟩
    · exact ⟨4, rfl⟩
  · rw [hw]; exact Nat.dvd_refl _
  · rw [hb]
    by_cases h : g.len ≤ g.sw
    · rw [if_pos (by unfold burstFor; simp [h])]; exact hk
    · rw [if_neg (by unfold burstFor; simp [h])]
      have := hfix h
      rcases hlen with h1 | ⟨h1, _⟩
      · rcases hbus with h2 | h2 | h2 <;> subst h2 <;> omega
      · omega
  · intro hi
    have h : g.len ≤ g.sw := by
      by_cases h : g.len ≤ g.sw
      · exact h
      · unfold burstFor at hi; simp [h] at hi
    have hp := hpage h
    have ea : (burstFor db g).addr = g.addr := rfl
    rw [hb, hw, ea]
    rcases hlen with h1 | ⟨h1, _, h3⟩
    · rw [← h1]
      have := Nat.div_mul_le_self g.addr db
      omega
    · subst h1
      rcases hbus with h2 | h2 | h2 <;> subst h2 <;> omega
  · intro hi
    exfalso
    unfold burstFor at hi
    by_cases h : g.len ≤ g.sw <;> simp [h] at hi

/-- The hypotheses of the two theorems are met by a write with byte enables, by a short
write, by a `FIXED` read. -/
example : Fits 8 { cmd := .write, addr := 0x1000, data := List.replicate 24 7, be := [true, false], sw := 24 } ∧
    Fits 16 { cmd := .write, addr := 0x20, data := [1, 2, 3], sw := 3 } ∧
    Fits 4 { cmd := .read, addr := 0x20, data := List.replicate 12 0, sw := 4 } := by
  refine ⟨⟨by decide, by decide, by decide, by decide, by decide, by decide, fun h => by cases h⟩,
    ⟨by decide, by decide, by decide, by decide, by decide, by decide, fun h => by cases h⟩,
    ⟨by decide, by decide, by decide, by decide, by decide, by decide, fun _ i _ => HwMaster.beEnabled_nil i⟩⟩

/-- Hardware and memories for the runs below: a zeroed world, every response `OKAY`. -/
def zero : Hw HwMaster.Slave → Mem → Cfg → Bool → Nat → Gp → Option ((HwMaster.Slave × Bufs) × List Byte × Status) :=
  fun h m c wrap bw g => bridge c h wrap bw ⟨0, 0, 0, 0, 0, 0, 0, 0, 0⟩ g (⟨some m, []⟩, ⟨fun _ => 0, fun _ => 0, fun _ => 0⟩)
def hw0 (db : Nat) : Hw HwMaster.Slave := hw db (fun _ _ => 0xEE) (fun _ => 0) (fun _ => .okay)

/-- Whole bus words only: the last 8 of 24 bytes written on a 16-byte bus never reach
the bus, and the access ends with `TLM_OK_RESPONSE`. -/
theorem tail_dropped :
    let g : Gp := { cmd := .write, addr := 0, data := List.replicate 24 1, sw := 24 }
    (g.run fun _ => 0).1 16 = 1 ∧
    (zero (hw0 16) (fun _ => 0) ⟨16⟩ false 0 g).map (fun r => (r.1.1.mem.map fun m => (m 15, m 16), r.2.2)) = some (some (1, 0), .ok) := by
  decide +kernel

/-- Unaligned writes: the data starts on lane 0 whatever the address, so the burst breaks
the protocol. -/
theorem unaligned_write_illegal :
    (zero (hw0 8) (fun _ => 0) ⟨8⟩ false 0 { cmd := .write, addr := 4, data := [1, 2, 3, 4], sw := 4 }).map
      (fun r => (r.1.1.mem.isSome, r.2.2)) = some (false, .ok) := by
  decide +kernel

/-- Unaligned reads: the bytes returned start with lane 0 of the first beat. -/
theorem unaligned_read_wrong :
    let g : Gp := { cmd := .read, addr := 4, data := List.replicate 8 0, sw := 8 }
    let m : Mem := fun a => BitVec.ofNat 8 a
    (g.run m).2 = [4, 5, 6, 7, 8, 9, 10, 11] ∧
    (zero (hw0 8) m ⟨8⟩ false 0 g).map (fun r => r.2) = some ([0xEE, 0xEE, 0xEE, 0xEE, 4, 5, 6, 7], .ok) := by
  decide +kernel

/-- Reads of less than a bus word: the length register wraps and 256 beats are read
(2 KB on an 8-byte bus), and so for a write barrier, whose size is 0. -/
theorem short_read_overruns :
    (zero (hw0 8) (fun _ => 0) ⟨8⟩ false 0 { cmd := .read, addr := 0x40, data := [0, 0, 0, 0], sw := 4 }).map
      (fun r => r.1.1.log.map fun x => x.1.beats) = some [256] ∧
    (hwAx 8 { addr := 0x40, size := writeSize ⟨8⟩ true 8, axsize := 3, attr := 0, strbs := false }).beats = 256 := by
  decide +kernel

/-- For every bus and every read shorter than it that the bridge sends. -/
theorem short_reads_overrun (db : Nat) (d : Desc) (h : d.size < db) : (hwAx db d).beats = 256 := by
  unfold hwAx
  simp only [Nat.div_eq_of_lt h]

/-- Narrow beats (a `burst_width` smaller than the bus): the number of beats is counted
in bus words and all strobes are set. -/
theorem narrow_illegal :
    (zero (hw0 8) (fun _ => 0) ⟨8⟩ false 4 { cmd := .write, addr := 0, data := List.replicate 16 1, sw := 16 }).map
      (fun r => (r.1.1.mem.isSome, r.1.1.log.map fun x => (x.1.nb, x.1.beats), r.2.2)) = some (false, [(4, 2)], .ok) ∧
    (zero (hw0 8) (fun _ => 0) ⟨8⟩ false 0 { cmd := .write, addr := 0, data := List.replicate 8 1, sw := 4 }).map
      (fun r => (r.1.1.mem.isSome, r.1.1.log.map fun x => (x.1.nb, x.1.beats), r.2.2)) = some (false, [(4, 1)], .ok) := by
  decide +kernel

/-- Byte enables of reads are ignored: bytes the caller did not ask for are
overwritten. -/
theorem read_enables_ignored :
    let g : Gp := { cmd := .read, addr := 0, data := [1, 1, 1, 1], be := [true, false, true, true], sw := 4 }
    (g.run fun _ => 9).2 = [9, 1, 9, 9] ∧
    (zero (hw0 4) (fun _ => 9) ⟨4⟩ false 0 g).map (fun r => r.2) = some ([9, 9, 9, 9], .ok) := by
  decide +kernel

/-- A wrapping write is sent as a `FIXED` burst: every beat goes to the first bus
word. -/
theorem wrap_write_sent_fixed :
    (zero (hw0 4) (fun _ => 0) ⟨4⟩ true 4 { cmd := .write, addr := 0x40, data := [1, 1, 1, 1, 2, 2, 2, 2], sw := 8 }).map
      (fun r => (r.1.1.mem.map fun m => (m 0x40, m 0x44), r.1.1.log.map fun x => x.1.burst, r.2.2)) =
    some (some (2, 0), [.fixed], .ok) := by
  decide +kernel

/-- Neither the length of a `FIXED` burst nor the page is checked. -/
theorem illegal_bursts :
    (∃ g : Gp, Fits 4 g ∧ ¬ HwSlave.Legal 4 (burstFor 4 g) ∧ ¬ g.len ≤ g.sw) ∧
    (∃ g : Gp, Fits 4 g ∧ ¬ HwSlave.Legal 4 (burstFor 4 g) ∧ g.len ≤ g.sw) := by
  refine ⟨⟨{ cmd := .write, addr := 0, data := List.replicate 68 1, sw := 4 },
      ⟨by decide, by decide, by decide, by decide, by decide, by decide, fun h => by cases h⟩, fun h => ?_, by decide⟩,
    ⟨{ cmd := .write, addr := 4092, data := List.replicate 8 1, sw := 8 },
      ⟨by decide, by decide, by decide, by decide, by decide, by decide, fun h => by cases h⟩, fun h => ?_, by decide⟩⟩
  · have := h.max
    revert this
    decide +kernel
  · have := h.page (by decide)
    revert this
    decide +kernel

/-- The access is refused, and nothing sent, when its numbers make no burst; the
reported error is an access neither counting up nor fitting the bus. -/
theorem refused (c : Cfg) (h : Hw HwMaster.Slave) (wrap : Bool) (bw : Nat) (at' : Attr) (g : Gp) (s : HwMaster.Slave × Bufs) :
    (g.len = 0 ∨ g.cmd = .ignore → g.len ≤ g.sw → bridge c h wrap bw at' g s = some (s, g.data, .generic)) ∧
    (c.db < g.sw → g.sw < g.len → bridge c h wrap bw at' g s = none) := by
  constructor
  · intro h1 h2
    have hs : ∃ b, setupBurst c g.len g.sw wrap bw = some (b, bw) := by
      unfold setupBurst
      by_cases hw : g.sw = g.len ∧ wrap = true
      · exact ⟨_, by rw [if_pos hw]⟩
      · exact ⟨_, by rw [if_neg hw, if_pos (by omega)]⟩
    obtain ⟨b, hb⟩ := hs
    unfold bridge
    rw [hb]
    simp only []
    rw [if_pos]
    rcases h1 with h1 | h1
    · left; unfold validate; rw [decide_eq_false (by omega)]; rfl
    · right; exact h1
  · intro h1 h2
    have hs : setupBurst c g.len g.sw wrap bw = none := by
      unfold setupBurst
      rw [if_neg (by omega), if_neg (by omega), if_neg (by omega), if_neg (by omega)]
    unfold bridge
    rw [hs]

/-- The beats counted for an access: the bus-wide cells its bytes touch, so exactly
the accesses of at most 256 cells are let through. -/
theorem accepted_exact (addr len sw bw : Nat) :
    validate addr len sw bw = true ↔ 0 < len ∧ 0 < sw ∧ (axsizeOf bw).isSome = true ∧ addr + len ≤ (addr / bw + 256) * bw := by
  have hb : (axsizeOf bw).isSome = true → 0 < bw := by
    intro h
    rcases Nat.eq_zero_or_pos bw with h0 | h0
    · subst h0; revert h; decide
    · exact h0
  have key : 0 < bw → (numBeats addr len bw ≤ 256 ↔ addr + len ≤ (addr / bw + 256) * bw) := by
    intro hp
    unfold numBeats
    have h1 : addr / bw * bw ≤ addr := Nat.div_mul_le_self _ _
    rw [Nat.div_le_iff_le_mul_add_pred hp, Nat.add_mul, Nat.mul_comm bw 256]
    omega
  unfold validate
  simp only [Bool.and_eq_true, decide_eq_true_eq, ne_eq]
  constructor
  · rintro ⟨⟨⟨h1, h2⟩, h3⟩, h4⟩
    exact ⟨by omega, by omega, h3, (key (hb h3)).1 h4⟩
  · rintro ⟨h1, h2, h3, h4⟩
    exact ⟨⟨⟨by omega, by omega⟩, h3⟩, (key (hb h3)).2 h4⟩

example : validate 0x1004 1020 1020 4 = true ∧ validate 0x1004 1024 1024 4 = true ∧ validate 0x1005 1024 1024 4 = false := by decide

end Verif.AceHw
