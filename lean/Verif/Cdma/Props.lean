import Verif.Cdma.Model
/-! C34: the CDMA copies exactly the programmed range. -/
namespace Verif.Cdma
open Verif

/-- The intended result: `n` bytes from `s` to `d`, nothing else. -/
def copied (m : Mem) (s d n : Nat) : Mem := fun x =>
  if d ≤ x ∧ x < d + n then m (s + (x - d)) else m x

/-- A forward copy in blocks of 64 bytes, which is what overlapping ranges get. -/
def blockCopy (m : Mem) (s d n : Nat) : Mem :=
  if n = 0 then m else blockCopy (copied m s d (min n 64)) (s + min n 64) (d + min n 64) (n - min n 64)
termination_by n
decreasing_by omega

/-- For disjoint ranges, and for overlapping ones with the destination below, the
blocks add up to the intended copy. -/
theorem blockCopy_eq (m : Mem) (s d n : Nat) (h : d ≤ s ∨ s + n ≤ d) : blockCopy m s d n = copied m s d n := by
  induction n using Nat.strongRecOn generalizing m s d with
  | _ n ih =>
    rw [blockCopy]
    split
    · next hz => subst hz; funext x; unfold copied; rw [if_neg (by omega)]
    · next hz =>
      rw [ih (n - min n 64) (by omega) _ _ _ (by omega)]
      funext x
      unfold copied
      by_cases h1 : d ≤ x ∧ x < d + min n 64
      · rw [if_neg (by omega), if_pos h1, if_pos (by omega)]
      · by_cases h2 : d + min n 64 ≤ x ∧ x < d + n
        · rw [if_pos (by omega), if_neg (by omega), if_pos (by omega)]
          congr 1
          omega
        · rw [if_neg (by omega), if_neg h1, if_neg (by omega)]

theorem pair_put (x : Nat) (hx : x < 2 ^ 64) :
    (BitVec.ofNat 32 (x / 2 ^ 32)).toNat * 2 ^ 32 + (BitVec.ofNat 32 x).toNat = x := by
  simp only [BitVec.toNat_ofNat]
  omega

theorem round_mem (r : Regs) (m : Mem) :
    (round r m).2 = copied m (r.pair R_SA R_SA_MSB) (r.pair R_DA R_DA_MSB) (min (r R_BTT).toNat 64) := by
  unfold round finish start
  dsimp only
  generalize min (r R_BTT).toNat 64 = t
  have hr := Gp.run_read m (r.pair R_SA R_SA_MSB) (List.replicate t 0#8)
  rw [List.length_replicate] at hr
  rw [hr]
  have hw := Gp.run_write m (r.pair R_DA R_DA_MSB) (m.range (r.pair R_SA R_SA_MSB) t)
  rw [Mem.range_length] at hw
  rw [hw]
  funext x
  dsimp only
  rw [Mem.store_range]
  rfl

/-- The registers after a round. -/
theorem round_regs (r : Regs) (m : Mem) (h1 : r.pair R_SA R_SA_MSB + (r R_BTT).toNat < 2 ^ 64)
    (h2 : r.pair R_DA R_DA_MSB + (r R_BTT).toNat < 2 ^ 64) :
    let r' := (round r m).1
    let t := min (r R_BTT).toNat 64
    (r' R_BTT).toNat = (r R_BTT).toNat - t ∧
    r'.pair R_SA R_SA_MSB = r.pair R_SA R_SA_MSB + t ∧
    r'.pair R_DA R_DA_MSB = r.pair R_DA R_DA_MSB + t ∧
    r' R_SR = (if r' R_BTT = 0 then r R_SR ||| (SR_IDLE ||| SR_IOC_IRQ) else r R_SR) ∧
    (∀ i, i < 6 → i ≠ R_SR → r' i = r i) := by
  have hb := (r R_BTT).isLt
  have hsub : (r R_BTT - BitVec.ofNat 32 (min (r R_BTT).toNat 64)).toNat =
      (r R_BTT).toNat - min (r R_BTT).toNat 64 := by
    rw [BitVec.toNat_sub, BitVec.toNat_ofNat]
    omega
  have e1 : (r.pair R_SA R_SA_MSB + min (r R_BTT).toNat 64) % 2 ^ 64 =
      r.pair R_SA R_SA_MSB + min (r R_BTT).toNat 64 := Nat.mod_eq_of_lt (by omega)
  have e2 : (r.pair R_DA R_DA_MSB + min (r R_BTT).toNat 64) % 2 ^ 64 =
      r.pair R_DA R_DA_MSB + min (r R_BTT).toNat 64 := Nat.mod_eq_of_lt (by omega)
  have p1 := pair_put (r.pair R_SA R_SA_MSB + min (r R_BTT).toNat 64) (by omega)
  have p2 := pair_put (r.pair R_DA R_DA_MSB + min (r R_BTT).toNat 64) (by omega)
  have hq : ∃ q : Regs, (round r m).1 = (if q R_BTT = 0 then q.put R_SR (q R_SR ||| (SR_IDLE ||| SR_IOC_IRQ)) else q) ∧
      q R_BTT = r R_BTT - BitVec.ofNat 32 (min (r R_BTT).toNat 64) ∧
      q.pair R_SA R_SA_MSB = r.pair R_SA R_SA_MSB + min (r R_BTT).toNat 64 ∧
      q.pair R_DA R_DA_MSB = r.pair R_DA R_DA_MSB + min (r R_BTT).toNat 64 ∧
      q R_SR = r R_SR ∧ ∀ i, i < 6 → q i = r i := by
    refine ⟨_, rfl, rfl, ?_, ?_, rfl, ?_⟩
    · rw [← p1]; show _ = _ ; unfold start; dsimp only; rw [e1]; rfl
    · rw [← p2]; show _ = _ ; unfold start; dsimp only; rw [e2]; rfl
    · intro i hi
      unfold R_BTT R_SA R_SA_MSB R_DA R_DA_MSB
      simp only [Regs.put]
      rw [if_neg (by omega), if_neg (by omega), if_neg (by omega), if_neg (by omega), if_neg (by omega)]
  obtain ⟨q, q0, q1, q2, q3, q4, q5⟩ := hq
  rw [q0]
  dsimp only
  rw [← q1] at hsub
  by_cases hz : q R_BTT = 0
  · rw [if_pos hz]
    refine ⟨hsub, q2, q3, ?_, ?_⟩
    · rw [show (q.put R_SR (q R_SR ||| (SR_IDLE ||| SR_IOC_IRQ))) R_BTT = q R_BTT from rfl, if_pos hz, ← q4]; rfl
    · intro i h6 h7
      rw [← q5 i h6]
      exact if_neg h7
  · rw [if_neg hz]
    refine ⟨hsub, q2, q3, ?_, fun i h6 _ => q5 i h6⟩
    rw [if_neg hz, q4]

/-- What the final registers look like. -/
structure Done (r r' : Regs) : Prop where
  btt : r' R_BTT = 0
  sa : r'.pair R_SA R_SA_MSB = r.pair R_SA R_SA_MSB + (r R_BTT).toNat
  da : r'.pair R_DA R_DA_MSB = r.pair R_DA R_DA_MSB + (r R_BTT).toNat
  sr : r' R_SR = r R_SR ||| (SR_IDLE ||| SR_IOC_IRQ)
  rest : ∀ i, i < 6 → i ≠ R_SR → r' i = r i

/-- Left alone, the engine terminates, having done the block copy of the
programmed range, idle and with the interrupt bit set. At most one round per byte
is needed. -/
theorem copies : ∀ (fuel : Nat) (r : Regs) (m : Mem), 0 < (r R_BTT).toNat → (r R_BTT).toNat ≤ fuel →
    r.pair R_SA R_SA_MSB + (r R_BTT).toNat < 2 ^ 64 → r.pair R_DA R_DA_MSB + (r R_BTT).toNat < 2 ^ 64 →
    ∃ r', thread fuel r m =
        some (r', blockCopy m (r.pair R_SA R_SA_MSB) (r.pair R_DA R_DA_MSB) (r R_BTT).toNat) ∧ Done r r' := by
  intro fuel
  induction fuel with
  | zero => intro r m h0 hf _ _; omega
  | succ fuel ih =>
    intro r m h0 hf h1 h2
    obtain ⟨g1, g2, g3, g4, g5⟩ := round_regs r m h1 h2
    have hne : r R_BTT ≠ 0 := fun h => by rw [h] at h0; exact absurd h0 (by decide)
    rw [thread, if_neg hne, blockCopy, if_neg (by omega), ← round_mem]
    by_cases hz : (r R_BTT).toNat - min (r R_BTT).toNat 64 = 0
    · have hb0 : (round r m).1 R_BTT = 0 := BitVec.eq_of_toNat_eq (by rw [g1, hz]; rfl)
      rw [hz, blockCopy, if_pos rfl]
      refine ⟨(round r m).1, ?_, hb0, by rw [g2]; omega, by rw [g3]; omega, by rw [g4, if_pos hb0], g5⟩
      cases fuel <;> simp [thread, hb0]
    · obtain ⟨r', e, d⟩ := ih (round r m).1 (round r m).2 (by omega) (by omega) (by omega) (by omega)
      rw [g1, g2, g3] at e
      refine ⟨r', e, d.btt, ?_, ?_, ?_, ?_⟩
      · have := d.sa; rw [g1, g2] at this; omega
      · have := d.da; rw [g1, g3] at this; omega
      · have := d.sr
        rw [g4, if_neg (fun h => by rw [h] at g1; have : (0 : BitVec 32).toNat = 0 := rfl; omega)] at this
        exact this
      · intro i hi hs
        rw [d.rest i hi hs, g5 i hi hs]

/-- The programming sequence: source, destination, then the length. -/
def program (r : Regs) (s d : BitVec 64) (n : BitVec 32) : Option (Regs × Bool) := do
  let (r, _) ← regWrite r 0x18 (s.setWidth 32)
  let (r, _) ← regWrite r 0x1c ((s >>> 32).setWidth 32)
  let (r, _) ← regWrite r 0x20 (d.setWidth 32)
  let (r, _) ← regWrite r 0x24 ((d >>> 32).setWidth 32)
  regWrite r 0x28 n

/-- Programming a copy of `n` bytes and letting the engine run: the event is
notified, the engine comes to rest, memory holds exactly the intended copy, idle
and interrupt bits are set. For ranges that do not wrap the address space and whose
overlap, if any, has the destination below the source. -/
theorem cdma_exact_partial (r : Regs) (m : Mem) (s d : BitVec 64) (n : BitVec 32) (h0 : 0 < n.toNat)
    (hs : s.toNat + n.toNat < 2 ^ 64) (hd : d.toNat + n.toNat < 2 ^ 64)
    (ho : d.toNat ≤ s.toNat ∨ s.toNat + n.toNat ≤ d.toNat) :
    ∃ r1 r2, program r s d n = some (r1, true) ∧ r1 R_SR &&& SR_IDLE = 0 ∧
      wake n.toNat r1 m = some (r2, copied m s.toNat d.toNat n.toNat) ∧
      r2 R_SR &&& SR_IDLE = SR_IDLE ∧ r2 R_SR &&& SR_IOC_IRQ = SR_IOC_IRQ ∧ r2 R_BTT = 0 := by
  have hp : ∃ r1, program r s d n = some (r1, true) ∧ r1 R_BTT = n ∧ r1 R_SR = r R_SR &&& ~~~ SR_IDLE ∧
      r1.pair R_SA R_SA_MSB = s.toNat ∧ r1.pair R_DA R_DA_MSB = d.toNat := by
    refine ⟨_, rfl, rfl, rfl, ?_, ?_⟩
    · show ((s >>> 32).setWidth 32).toNat * 2 ^ 32 + (s.setWidth 32).toNat = s.toNat
      have := s.isLt
      simp only [BitVec.toNat_setWidth, BitVec.toNat_ushiftRight, Nat.shiftRight_eq_div_pow]
      omega
    · show ((d >>> 32).setWidth 32).toNat * 2 ^ 32 + (d.setWidth 32).toNat = d.toNat
      have := d.isLt
      simp only [BitVec.toNat_setWidth, BitVec.toNat_ushiftRight, Nat.shiftRight_eq_div_pow]
      omega
  obtain ⟨r1, p0, p1, p2, p3, p4⟩ := hp
  obtain ⟨r2, e, dn⟩ := copies (n.toNat + 1) r1 m (by rw [p1]; exact h0) (by rw [p1]; omega)
    (by rw [p1, p3]; exact hs) (by rw [p1, p4]; exact hd)
  rw [p1, p3, p4, blockCopy_eq _ _ _ _ ho] at e
  have hne : r1 R_BTT ≠ 0 := fun h => by rw [p1] at h; rw [h] at h0; exact absurd h0 (by decide)
  rw [thread, if_neg hne] at e
  refine ⟨r1, r2, p0, ?_, e, ?_, ?_, dn.btt⟩
  · rw [p2, BitVec.and_assoc, show ~~~ SR_IDLE &&& SR_IDLE = 0 by decide]; exact BitVec.and_zero
  · rw [dn.sr]; generalize r1 R_SR = v
    apply BitVec.eq_of_getElem_eq; intro i hi
    simp only [SR_IDLE, SR_IOC_IRQ, BitVec.getElem_and, BitVec.getElem_or]
    cases (2#32)[i] <;> simp
  · rw [dn.sr]; generalize r1 R_SR = v
    apply BitVec.eq_of_getElem_eq; intro i hi
    simp only [SR_IDLE, SR_IOC_IRQ, BitVec.getElem_and, BitVec.getElem_or]
    cases (0x1000#32)[i] <;> simp

example : ∃ (s d : BitVec 64) (n : BitVec 32), 64 < n.toNat ∧ s.toNat + n.toNat < 2 ^ 64 ∧
    d.toNat + n.toNat < 2 ^ 64 ∧ d.toNat < s.toNat ∧ s.toNat < d.toNat + n.toNat :=
  ⟨0x1020#64, 0x1000#64, 200#32, by decide⟩

/-- The interrupt bit is write-one-to-clear; the idle bit cannot be written. -/
theorem irq_clear (r : Regs) (v : BitVec 32) :
    ∃ r', regWrite r 4 v = some (r', false) ∧ r' R_SR = r R_SR &&& ~~~ (v &&& SR_IOC_IRQ) ∧
      ∀ i, i ≠ R_SR → r' i = r i :=
  ⟨_, rfl, rfl, fun _ hi => if_neg hi⟩

/-- The reset bit clears itself: whatever is written to the control register, it
reads back as zero and the other bits read back as written. -/
theorem reset_bit_self_clears (r : Regs) (v : BitVec 32) :
    ∃ r' w, regWrite r 0 v = some (r', false) ∧ regRead r' 0 = some w ∧ w.getLsbD 2 = false ∧
      (∀ i, i ≠ 2 → w.getLsbD i = v.getLsbD i) ∧ ∀ i, i ≠ R_CR → r' i = r i := by
  refine ⟨_, v &&& ~~~ CR_RESET, rfl, rfl, ?_, ?_, fun _ hi => if_neg hi⟩
  · simp [CR_RESET]
  · intro i hi
    by_cases h : i < 32
    · have hb : CR_RESET.getLsbD i = false := by
        have : ∀ j : Fin 32, j.1 ≠ 2 → CR_RESET.getLsbD j.1 = false := by decide
        exact this ⟨i, h⟩ hi
      rw [BitVec.getLsbD_and, BitVec.getLsbD_not, hb, decide_eq_true h]; simp
    · rw [BitVec.getLsbD_of_ge _ _ (by omega), BitVec.getLsbD_of_ge _ _ (by omega)]

/-! ### Findings -/

/-- FINDING. Ranges that overlap with the destination above are not copied: the
second block reads what the first one wrote. -/
theorem overlap_above_corrupts :
    blockCopy (fun a => BitVec.ofNat 8 a) 0 32 96 96 = 32#8 ∧
    copied (fun a => BitVec.ofNat 8 a) 0 32 96 96 = 64#8 := by decide +kernel

/-- FINDING. Writing a new length while a round is in flight: the length of the old
block is subtracted from the new one, which wraps to almost 4 GiB. -/
theorem rewrite_underflows :
    ∃ (r : Regs) (r' : Regs), r R_BTT = 64#32 ∧
      regWrite r 0x28 10#32 = some (r', true) ∧
      (finish (start r (fun _ => 0#8)) r' (fun _ => 0#8)).1 R_BTT = 0xFFFFFFCA#32 :=
  ⟨fun i => if i = 10 then 64#32 else 0#32, _, rfl, rfl, by decide +kernel⟩

/-- FINDING. Registers are not initialised: a thread that starts with a length in
them copies without having been programmed. -/
theorem uninitialised_start :
    ∃ (r : Regs) (m : Mem), (round r m).2 4096 ≠ m 4096 :=
  ⟨fun i => if i = 10 then 4#32 else if i = 8 then 4096#32 else 0#32,
    fun a => if a = 0 then 1#8 else 0#8, by rw [round_mem]; decide +kernel⟩

/-- FINDING. Errors of the source are ignored: stale bytes are written and success is
reported. -/
theorem read_error_ignored :
    ∃ (r : Regs) (r' : Regs) (m' : Mem), r R_BTT = 1#32 ∧
      roundBadRead [0xEE#8] r (fun _ => 0#8) = (r', m') ∧
      m' 4096 = 0xEE#8 ∧ r' R_SR = (SR_IDLE ||| SR_IOC_IRQ) :=
  ⟨fun i => if i = 10 then 1#32 else if i = 8 then 4096#32 else 0#32, _, _, rfl, rfl,
    by decide +kernel, by decide +kernel⟩

/-- FINDING. Register accesses beyond the last register are not rejected. -/
theorem register_overrun (r : Regs) (a : Nat) (v : BitVec 32) (h : 0x2c ≤ a) :
    regWrite r a v = none ∧ regRead r a = none := by
  have : ¬ a / 4 < R_MAX := by unfold R_MAX; omega
  simp [regWrite, regRead, this]

/-- FINDING. The run/stop and reset bits have no effect: a copy programmed while the
engine is stopped is done all the same. -/
theorem control_ignored (r : Regs) (m : Mem) (v : BitVec 32) :
    (round (r.put R_CR v) m).2 = (round r m).2 := by
  rw [round_mem, round_mem]; rfl

/-- A length of 0 makes one empty access of each kind, changes nothing in memory and
sets the done bits. -/
theorem zero_length (r : Regs) (m : Mem) (h : r R_BTT = 0) : (round r m).2 = m := by
  rw [round_mem, h]
  funext x
  unfold copied
  exact if_neg (by simp)

end Verif.Cdma
