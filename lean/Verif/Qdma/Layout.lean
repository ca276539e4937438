import Verif.Qdma.Regs
import Verif.Qdma.Faults

/-!
# C49: what a driver programs is what the device uses

The context layouts, written the way a register description gives them: word number
and bit range of each field.  A driver puts the eight words of a context in the data
registers and issues the write command; the device then uses exactly those fields.
-/

namespace Verif.Qdma

/-- Bits `hi` to `lo` of a word. -/
def bits (w : BitVec 32) (hi lo : Nat) : Nat := w.toNat / 2 ^ lo % 2 ^ (hi + 1 - lo)

/-- The descriptor count a ring-size code stands for, in units of 64. -/
def ringUnits : List Nat := [32, 1, 2, 3, 4, 6, 8, 12, 16, 24, 48, 64, 96, 128, 192, 256]

/-- The operations by which a driver programs a context. -/
def program (v : Ver) (env : Env) (q sel : Nat) (w : Nat → BitVec 32) : List Op :=
  [.cfg env (wr 0x201 (w 0)), .cfg env (wr 0x202 (w 1)), .cfg env (wr 0x203 (w 2)),
   .cfg env (wr 0x204 (w 3)), .cfg env (wr 0x205 (w 4)), .cfg env (wr 0x206 (w 5)),
   .cfg env (wr 0x207 (w 6)), .cfg env (wr 0x208 (w 7)), .cfg env (ctxOp v q sel 1)]

/-! ### Helpers -/

/-- Eight words as one context. -/
def joined (w : Nat → BitVec 32) : Ctx :=
  w 7 ++ w 6 ++ w 5 ++ w 4 ++ w 3 ++ w 2 ++ w 1 ++ w 0

theorem append_toNat {n : Nat} (a : BitVec n) (b : BitVec 32) :
    (a ++ b).toNat = b.toNat + 2 ^ 32 * a.toNat := by
  rw [BitVec.toNat_append, ← Nat.shiftLeft_add_eq_or_of_lt b.isLt, Nat.shiftLeft_eq]
  omega

theorem joined_toNat (w : Nat → BitVec 32) : (joined w).toNat =
    (w 0).toNat + 2 ^ 32 * ((w 1).toNat + 2 ^ 32 * ((w 2).toNat + 2 ^ 32 * ((w 3).toNat +
      2 ^ 32 * ((w 4).toNat + 2 ^ 32 * ((w 5).toNat + 2 ^ 32 * ((w 6).toNat + 2 ^ 32 * (w 7).toNat)))))) := by
  unfold joined
  simp only [append_toNat]

theorem getF_joined (w : Nat → BitVec 32) (lo n : Nat) :
    getF (joined w) lo n = ((w 0).toNat + 2 ^ 32 * ((w 1).toNat + 2 ^ 32 * ((w 2).toNat +
      2 ^ 32 * ((w 3).toNat + 2 ^ 32 * ((w 4).toNat + 2 ^ 32 * ((w 5).toNat + 2 ^ 32 * ((w 6).toNat +
        2 ^ 32 * (w 7).toNat))))))) / 2 ^ lo % 2 ^ n := by
  rw [getF_eq, joined_toNat]

theorem plain_data (v : Ver) (i : Nat) (hi : i < 8) : Plain v (0x201 + i) := by
  unfold Plain
  cases v <;> simp only [cmdReg, dmap] <;> omega

theorem step_wr (v : Ver) (env : Env) (w : Nat) (x : BitVec 32) (s : S) (h : Plain v w) :
    step v s (.cfg env (wr w x)) = .ok (s.setReg w x) := by
  simp only [step]
  rw [cfg_wr, cfgWrite_plain v env w x s h]
  rfl

theorem program_ok (v : Ver) (env : Env) (q sel : Nat) (w : Nat → BitVec 32) (s : S) (hq : q < 2)
    (hsel : sel < 8 ∨ sel = 8 ∨ sel = 12) :
    ∃ s', hist v s (program v env q sel w) = .ok s' ∧ s'.ctx q sel = joined w ∧
      (∀ a b, ¬ (a = q ∧ b = sel) → s'.ctx a b = s.ctx a b) ∧
      s'.host = s.host ∧ s'.card = s.card ∧ s'.log = s.log := by
  have e : hist v s (program v env q sel w) =
      hist v (((((((( s.setReg 0x201 (w 0)).setReg 0x202 (w 1)).setReg 0x203 (w 2)).setReg 0x204 (w 3)).setReg
        0x205 (w 4)).setReg 0x206 (w 5)).setReg 0x207 (w 6)).setReg 0x208 (w 7))
        [.cfg env (ctxOp v q sel 1)] := by
    unfold program
    simp only [hist]
    rw [step_wr _ _ _ _ _ (plain_data v 0 (by omega))]
    simp only
    rw [step_wr _ _ _ _ _ (plain_data v 1 (by omega))]
    simp only
    rw [step_wr _ _ _ _ _ (plain_data v 2 (by omega))]
    simp only
    rw [step_wr _ _ _ _ _ (plain_data v 3 (by omega))]
    simp only
    rw [step_wr _ _ _ _ _ (plain_data v 4 (by omega))]
    simp only
    rw [step_wr _ _ _ _ _ (plain_data v 5 (by omega))]
    simp only
    rw [step_wr _ _ _ _ _ (plain_data v 6 (by omega))]
    simp only
    rw [step_wr _ _ _ _ _ (plain_data v 7 (by omega))]
  rw [e]
  obtain ⟨s', h1, _, h2, _, h3, h4, h5, h6⟩ := context_command v env q sel 1 (((((((( s.setReg 0x201 (w 0)).setReg
    0x202 (w 1)).setReg 0x203 (w 2)).setReg 0x204 (w 3)).setReg
        0x205 (w 4)).setReg 0x206 (w 5)).setReg 0x207 (w 6)).setReg 0x208 (w 7)) hq (by omega) hsel
  refine ⟨s', ?_, ?_, h3, h4, h5, h6⟩
  · simp only [hist, step]
    rw [h1]
    rfl
  · rw [h2 rfl]
    simp [dataCtx, S.setReg, joined]

theorem bool_bit (w : BitVec 32) (lo : Nat) : (w.toNat / 2 ^ lo % 2 ^ 1 != 0) = (bits w lo lo == 1) := by
  unfold bits
  rw [show lo + 1 - lo = 1 by omega]
  have h : w.toNat / 2 ^ lo % 2 ^ 1 < 2 := Nat.mod_lt _ (by decide)
  generalize w.toNat / 2 ^ lo % 2 ^ 1 = x at *
  match x, h with
  | 0, _ => rfl
  | 1, _ => rfl

/-! ### Properties -/

/-- **A queue runs with the parameters its driver gave it.**  Programming the
software context of a queue always succeeds, and from then on the device's view of
that queue is the one the words describe: producer index, interrupt arming, ring size
(a code for a number of descriptors), descriptor size, status write-back, interrupt
enable, ring address; in CPM5 also interrupt vector and aggregation. -/
theorem queue_as_programmed (v : Ver) (env : Env) (q : Nat) (h2c : Bool) (w : Nat → BitVec 32) (s : S)
    (hq : q < 2) :
    ∃ s', hist v s (program v env q (if h2c then 1 else 0) w) = .ok s' ∧
      s'.pidx q h2c = bits (w 0) 15 0 ∧
      s'.irqArm q h2c = (bits (w 0) 16 16 == 1) ∧
      some (s'.ringSize q h2c) = (ringUnits[bits (w 1) 15 12]?).map (64 * ·) ∧
      s'.descSize q h2c = 8 * 2 ^ bits (w 1) 17 16 ∧
      s'.wbEn q h2c = (bits (w 1) 20 20 == 1) ∧
      s'.irqEn q h2c = (bits (w 1) 21 21 == 1) ∧
      s'.base q h2c = (w 2).toNat + 2 ^ 32 * (w 3).toNat ∧
      (v = .cpm5 → s'.vec v q h2c = bits (w 4) 10 0 ∧ s'.aggr v q h2c = (bits (w 4) 11 11 == 1)) := by
  obtain ⟨s', h, hc, _⟩ := program_ok v env q (if h2c then 1 else 0) w s hq (by cases h2c <;> decide)
  have hc : s'.ctx q (swSel h2c) = joined w := hc
  have l0 := (w 0).isLt
  have l1 := (w 1).isLt
  have l2 := (w 2).isLt
  have l3 := (w 3).isLt
  have l4 := (w 4).isLt
  refine ⟨s', h, ?_, ?_, ?_, ?_, ?_, ?_, ?_, ?_⟩
  · unfold S.pidx bits
    rw [hc, getF_joined]; omega
  · unfold S.irqArm
    rw [hc, getF_joined, ← bool_bit]
    congr 1; omega
  · unfold S.ringSize S.ringCode
    rw [hc, getF_joined]
    have e : ((w 0).toNat + 2 ^ 32 * ((w 1).toNat + 2 ^ 32 * ((w 2).toNat + 2 ^ 32 * ((w 3).toNat +
      2 ^ 32 * ((w 4).toNat + 2 ^ 32 * ((w 5).toNat + 2 ^ 32 * ((w 6).toNat + 2 ^ 32 * (w 7).toNat))))))) /
        2 ^ 44 % 2 ^ 4 = bits (w 1) 15 12 := by unfold bits; omega
    rw [e]
    have hb : bits (w 1) 15 12 < 16 := Nat.mod_lt _ (by decide)
    exact (by decide : ∀ k, k < 16 → some (ringSizes.getD k 0) = (ringUnits[k]?).map (64 * ·)) _ hb
  · unfold S.descSize S.descCode
    rw [hc, getF_joined, Nat.shiftLeft_eq]
    congr 2
    unfold bits; omega
  · unfold S.wbEn
    rw [hc, getF_joined, ← bool_bit]
    congr 1; omega
  · unfold S.irqEn
    rw [hc, getF_joined, ← bool_bit]
    congr 1; omega
  · unfold S.base
    rw [hc, getF_joined, getF_joined]; omega
  · intro hv
    subst hv
    refine ⟨?_, ?_⟩
    · simp only [S.vec]
      rw [hc, getF_joined]
      unfold bits; omega
    · simp only [S.aggr]
      rw [hc, getF_joined, ← bool_bit]
      congr 1; omega

/-- **CPM4: vectors and aggregation** are programmed in a context of their own, for
both directions of a queue at once: card-to-host in bits 7 to 0 and 8, host-to-card
in bits 16 to 9 and 17. -/
theorem vector_as_programmed (env : Env) (q : Nat) (w : Nat → BitVec 32) (s : S) (hq : q < 2) :
    ∃ s', hist .cpm4 s (program .cpm4 env q 12 w) = .ok s' ∧
      s'.vec .cpm4 q false = bits (w 0) 7 0 ∧ s'.aggr .cpm4 q false = (bits (w 0) 8 8 == 1) ∧
      s'.vec .cpm4 q true = bits (w 0) 16 9 ∧ s'.aggr .cpm4 q true = (bits (w 0) 17 17 == 1) := by
  obtain ⟨s', h, hc, _⟩ := program_ok .cpm4 env q 12 w s hq (by decide)
  have hc : s'.ctx q vecSel = joined w := hc
  have l0 := (w 0).isLt
  refine ⟨s', h, ?_, ?_, ?_, ?_⟩
  · simp only [S.vec, Bool.false_eq_true, if_false]
    rw [hc, getF_joined]
    unfold bits; omega
  · simp only [S.aggr, Bool.false_eq_true, if_false]
    rw [hc, getF_joined, ← bool_bit]
    congr 1; omega
  · simp only [S.vec, if_true]
    rw [hc, getF_joined]
    unfold bits; omega
  · simp only [S.aggr, if_true]
    rw [hc, getF_joined, ← bool_bit]
    congr 1; omega

/-- Page address of an interrupt ring, by generation: the 52 bits straddle words. -/
def ringPage : Ver → (Nat → BitVec 32) → Nat
  | .cpm4, w => bits (w 0) 31 9 + 2 ^ 23 * bits (w 1) 28 0
  | .cpm5, w => bits (w 0) 31 15 + 2 ^ 17 * (w 1).toNat + 2 ^ 49 * bits (w 2) 2 0

/-- **Interrupt rings as programmed**: valid bit, vector, starting colour, address
(in 4 KiB pages) and number of pages, by generation. -/
theorem interrupt_ring_as_programmed (v : Ver) (env : Env) (r : Nat) (w : Nat → BitVec 32) (s : S) (hr : r < 2) :
    ∃ s', hist v s (program v env r 8 w) = .ok s' ∧
      icValid (s'.ctx r intSel) = (bits (w 0) 0 0 == 1) ∧
      icVector v (s'.ctx r intSel) = (match v with | .cpm4 => bits (w 0) 5 1 | .cpm5 => bits (w 0) 11 1) ∧
      icColor v (s'.ctx r intSel) = (match v with | .cpm4 => bits (w 0) 8 8 | .cpm5 => bits (w 0) 14 14) ∧
      icBaddr v (s'.ctx r intSel) = ringPage v w ∧
      icPage v (s'.ctx r intSel) = (match v with | .cpm4 => bits (w 1) 31 29 | .cpm5 => bits (w 2) 5 3) ∧
      icPidx v (s'.ctx r intSel) = (match v with | .cpm4 => bits (w 2) 11 0 | .cpm5 => bits (w 2) 17 6) := by
  obtain ⟨s', h, hc, _⟩ := program_ok v env r 8 w s hr (by decide)
  have hc : s'.ctx r intSel = joined w := hc
  have l0 := (w 0).isLt
  have l1 := (w 1).isLt
  have l2 := (w 2).isLt
  refine ⟨s', h, ?_⟩
  rw [hc]
  refine ⟨?_, ?_⟩
  · unfold icValid
    rw [getF_joined, ← bool_bit]
    congr 1; omega
  · cases v
    · simp only [icVector, icColor, icBaddr, icPage, icPidx, icOff, getF_joined, ringPage, bits]
      refine ⟨?_, ?_, ?_, ?_, ?_⟩ <;> omega
    · simp only [icVector, icColor, icBaddr, icPage, icPidx, icOff, getF_joined, ringPage, bits]
      refine ⟨?_, ?_, ?_, ?_, ?_⟩ <;> omega

/-- A 3072-descriptor ring of 32-byte descriptors at an address above 4 GiB, with
write-back and interrupts. -/
example : ringUnits[bits (0x0031A000#32) 15 12]? = some 48 ∧ bits (0x0031A000#32) 17 16 = 1 ∧
    bits (0x0031A000#32) 20 20 = 1 ∧ bits (0x0031A000#32) 21 21 = 1 := by decide

/-- **Odd accesses are refused.**  Byte enables, more than four bytes, a streaming
width below the length, or a command that is neither read nor write: either BAR
answers with a generic error, and nothing changes. -/
theorem odd_access_refused (v : Ver) (env : Env) (g : Gp) (s : S)
    (h : g.be ≠ [] ∨ 4 < g.data.length ∨ g.sw < g.data.length ∨ g.cmd = .ignore) :
    cfg v env g s = .ok (s, .generic, g.data) ∧ user g s = .ok (s, .generic, g.data) := by
  have key : refused g = true ∨ refused g = false ∧ g.cmd = .ignore := by
    unfold refused Gp.len
    rcases h with h | h | h | h
    · left; simp [h]
    · left; simp [h]
    · left; simp [h]
    · by_cases c : (g.be != [] || decide (4 < g.data.length) || decide (g.sw < g.data.length)) = true
      · exact .inl c
      · exact .inr ⟨by simpa using c, h⟩
  unfold cfg user
  rcases key with h | ⟨h, hc⟩
  · rw [h]; exact ⟨rfl, rfl⟩
  · rw [h, hc]; exact ⟨rfl, rfl⟩

/-- Five bytes are too many. -/
example : 4 < (⟨.write, 0x804, [1, 2, 3, 4, 5], [], 5⟩ : Gp).data.length := by decide

/-- **The user BAR is 168 words of storage.**  Each word reads back what was last
written to it, each write is confined to its word, and neither BAR sees the other's
registers. -/
theorem user_roundtrip (v : Ver) (env : Env) (s : S) (w : Nat) (x : BitVec 32) (h : w < 168) :
    ∃ s', user (wr w x) s = .ok (s', .ok, leEnc 4 x.toNat) ∧
      user (rd w) s' = .ok (s', .ok, leEnc 4 x.toNat) ∧
      (∀ u, u < 168 → u ≠ w → ∃ d, user (rd u) s = .ok (s, .ok, d) ∧ user (rd u) s' = .ok (s', .ok, d)) ∧
      (∀ u, u < 0x18000 → ∃ d, cfg v env (rd u) s = .ok (s, .ok, d) ∧ cfg v env (rd u) s' = .ok (s', .ok, d)) ∧
      s'.ctx = s.ctx ∧ s'.host = s.host ∧ s'.card = s.card ∧ s'.log = s.log ∧ s'.regs = s.regs := by
  have hr : ∀ (u : Nat) (t : S), u < 168 → user (rd u) t = .ok (t, .ok, leEnc 4 (t.axi u).toNat) := by
    intro u t hu
    unfold user
    rw [rd_refused]
    simp only [Bool.false_eq_true, if_false, rd]
    refine (if_pos (by show 4 * u / 4 < 168; omega)).trans ?_
    rw [show 4 * u / 4 = u by omega,
      List.take_of_length_le (by rw [leEnc_length']; simp [Gp.len])]
  refine ⟨{ s with axi := fun y => if y = w then x else s.axi y }, ?_, ?_, ?_, ?_, rfl, rfl, rfl, rfl, rfl⟩
  · unfold user
    rw [wr_refused]
    simp only [Bool.false_eq_true, if_false, wr]
    refine (if_pos (by show 4 * w / 4 < 168; omega)).trans ?_
    rw [wordOf_leEnc']
    have e : (fun y => if y = (wr w x).addr / 4 then x else s.axi y) = fun y => if y = w then x else s.axi y := by
      have : (wr w x).addr / 4 = w := by show 4 * w / 4 = w; omega
      rw [this]
    exact congrArg (fun f => Except.ok (({ s with axi := f } : S), Status.ok, leEnc 4 x.toNat)) e
  · rw [hr _ _ h]
    simp only [if_pos]
  · intro u hu huw
    refine ⟨_, hr u s hu, ?_⟩
    rw [hr u _ hu]
    simp only [if_neg huw]
  · intro u hu
    exact ⟨_, cfg_rd _ _ _ _ hu, cfg_rd _ _ _ _ hu⟩

end Verif.Qdma
