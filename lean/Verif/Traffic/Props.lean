import Verif.Traffic.Model
/-! C42: random traffic stays inside its window. -/
namespace Verif.Traffic
open Verif

/-- Configurations a user can expect to work: a non-empty window, lengths at least
one, the address mask does not move an address below the window. -/
structure Good (c : Cfg) : Prop where
  window : c.minAddr < c.maxAddr
  top : c.maxAddr < 2 ^ 64
  minLen : 0 < c.minLen
  maxLen : 0 < c.maxLen
  maxLen32 : c.maxLen < 2 ^ 32 - 1
  mask : ∀ a, c.minAddr ≤ a → a < c.maxAddr → c.minAddr ≤ a &&& c.mask

/-- What the property asks of a generated access. -/
structure Legal (c : Cfg) (a : Access) : Prop where
  lower : c.minAddr ≤ a.addr
  upper : a.addr + a.len ≤ c.maxAddr
  nonEmpty : 0 < a.len
  maxLen : a.len ≤ c.maxLen
  minLen : c.minLen ≤ a.len ∨ a.addr + a.len = c.maxAddr ∨ a.len = c.maxLen
  data : a.data.length = a.len
  be : a.be.length ≤ a.len ∧ a.be.length ≤ c.maxBe
  sw : 0 < a.sw ∧ (a.sw ≤ c.maxSw ∨ a.sw = a.len)

theorem sub64_of_le {a b : Nat} (h : b ≤ a) (ha : a < 2 ^ 64) : sub64 a b = a - b := by
  unfold sub64; omega

/-- The stored address and length are legal. -/
structure StOk (c : Cfg) (s : St) : Prop where
  lower : c.minAddr ≤ s.addr
  upper : s.addr + s.len ≤ c.maxAddr
  nonEmpty : 0 < s.len
  maxLen : s.len ≤ c.maxLen
  minLen : c.minLen ≤ s.len ∨ s.addr + s.len = c.maxAddr ∨ s.len = c.maxLen
  be : s.beLen ≤ s.len ∧ s.beLen ≤ c.maxBe
  sw : 0 < s.swLen ∧ (s.swLen ≤ c.maxSw ∨ s.swLen = s.len)

theorem genRnd_ok {c : Cfg} (hc : Good c) (rnd : Nat → Nat) (s : St) :
    ∃ s', genAddrLenRnd c rnd s = some s' ∧ StOk c s' ∧ s'.hasAL = true ∧
      s'.lastWrite = s.lastWrite ∧ s'.init = s.init := by
  have hw := hc.window
  have ht := hc.top
  have e := sub64_of_le (Nat.le_of_lt hw) ht
  unfold genAddrLenRnd
  rw [e, if_neg (by omega)]
  have hlt : rnd s.idx % (c.maxAddr - c.minAddr) < c.maxAddr - c.minAddr := Nat.mod_lt _ (by omega)
  rw [Nat.mod_eq_of_lt (show c.minAddr + rnd s.idx % (c.maxAddr - c.minAddr) < 2 ^ 64 by omega)]
  have hlo := hc.mask (c.minAddr + rnd s.idx % (c.maxAddr - c.minAddr)) (by omega) (by omega)
  have hhi : (c.minAddr + rnd s.idx % (c.maxAddr - c.minAddr)) &&& c.mask < c.maxAddr :=
    Nat.lt_of_le_of_lt Nat.and_le_left (by omega)
  generalize (c.minAddr + rnd s.idx % (c.maxAddr - c.minAddr)) &&& c.mask = A at hlo hhi
  dsimp only
  rw [sub64_of_le (Nat.le_of_lt hhi) ht]
  have hm1 := hc.minLen
  have hm2 := hc.maxLen
  have hm3 := hc.maxLen32
  have hML : 0 < min c.maxLen (c.maxAddr - A) ∧ min c.maxLen (c.maxAddr - A) ≤ c.maxLen ∧
      min c.maxLen (c.maxAddr - A) ≤ c.maxAddr - A ∧
      (min c.maxLen (c.maxAddr - A) = c.maxLen ∨ min c.maxLen (c.maxAddr - A) = c.maxAddr - A) := by omega
  generalize min c.maxLen (c.maxAddr - A) = ML at hML
  rw [if_neg (by omega)]
  have h0 : rnd (s.idx + 1) % (ML + 1) < ML + 1 := Nat.mod_lt _ (by omega)
  generalize rnd (s.idx + 1) % (ML + 1) = L0 at h0
  have hL : ∀ L, L = (if c.minLen < L0 then L0 else min c.minLen ML) →
      0 < L ∧ L ≤ ML ∧ (c.minLen ≤ L ∨ L = ML) := by
    intro L hL
    split at hL <;> omega
  generalize hLe : (if c.minLen < L0 then L0 else min c.minLen ML) = L
  have hL := hL L hLe.symm
  generalize hbe : (if decide (c.maxBe ≠ 0) = true then
          (if rnd (s.idx + 2) % 2 = 1 then rnd (s.idx + 3) % (min c.maxBe L + 1) else 0) else 0) = B
  have hB : B ≤ L ∧ B ≤ c.maxBe := by
    have : rnd (s.idx + 3) % (min c.maxBe L + 1) < min c.maxBe L + 1 := Nat.mod_lt _ (by omega)
    split at hbe
    · split at hbe <;> omega
    · omega
  generalize (if decide (c.maxBe ≠ 0) = true then
    (if rnd (s.idx + 2) % 2 = 1 then s.idx + 4 else s.idx + 3) else s.idx + 2) = I
  rw [if_neg (by omega)]
  refine ⟨_, rfl, ⟨hlo, ?_, hL.1, ?_, ?_, hB, ?_⟩, rfl, rfl, rfl⟩
  · show A + L ≤ _; omega
  · show L ≤ _; omega
  · show _ ≤ L ∨ A + L = _ ∨ L = _; omega
  · dsimp only
    generalize (if decide (rnd I % 2 = 1) = true then rnd (I + 1) % L else L) = S
    generalize (if S < c.minSw then c.minSw else S) = S
    have hS : (if c.maxSw < S then c.maxSw else S) ≤ c.maxSw := by split <;> omega
    generalize (if c.maxSw < S then c.maxSw else S) = S at hS
    split <;> omega

theorem dataLoop_length (rnd : Nat → Nat) : ∀ n v idx, (dataLoop rnd n v idx).1.length = n
  | 0, _, _ => rfl
  | n + 1, v, idx => by simp [dataLoop, dataLoop_length rnd n]

theorem beLoop_length (rnd : Nat → Nat) : ∀ n v idx, (beLoop rnd n v idx).1.length = n
  | 0, _, _ => rfl
  | n + 1, v, idx => by simp [beLoop, beLoop_length rnd n]

theorem getBe_same (rnd : Nat → Nat) (s : St) :
    (getBe rnd s).1.length = s.beLen ∧ ∃ i, (getBe rnd s).2 = { s with idx := i } := by
  unfold getBe
  dsimp only
  split
  · next h => exact ⟨by simp [h], _, rfl⟩
  · exact ⟨beLoop_length rnd _ _ _, _, rfl⟩

theorem getData_same (rnd : Nat → Nat) (s : St) :
    (getData rnd s).1.length = s.len ∧ ∃ i, (getData rnd s).2 = { s with idx := i } := by
  unfold getData
  split
  · exact ⟨by simp, s.idx, rfl⟩
  · exact ⟨dataLoop_length rnd _ _ _, _, rfl⟩

/-- What one round does, in terms of the state after drawing address and length. -/
theorem step_eq {c : Cfg} {rnd : Nat → Nat} {s s1 : St} (h : ensure c rnd (getCmd rnd s).2 = some s1) :
    ∃ i d be, step c rnd s = some (⟨(getCmd rnd s).1, s1.addr, s1.len, d, be, s1.swLen⟩, next { s1 with idx := i }) ∧
      d.length = s1.len ∧ be.length = s1.beLen := by
  unfold step
  simp only [h]
  split
  · obtain ⟨h1, i, h2⟩ := getData_same rnd s1
    rw [h2]
    obtain ⟨h3, j, h4⟩ := getBe_same rnd { s1 with idx := i }
    rw [h4]
    exact ⟨j, _, _, rfl, h1, h3⟩
  · dsimp only
    obtain ⟨h3, j, h4⟩ := getBe_same rnd s1
    rw [h4]
    exact ⟨j, _, _, rfl, by simp, h3⟩

/-- Between rounds: after a write the stored address and length are legal and the
byte enables are cleared; otherwise new ones will be drawn. -/
structure Inv (c : Cfg) (s : St) : Prop where
  init : s.init = false
  pend : s.lastWrite = true → s.hasAL = true ∧ StOk c s ∧ s.beLen = 0 ∧ s.swLen = s.len
  idle : s.lastWrite = false → s.hasAL = false

theorem step_ok {c : Cfg} (hc : Good c) (rnd : Nat → Nat) {s : St} (h : Inv c s) :
    ∃ a s', step c rnd s = some (a, s') ∧ Legal c a ∧ Inv c s' ∧
      (s.lastWrite = true → a.cmd = .read ∧ a.addr = s.addr ∧ a.len = s.len ∧ a.be = [] ∧ a.sw = a.len) ∧
      (s'.lastWrite = decide (a.cmd = .write)) ∧
      (a.cmd = .write → s'.addr = a.addr ∧ s'.len = a.len) := by
  cases hl : s.lastWrite with
  | true =>
    obtain ⟨p1, p2, p3, p4⟩ := h.pend hl
    have hg : getCmd rnd s = (.read, { s with lastWrite := false }) := by unfold getCmd; rw [if_pos hl]
    have he : ensure c rnd (getCmd rnd s).2 = some { s with lastWrite := false } := by
      unfold ensure; rw [hg]; dsimp only; rw [if_pos p1]
    obtain ⟨i, d, be, e1, e2, e3⟩ := step_eq he
    rw [hg] at e1
    refine ⟨_, _, e1, ⟨p2.lower, p2.upper, p2.nonEmpty, p2.maxLen, p2.minLen, e2, ?_, p2.sw⟩, ?_, ?_, ?_, ?_⟩
    · rw [e3]; exact p2.be
    · refine ⟨rfl, ?_, ?_⟩
      · unfold next; simp
      · unfold next; simp
    · intro _
      refine ⟨rfl, rfl, rfl, ?_, p4⟩
      have : be.length = 0 := by rw [e3]; exact p3
      exact List.length_eq_zero_iff.1 this
    · unfold next; simp
    · intro h; simp at h
  | false =>
    have hal := h.idle hl
    have hg : ∃ cmd, getCmd rnd s = (cmd, { s with lastWrite := decide (cmd = .write), idx := s.idx + 1 }) := by
      unfold getCmd
      rw [if_neg (by simp [hl])]
      exact ⟨_, rfl⟩
    obtain ⟨cmd, hg⟩ := hg
    obtain ⟨s1, g1, g2, g3, g4, g5⟩ := genRnd_ok hc rnd (getCmd rnd s).2
    have he : ensure c rnd (getCmd rnd s).2 = some s1 := by
      unfold ensure genAddrLen
      rw [if_neg (by rw [hg]; simp [hal]), if_neg (by rw [hg]; simp [h.init])]
      exact g1
    rw [hg] at g4 g5
    dsimp only at g4 g5
    obtain ⟨i, d, be, e1, e2, e3⟩ := step_eq he
    rw [hg] at e1
    refine ⟨_, _, e1, ⟨g2.lower, g2.upper, g2.nonEmpty, g2.maxLen, g2.minLen, e2, ?_, g2.sw⟩, ?_, ?_, ?_, ?_⟩
    · rw [e3]; exact g2.be
    · refine ⟨rfl, ?_, ?_⟩
      · intro hw
        cases hsw : s1.lastWrite
        · simp [next, hsw] at hw
        · refine ⟨?_, ⟨?_, ?_, ?_, ?_, ?_, ?_, ?_⟩, ?_, ?_⟩ <;> simp only [next, hsw, if_true]
          · exact g3
          · exact g2.lower
          · exact g2.upper
          · exact g2.nonEmpty
          · exact g2.maxLen
          · exact g2.minLen
          · omega
          · exact ⟨g2.nonEmpty, by simp⟩
      · intro hw
        cases hsw : s1.lastWrite
        · simp [next, hsw]
        · simp [next, hsw] at hw
    · intro h; exact absurd h (by simp)
    · dsimp only
      rw [← g4]
      unfold next; dsimp only; split <;> rfl
    · intro hw
      unfold next; dsimp only
      split <;> exact ⟨rfl, rfl⟩

/-- Every write is followed by a read of the same range without byte enables. -/
def WritesReadBack : List Access → Prop
  | a :: b :: rest =>
    (a.cmd = .write → b.cmd = .read ∧ b.addr = a.addr ∧ b.len = a.len ∧ b.be = [] ∧ b.sw = b.len) ∧
      WritesReadBack (b :: rest)
  | _ => True

theorem run_ok {c : Cfg} (hc : Good c) (rnd : Nat → Nat) : ∀ (n : Nat) (s : St), Inv c s →
    ∃ as, run c rnd n s = some as ∧ as.length = n ∧ (∀ a ∈ as, Legal c a) ∧ WritesReadBack as ∧
      (∀ a ∈ as.head?, s.lastWrite = true →
        a.cmd = .read ∧ a.addr = s.addr ∧ a.len = s.len ∧ a.be = [] ∧ a.sw = a.len)
  | 0, s, _ => ⟨[], rfl, rfl, by simp, trivial, by simp⟩
  | n + 1, s, h => by
    obtain ⟨a, s', e, hl, hi, hr, hw, ha⟩ := step_ok hc rnd h
    obtain ⟨as, e2, h2, h3, h4, h5⟩ := run_ok hc rnd n s' hi
    refine ⟨a :: as, ?_, by simp [h2], ?_, ?_, ?_⟩
    · simp only [run, e, e2, Option.map_some]
    · intro x hx
      rcases List.mem_cons.1 hx with rfl | hx
      · exact hl
      · exact h3 x hx
    · cases as with
      | nil => trivial
      | cons b bs =>
        refine ⟨fun hcw => ?_, h4⟩
        have := h5 b rfl (by rw [hw, hcw]; rfl)
        rw [← (ha hcw).1, ← (ha hcw).2]
        exact this
    · intro x hx hlw
      simp only [List.head?_cons, Option.mem_some_iff] at hx
      subst hx
      exact hr hlw

/-- For every sequence of random numbers and every number of transfers: the
generator never fails, issues that many accesses, each inside the window and
legal, and follows every write (but a last one) by a read of the same range. -/
theorem random_legal {c : Cfg} (hc : Good c) (rnd : Nat → Nat) (n : Nat) :
    ∃ as, run c rnd n (fresh false) = some as ∧ as.length = n ∧
      (∀ a ∈ as, Legal c a) ∧ WritesReadBack as := by
  obtain ⟨as, h1, h2, h3, h4, _⟩ := run_ok hc rnd n (fresh false)
    ⟨rfl, fun h => by simp [fresh] at h, fun _ => rfl⟩
  exact ⟨as, h1, h2, h3, h4⟩

/-- With initialisation: first a write of zeros to the whole window and a read of
it, then as without. The window must be below 4 GiB. -/
theorem random_init {c : Cfg} (hc : Good c) (h32 : c.maxAddr - c.minAddr < 2 ^ 32)
    (rnd : Nat → Nat) (n : Nat) :
    ∃ r as, r.cmd = .read ∧ r.addr = c.minAddr ∧ r.len = c.maxAddr - c.minAddr ∧ r.be = [] ∧
      run c rnd (n + 2) (fresh true) =
        some (⟨.write, c.minAddr, c.maxAddr - c.minAddr, List.replicate (c.maxAddr - c.minAddr) 0#8, [],
                c.maxAddr - c.minAddr⟩ :: r :: as) ∧
      as.length = n ∧ (∀ a ∈ as, Legal c a) ∧ WritesReadBack as := by
  have e := sub64_of_le (Nat.le_of_lt hc.window) hc.top
  have hs1 : ∃ i, step c rnd (fresh true) = some (⟨.write, c.minAddr, c.maxAddr - c.minAddr,
      List.replicate (c.maxAddr - c.minAddr) 0#8, [], c.maxAddr - c.minAddr⟩,
      ⟨true, false, true, c.minAddr, c.maxAddr - c.minAddr, 0, c.maxAddr - c.minAddr, i⟩) := by
    refine ⟨1, ?_⟩
    have hw : ((Cmd.write : Cmd) = .write) := rfl
    simp [step, fresh, getCmd, ensure, genAddrLen, e, Nat.mod_eq_of_lt h32, getData, getBe, beLoop, next]
  obtain ⟨i, hs1⟩ := hs1
  have hs2 : ∃ r j, r.cmd = .read ∧ r.addr = c.minAddr ∧ r.len = c.maxAddr - c.minAddr ∧ r.be = [] ∧
      step c rnd ⟨true, false, true, c.minAddr, c.maxAddr - c.minAddr, 0, c.maxAddr - c.minAddr, i⟩ =
      some (r, ⟨false, false, false, c.minAddr, c.maxAddr - c.minAddr, 0, c.maxAddr - c.minAddr, j⟩) := by
    refine ⟨⟨.read, c.minAddr, c.maxAddr - c.minAddr, List.replicate (c.maxAddr - c.minAddr) 0#8, [],
      c.maxAddr - c.minAddr⟩, i, rfl, rfl, rfl, rfl, ?_⟩
    simp [step, getCmd, ensure, getBe, beLoop, next]
  obtain ⟨r, j, r1, r2, r3, r4, hs2⟩ := hs2
  obtain ⟨as, h1, h2, h3, h4, _⟩ := run_ok hc rnd n
    ⟨false, false, false, c.minAddr, c.maxAddr - c.minAddr, 0, c.maxAddr - c.minAddr, j⟩
    ⟨rfl, fun h => by simp at h, fun _ => rfl⟩
  refine ⟨r, as, r1, r2, r3, r4, ?_, h2, h3, h4⟩
  simp only [run, hs1, hs2, h1, Option.map_some]

/-- The usual masks are good: clearing the low `k` bits of addresses in a window
that starts at a multiple of `2^k`. -/
theorem mask_ok {lo a k : Nat} (hk : k ≤ 64) (hlo : lo % 2 ^ k = 0) (ha : a < 2 ^ 64) (h : lo ≤ a) :
    lo ≤ a &&& (2 ^ 64 - 2 ^ k) := by
  have e : a &&& (2 ^ 64 - 2 ^ k) = a / 2 ^ k * 2 ^ k := by
    apply Nat.eq_of_testBit_eq
    intro i
    have : 2 ^ 64 - 2 ^ k = (2 ^ (64 - k) - 1) * 2 ^ k := by
      rw [Nat.sub_mul, ← Nat.pow_add, Nat.sub_add_cancel hk, Nat.one_mul]
    rw [this, Nat.testBit_and, ← Nat.shiftLeft_eq, ← Nat.shiftLeft_eq, Nat.testBit_shiftLeft,
      Nat.testBit_shiftLeft, Nat.testBit_two_pow_sub_one, ← Nat.shiftRight_eq_div_pow, Nat.testBit_shiftRight]
    by_cases hi : k ≤ i
    · simp only [hi, decide_true, Bool.true_and]
      rw [show k + (i - k) = i by omega]
      by_cases h64 : i < 64
      · simp [show i - k < 64 - k by omega]
      · have : a.testBit i = false := Nat.testBit_lt_two_pow (Nat.lt_of_lt_of_le ha (Nat.pow_le_pow_right (by omega) (by omega)))
        simp [this]
    · simp [hi]
  rw [e]
  have : lo / 2 ^ k ≤ a / 2 ^ k := Nat.div_le_div_right h
  have h2 := Nat.mul_le_mul_right (2 ^ k) this
  have h3 := Nat.div_mul_cancel (Nat.dvd_of_mod_eq_zero hlo)
  omega

example : Good ⟨0x1000, 0x3000, 2 ^ 64 - 2 ^ 2, 1, 64, 0, 64, 64⟩ where
  window := by decide
  top := by decide
  minLen := by decide
  maxLen := by decide
  maxLen32 := by decide
  mask := fun a h1 h2 => mask_ok (k := 2) (by decide) (by decide) (Nat.lt_trans h2 (by decide)) h1

/-! ### Findings -/

/-- FINDING. The mask is applied after the lower bound: an access below the window. -/
theorem mask_leaves_window :
    ∃ a, run ⟨0x1004, 0x1010, 2 ^ 64 - 0x10, 1, 4, 0, 4, 0⟩ (fun _ => 0) 1 (fresh false) = some [a] ∧
      a.addr = 0x1000 := ⟨_, rfl, by decide +kernel⟩

/-- FINDING. A minimum length of 0 lets the generator divide by zero. -/
theorem zero_length_divides_by_zero :
    run ⟨0, 0x100, 2 ^ 64 - 1, 0, 4, 0, 4, 0⟩ (fun i => if i = 2 then 0 else if i = 3 then 1 else 0) 1
      (fresh false) = none := by decide +kernel

/-- FINDING. The largest maximum length wraps the bound of the length to 0. -/
theorem max_length_divides_by_zero :
    run ⟨0, 2 ^ 40, 2 ^ 64 - 1, 1, 2 ^ 32 - 1, 0, 4, 0⟩ (fun _ => 0) 1 (fresh false) = none := by
  decide +kernel

/-- FINDING. With a window of 4 GiB the initialising write has length 0 and streaming
width 0. -/
theorem init_4g_empty :
    ∃ a, run ⟨0, 2 ^ 32, 2 ^ 64 - 1, 1, 4, 0, 4, 0⟩ (fun _ => 0) 1 (fresh true) = some [a] ∧
      a.cmd = .write ∧ a.len = 0 ∧ a.sw = 0 := ⟨_, rfl, by decide +kernel⟩

/-- FINDING. With a single transfer the last write is not read back. -/
theorem last_write_not_read :
    ∃ a, run ⟨0, 0x100, 2 ^ 64 - 1, 1, 4, 0, 4, 0⟩ (fun _ => 1) 1 (fresh false) = some [a] ∧
      a.cmd = .write := ⟨_, rfl, by decide +kernel⟩

end Verif.Traffic
