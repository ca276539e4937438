import Verif.Aligner.Sim

/-! # Bus-aligned accesses stay bus-aligned

An access of whole bus words from a bus-aligned address is chopped by the aligner
into such accesses; so a target that can only take those can be put behind it. -/

namespace Verif.Aligner
open Verif

/-- The natural alignment of an address is a multiple of every power of two that the
address is one of. -/
theorem naturalAlignment_dvd (a j : Nat) (h0 : 0 < a) (h : a < 2 ^ 64) (hj : a % 2 ^ j = 0) : naturalAlignment a % 2 ^ j = 0 := by
  obtain ⟨k, m, e⟩ := exists_odd_part a h0
  have hn : naturalAlignment a = 2 ^ k := by
    unfold naturalAlignment
    rw [if_neg (by omega), e]
    exact lowbit_eq k m 64 (by rw [← e]; exact h)
  rw [hn]
  rcases Nat.lt_or_ge k j with hlt | hge
  · exfalso
    obtain ⟨d, hd⟩ := Nat.exists_eq_add_of_lt hlt
    have h1 : 2 ^ (k + 1) ∣ a := Nat.dvd_trans (Nat.pow_dvd_pow 2 (by omega)) (Nat.dvd_of_mod_eq_zero hj)
    rw [e, Nat.pow_succ] at h1
    have h2 := Nat.dvd_of_mul_dvd_mul_left (Nat.two_pow_pos k) h1
    omega
  · exact Nat.mod_eq_zero_of_dvd (Nat.pow_dvd_pow 2 hge)

theorem min_mod (d a b : Nat) (ha : a % d = 0) (hb : b % d = 0) : (min a b) % d = 0 := by
  rcases Nat.le_total a b with h | h
  · rw [Nat.min_eq_left h]; exact ha
  · rw [Nat.min_eq_right h]; exact hb

theorem sub_mod (d a b : Nat) (ha : a % d = 0) (hb : b % d = 0) : (a - b) % d = 0 :=
  Nat.mod_eq_zero_of_dvd (Nat.dvd_sub (Nat.dvd_of_mod_eq_zero ha) (Nat.dvd_of_mod_eq_zero hb))

theorem add_mod (d a b : Nat) (ha : a % d = 0) (hb : b % d = 0) : (a + b) % d = 0 :=
  Nat.mod_eq_zero_of_dvd (Nat.dvd_add (Nat.dvd_of_mod_eq_zero ha) (Nat.dvd_of_mod_eq_zero hb))

theorem mod_mod_zero (d a b : Nat) (ha : a % d = 0) (hb : b % d = 0) : (a % b) % d = 0 := by
  have := Nat.mod_mod_of_dvd a (Nat.dvd_of_mod_eq_zero hb)
  rw [this, ha]

/-- An aligner in front of a bus of `2 ^ j` bytes. -/
structure ForBus (c : Cfg) (j : Nat) : Prop where
  width : c.busWidth / 8 = 2 ^ j
  maxLen : c.maxLen % 2 ^ j = 0
  boundary : c.boundary % 2 ^ j = 0
  small : c.maxLen < 2 ^ 64 - 1
  plain : c.validator = none

theorem range_aligned (c : Cfg) (j : Nat) (hb : ForBus c j) (a : Nat) (ha : a < 2 ^ 64) (hj : a % 2 ^ j = 0) :
    maxAddrRange c a (naturalAlignment a) % 2 ^ j = 0 := by
  have h1 : (min c.maxLen (c.boundary - a % c.boundary)) % 2 ^ j = 0 :=
    min_mod _ _ _ hb.maxLen (sub_mod _ _ _ hb.boundary (mod_mod_zero _ _ _ hj hb.boundary))
  unfold maxAddrRange
  simp only []
  by_cases hn : c.natural = true
  · rw [if_pos hn, (naturalAlignment_pos a ha).2, Nat.sub_zero]
    rcases Nat.eq_zero_or_pos a with h0 | h0
    · have hle : min c.maxLen (c.boundary - a % c.boundary) ≤ naturalAlignment a := by
        have := hb.small
        have : naturalAlignment a = 2 ^ 64 - 1 := by rw [h0]; rfl
        rw [this]
        exact Nat.le_trans (Nat.min_le_left _ _) (by omega)
      rw [Nat.min_eq_left hle]
      exact h1
    · exact min_mod _ _ _ h1 (naturalAlignment_dvd a j h0 ha hj)
  · rw [if_neg hn]
    exact h1

/-- Accesses of whole bus words from a bus-aligned address, counting up or starting
again after whole bus words. -/
structure Whole (j : Nat) (g : Gp) : Prop where
  nonempty : 0 < g.len
  width : g.sw ≠ 0
  addr : g.addr % 2 ^ j = 0
  len : g.len % 2 ^ j = 0
  walk : g.len ≤ g.sw ∨ g.sw % 2 ^ j = 0

theorem chunk_aligned (c : Cfg) (j : Nat) (hb : ForBus c j) (g : Gp) (hg : Whole j g) (pos curSw : Nat) (hpos : pos < g.len)
    (hp : pos % 2 ^ j = 0) (hcur : pos = 0 → curSw = g.sw) (hfit : g.addr + g.len ≤ 2 ^ 64) :
    (chunk c g.addr g.len g.sw pos curSw).1 % 2 ^ j = 0 ∧
      (chunk c g.addr g.len g.sw pos curSw).1 ≤ (chunk c g.addr g.len g.sw pos curSw).2 ∧ (g.addr + pos % g.sw) % 2 ^ j = 0 := by
  have hm : (pos % g.sw) % 2 ^ j = 0 := by
    rcases hg.walk with h | h
    · rw [Nat.mod_eq_of_lt (show pos < g.sw by omega)]; exact hp
    · exact mod_mod_zero _ _ _ hp h
  have ha := add_mod _ _ _ hg.addr hm
  have hle := Nat.mod_le pos g.sw
  have hr := range_aligned c j hb (g.addr + pos % g.sw) (by omega) ha
  have ht := min_mod _ _ _ (sub_mod _ _ _ hg.len hp) hr
  refine ⟨?_, ?_, ha⟩
  · unfold chunk
    simp only []
    by_cases h1 : pos % g.sw ≠ 0
    · rw [if_pos h1]
      rcases hg.walk with h | h
      · have : g.len - pos ≤ g.sw - pos % g.sw := by rw [Nat.mod_eq_of_lt (by omega)]; omega
        show (min _ _) % _ = 0
        rw [Nat.min_eq_left (Nat.le_trans (Nat.min_le_left _ _) this)]
        exact ht
      · exact min_mod _ _ _ ht (sub_mod _ _ _ h hm)
    · rw [if_neg h1]
      by_cases h2 : g.sw ≠ g.len
      · have hv : ∀ a b d, validates c a b d = false := by intro a b d; unfold validates; rw [hb.plain]
        rw [if_pos h2, hv, if_neg (by simp), hb.width]
        show (min _ _) % _ = 0
        rcases hg.walk with h | h
        · have e : ∀ x, min (min (g.len - pos) x) (min (2 ^ j) g.sw) = min (min (g.len - pos) x) (2 ^ j) := by
            intro x; omega
          rw [e]
          exact min_mod _ _ _ ht (Nat.mod_self _)
        · exact min_mod _ _ _ ht (min_mod _ _ _ (Nat.mod_self _) h)
      · rw [if_neg h2]; exact ht
  · unfold chunk
    simp only []
    by_cases h1 : pos % g.sw ≠ 0
    · rw [if_pos h1]; exact Nat.le_refl _
    · rw [if_neg h1]
      by_cases h2 : g.sw ≠ g.len
      · have hv : ∀ a b d, validates c a b d = false := by intro a b d; unfold validates; rw [hb.plain]
        rw [if_pos h2, hv, if_neg (by simp)]; exact Nat.le_refl _
      · rw [if_neg h2]
        have h2 : g.sw = g.len := by omega
        have h0 : pos = 0 := by
          have : pos % g.sw = 0 := by omega
          rw [h2, Nat.mod_eq_of_lt hpos] at this
          exact this
        rw [hcur h0]
        show min _ _ ≤ g.sw
        omega

/-- As `Agree`, only for the accesses that are made of a `Whole` one. -/
def AgreeWhole {σ τ : Type} (c : Cfg) (j : Nat) (g : Gp) (R : σ → τ → Prop) (T1 : Target σ) (T2 : Target τ) : Prop :=
  ∀ x s t, InLimits c x → x.len ≤ x.sw → x.addr % 2 ^ j = 0 → x.len % 2 ^ j = 0 → (g.be = [] → x.be = []) → x.cmd = g.cmd →
    x.addr + x.len ≤ g.addr + g.len → R s t →
    R (T1 x s).1 (T2 x t).1 ∧ (T1 x s).2 = (T2 x t).2 ∧ (T2 x t).2.1.length = x.len

theorem loop_whole {σ τ : Type} (c : Cfg) (hc : c.Ok) (j : Nat) (hb : ForBus c j) (g : Gp) (hg : Whole j g) (hfit : g.addr + g.len ≤ 2 ^ 64)
    (R : σ → τ → Prop) (T1 : Target σ) (T2 : Target τ) (hT : AgreeWhole c j g R T1 T2)
    (n pos curSw : Nat) (s : σ) (t : τ) (buf : List Byte) (st : Status) (hn : g.len - pos ≤ n)
    (hpos : pos ≤ g.len) (hpj : pos % 2 ^ j = 0) (hbuf : buf.length = g.len)
    (hcur : pos = 0 → curSw = g.sw) (hR : R s t) :
    ∃ s' t' r, loop c T1 g g.sw pos curSw s buf st = some (s', r) ∧
      loop c T2 g g.sw pos curSw t buf st = some (t', r) ∧ R s' t' := by
  induction n generalizing pos curSw s t buf st with
  | zero =>
    rw [loop, loop, if_neg (by omega), if_neg (by omega)]
    exact ⟨s, t, _, rfl, rfl, hR⟩
  | succ n ih =>
    by_cases hp : pos = g.len
    · rw [loop, loop, if_neg (by omega), if_neg (by omega)]
      exact ⟨s, t, _, rfl, rfl, hR⟩
    · have hlt : pos < g.len := by omega
      have hsw' : 0 < g.sw := by have := hg.width; omega
      have hmod : pos % g.sw ≤ pos := Nat.mod_le _ _
      obtain ⟨f1, f2, f3, -⟩ := chunk_facts c g.addr g.len g.sw pos curSw hsw' hlt
      have f3' := f3 hc.maxLen hc.boundary hc.busWidth (by omega)
      have f2' := Nat.le_trans f2 (maxAddrRange_le c (g.addr + pos % g.sw)).1
      obtain ⟨a1, a2, a3⟩ := chunk_aligned c j hb g hg pos curSw hlt hpj hcur hfit
      rw [loop, loop, if_pos hlt, if_pos hlt]
      simp only []
      rw [dif_pos ⟨f3', f2'⟩, dif_pos ⟨f3', f2'⟩]
      generalize hch : chunk c g.addr g.len g.sw pos curSw = ch at *
      have hsl : (subGp g g.sw buf pos ch).len = ch.1 := by
        simp [subGp, Gp.len]
        have : g.len = g.data.length := rfl
        omega
      have hsub := sub_inLimits c hc g g.sw buf pos ch hsl f3' f2 (by omega)
      obtain ⟨r1, r2, r3⟩ := hT (subGp g g.sw buf pos ch) s t hsub (by rw [hsl]; exact a2) a3 (by rw [hsl]; exact a1)
        (by intro h; show beWindow g.be pos = []; rw [h]; simp [beWindow]) rfl
        (by rw [hsl]; show g.addr + pos % g.sw + ch.1 ≤ _; omega) hR
      rw [r2]
      rw [hsl] at r3
      by_cases hs : (T2 (subGp g g.sw buf pos ch) t).2.2 = .ok
      · rw [if_neg (by simp [hs]), if_neg (by simp [hs])]
        exact ih (pos + ch.1) ch.2 _ _ _ _ (by omega) (by omega) (add_mod _ _ _ hpj a1)
          (by simp [r3]; omega) (by omega) r1
      · rw [if_pos hs, if_pos hs]
        exact ⟨_, _, _, rfl, rfl, r1⟩

/-- **Replacing the target, for accesses of whole bus words.** -/
theorem transport_whole {σ τ : Type} (c : Cfg) (hc : c.Ok) (j : Nat) (hb : ForBus c j) (g : Gp) (hg : Whole j g)
    (hfit : g.addr + g.len ≤ 2 ^ 64) (R : σ → τ → Prop) (T1 : Target σ) (T2 : Target τ) (hT : AgreeWhole c j g R T1 T2)
    (s : σ) (t : τ) (st : Status) (hR : R s t) :
    ∃ s' t' r, transport c T1 g s st = some (s', r) ∧ transport c T2 g t st = some (t', r) ∧ R s' t' := by
  have heff : effSw g = g.sw := by unfold effSw; rw [if_neg hg.width]
  unfold transport
  by_cases hf : fastPath c g = true
  · rw [if_pos hf, if_pos hf]
    simp only [fastPath, Bool.and_eq_true, beq_iff_eq, decide_eq_true_eq] at hf
    obtain ⟨⟨⟨hf1, hf2⟩, hf3⟩, hf4⟩ := hf
    have hne := hg.nonempty
    have hsub : InLimits c g := by
      have h : (subGp g 1 g.data 0 (g.len, g.sw)).len = g.len := by simp [subGp, Gp.len]
      have := sub_inLimits c hc g 1 g.data 0 (g.len, g.sw) h hne
        (by simp only [Nat.mod_one, Nat.add_zero]; omega) (by simp only [Nat.mod_one, Nat.add_zero]; omega)
      obtain ⟨a1, a2, a3, a4⟩ := this
      rw [h] at a1 a2 a3 a4
      exact ⟨a1, a2, by simpa [subGp, Nat.mod_one] using a3, by simpa [subGp, Nat.mod_one] using a4⟩
    obtain ⟨r1, r2, -⟩ := hT g s t hsub (by rw [heff] at hf4; omega) hg.addr hg.len id rfl (Nat.le_refl _) hR
    exact ⟨(T1 g s).1, (T2 g t).1, (T2 g t).2, by rw [← r2], rfl, r1⟩
  · rw [if_neg hf, if_neg hf, heff]
    exact loop_whole c hc j hb g hg hfit R T1 T2 hT g.len 0 g.sw s t g.data st (by omega) (by omega) (Nat.zero_mod _) rfl (fun _ => rfl) hR

end Verif.Aligner
