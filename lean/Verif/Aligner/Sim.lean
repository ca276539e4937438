import Verif.Aligner.Props

/-! # Replacing the target behind the aligner

If two targets do the same with every access the aligner can issue, the aligner
in front of them does the same. -/

namespace Verif.Aligner
open Verif

/-- Two targets agree, up to a relation of their states, on the accesses the
aligner makes of `g`. -/
def Agree {σ τ : Type} (c : Cfg) (g : Gp) (R : σ → τ → Prop) (T1 : Target σ) (T2 : Target τ) : Prop :=
  ∀ x s t, InLimits c x → (x.sw = 0 ∨ x.len ≤ x.sw) → x.cmd = g.cmd → x.addr + x.len ≤ g.addr + g.len → R s t →
    R (T1 x s).1 (T2 x t).1 ∧ (T1 x s).2 = (T2 x t).2 ∧ (T2 x t).2.1.length = x.len

theorem chunk_sw (c : Cfg) (hv : c.validator = none) (g : Gp) (pos curSw : Nat) (hpos : pos < g.len)
    (hsw : 0 < effSw g) (hcur : pos = 0 → curSw = g.sw) :
    (chunk c g.addr g.len (effSw g) pos curSw).2 = 0 ∨
    (chunk c g.addr g.len (effSw g) pos curSw).1 ≤ (chunk c g.addr g.len (effSw g) pos curSw).2 := by
  unfold chunk
  simp only
  by_cases h1 : pos % effSw g ≠ 0
  · rw [if_pos h1]; right; exact Nat.le_refl _
  · rw [if_neg h1]
    by_cases h2 : effSw g ≠ g.len
    · have : ∀ a b d, validates c a b d = false := by intro a b d; unfold validates; rw [hv]
      rw [if_pos h2, this, if_neg (by simp)]
      right; exact Nat.le_refl _
    · rw [if_neg h2]
      have h2 : effSw g = g.len := by omega
      have h0 : pos = 0 := by
        have : pos % effSw g = 0 := by omega
        rw [h2, Nat.mod_eq_of_lt hpos] at this
        exact this
      rw [hcur h0]
      by_cases h3 : g.sw = 0
      · left; exact h3
      · right
        unfold effSw at h2
        rw [if_neg h3] at h2
        simp only
        omega

theorem loop_sim {σ τ : Type} (c : Cfg) (hc : c.Ok) (hv : c.validator = none) (g : Gp) (hfit : g.addr + g.len ≤ 2 ^ 64)
    (R : σ → τ → Prop) (T1 : Target σ) (T2 : Target τ) (hT : Agree c g R T1 T2)
    (n pos curSw : Nat) (s : σ) (t : τ) (buf : List Byte) (st : Status) (hn : g.len - pos ≤ n)
    (hpos : pos ≤ g.len) (hsw : 0 < g.len → 0 < effSw g) (hbuf : buf.length = g.len)
    (hcur : pos = 0 → curSw = g.sw) (hR : R s t) :
    ∃ s' t' r, loop c T1 g (effSw g) pos curSw s buf st = some (s', r) ∧
      loop c T2 g (effSw g) pos curSw t buf st = some (t', r) ∧ R s' t' := by
  induction n generalizing pos curSw s t buf st with
  | zero =>
    rw [loop, loop, if_neg (by omega), if_neg (by omega)]
    exact ⟨s, t, _, rfl, rfl, hR⟩
  | succ n ih =>
    by_cases hp : pos = g.len
    · rw [loop, loop, if_neg (by omega), if_neg (by omega)]
      exact ⟨s, t, _, rfl, rfl, hR⟩
    · have hlt : pos < g.len := by omega
      have hsw' := hsw (by omega)
      have hmod : pos % effSw g ≤ pos := Nat.mod_le _ _
      obtain ⟨f1, f2, f3, -⟩ := chunk_facts c g.addr g.len (effSw g) pos curSw hsw' hlt
      have f3' := f3 hc.maxLen hc.boundary hc.busWidth (by omega)
      have f2' := Nat.le_trans f2 (maxAddrRange_le c (g.addr + pos % effSw g)).1
      have hcs := chunk_sw c hv g pos curSw hlt hsw' hcur
      rw [loop, loop, if_pos hlt, if_pos hlt]
      simp only []
      rw [dif_pos ⟨f3', f2'⟩, dif_pos ⟨f3', f2'⟩]
      generalize hch : chunk c g.addr g.len (effSw g) pos curSw = ch at *
      have hsl : (subGp g (effSw g) buf pos ch).len = ch.1 := by
        simp [subGp, Gp.len]
        have : g.len = g.data.length := rfl
        omega
      have hsub := sub_inLimits c hc g (effSw g) buf pos ch hsl f3' f2 (by omega)
      obtain ⟨r1, r2, r3⟩ := hT (subGp g (effSw g) buf pos ch) s t hsub (by rw [hsl]; exact hcs) rfl
        (by rw [hsl]; show g.addr + pos % effSw g + ch.1 ≤ _; omega) hR
      rw [r2]
      rw [hsl] at r3
      by_cases hs : (T2 (subGp g (effSw g) buf pos ch) t).2.2 = .ok
      · rw [if_neg (by simp [hs]), if_neg (by simp [hs])]
        exact ih (pos + ch.1) ch.2 _ _ _ _ (by omega) (by omega)
          (by simp [r3]; omega) (by omega) r1
      · rw [if_pos hs, if_pos hs]
        exact ⟨_, _, _, rfl, rfl, r1⟩

theorem transport_sim {σ τ : Type} (c : Cfg) (hc : c.Ok) (hv : c.validator = none) (g : Gp) (hne : 0 < g.len)
    (hfit : g.addr + g.len ≤ 2 ^ 64) (R : σ → τ → Prop) (T1 : Target σ) (T2 : Target τ) (hT : Agree c g R T1 T2)
    (s : σ) (t : τ) (st : Status) (hR : R s t) :
    ∃ s' t' r, transport c T1 g s st = some (s', r) ∧ transport c T2 g t st = some (t', r) ∧ R s' t' := by
  unfold transport
  by_cases hf : fastPath c g = true
  · rw [if_pos hf, if_pos hf]
    simp only [fastPath, Bool.and_eq_true, beq_iff_eq, decide_eq_true_eq] at hf
    obtain ⟨⟨⟨hf1, hf2⟩, hf3⟩, hf4⟩ := hf
    have hsub : InLimits c g := by
      have h : (subGp g 1 g.data 0 (g.len, g.sw)).len = g.len := by simp [subGp, Gp.len]
      have := sub_inLimits c hc g 1 g.data 0 (g.len, g.sw) h hne
        (by simp only [Nat.mod_one, Nat.add_zero]; omega) (by simp only [Nat.mod_one, Nat.add_zero]; omega)
      obtain ⟨a1, a2, a3, a4⟩ := this
      rw [h] at a1 a2 a3 a4
      exact ⟨a1, a2, by simpa [subGp, Nat.mod_one] using a3, by simpa [subGp, Nat.mod_one] using a4⟩
    have hs : g.sw = 0 ∨ g.len ≤ g.sw := by
      unfold effSw at hf4
      by_cases h : g.sw = 0
      · exact Or.inl h
      · rw [if_neg h] at hf4; right; omega
    obtain ⟨r1, r2, -⟩ := hT g s t hsub hs rfl (Nat.le_refl _) hR
    exact ⟨(T1 g s).1, (T2 g t).1, (T2 g t).2, by rw [← r2], rfl, r1⟩
  · rw [if_neg hf, if_neg hf]
    have hsw : 0 < g.len → 0 < effSw g := by
      intro _; unfold effSw; split <;> omega
    exact loop_sim c hc hv g hfit R T1 T2 hT g.len 0 g.sw s t g.data st (by omega) (by omega) hsw rfl (fun _ => rfl) hR

end Verif.Aligner
