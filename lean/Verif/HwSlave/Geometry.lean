import Verif.HwSlave.Lemmas

namespace Verif.HwSlave
open Verif Verif.Axi

theorem offset_mod (db x : Nat) : offsetOf db x = x % db := by
  unfold offsetOf
  have := Nat.div_add_mod x db
  rw [Nat.mul_comm] at this
  omega

theorem firstLen_mod (a : Ax) (h : ∃ s, a.nb = 2 ^ s) : firstLen a = a.nb - a.addr % a.nb := by
  obtain ⟨s, h⟩ := h
  unfold firstLen
  rw [h, Nat.and_two_pow_sub_one_eq_mod]

theorem and_mod (x n : Nat) (h : ∃ s, n = 2 ^ s) : x &&& (n - 1) = x % n := by
  obtain ⟨s, h⟩ := h
  rw [h, Nat.and_two_pow_sub_one_eq_mod]

theorem mod_nb_lt (db nb x : Nat) (hdb : 0 < db) (hnb : 0 < nb) (hd : nb ∣ db) : x % db + (nb - x % nb) ≤ db := by
  have h1 : x % nb = x % db % nb := by rw [Nat.mod_mod_of_dvd _ hd]
  rw [h1]
  have hlt := Nat.mod_lt x hdb
  generalize x % db = y at *
  obtain ⟨q, rfl⟩ := hd
  have h2 := Nat.div_add_mod y nb
  have h3 : y / nb < q := Nat.div_lt_of_lt_mul hlt
  have h4 : nb * (y / nb + 1) ≤ nb * q := Nat.mul_le_mul_left _ h3
  rw [Nat.mul_succ] at h4
  have h5 := Nat.mod_lt y hnb
  omega

/-- The lanes of a beat at address `x`. -/
theorem laneOk_iff (db : Nat) (a : Ax) (n l : Nat) (hnb : 0 < a.nb) (hd : a.nb ∣ db) :
    a.laneOk db n l ↔ a.beatAddr n % db ≤ l ∧ l < a.beatAddr n % db + (a.nb - a.beatAddr n % a.nb) := by
  unfold Ax.laneOk Ax.lower Ax.upper
  generalize a.beatAddr n = x
  have h1 := Nat.div_add_mod x db
  have h2 := Nat.div_add_mod x a.nb
  rw [Nat.mul_comm] at h1 h2
  have h3 := Nat.mod_lt x hnb
  have h4 : x % a.nb ≤ x % db := by
    rw [← Nat.mod_mod_of_dvd x hd]
    exact Nat.mod_le _ _
  omega

theorem laneAddr_eq (db : Nat) (a : Ax) (n j : Nat) : a.laneAddr db n (a.beatAddr n % db + j) = a.beatAddr n + j := by
  unfold Ax.laneAddr
  have h1 := Nat.div_add_mod (a.beatAddr n) db
  rw [Nat.mul_comm] at h1
  omega

theorem geo_of (db : Nat) (a : Ax) (Q A : Nat → Nat) (hdb : 0 < db) (hnb : 0 < a.nb) (hd : a.nb ∣ db) (h0 : Q 0 = 0)
    (hnext : ∀ n, n < a.beats → Q (n + 1) = Q n + (a.nb - a.beatAddr n % a.nb))
    (hA : ∀ n, n < a.beats → ∀ j, j < a.nb - a.beatAddr n % a.nb → A (Q n + j) = a.beatAddr n + j) :
    Geo db a Q (fun n => a.nb - a.beatAddr n % a.nb) (fun n => a.beatAddr n % db) A where
  first := h0
  next := hnext
  fits := fun n _ => mod_nb_lt db a.nb _ hdb hnb hd
  cover := fun n _ l _ h => (laneOk_iff db a n l hnb hd).1 h
  addr := fun n hn j hj _ => by rw [laneAddr_eq]; exact hA n hn j hj

theorem beatAddr_zero (a : Ax) (h : a.burst ≠ .wrap) : a.beatAddr 0 = a.addr := by
  unfold Ax.beatAddr
  cases hb : a.burst with
  | fixed => rfl
  | incr => rfl
  | wrap => exact absurd hb h

theorem geo_single (db : Nat) (a : Ax) (A : Nat → Nat) (hdb : 0 < db) (hnb : 0 < a.nb) (hd : a.nb ∣ db) (hw : a.burst ≠ .wrap)
    (h1 : a.beats = 1) (hA : ∀ j, j < a.nb - a.addr % a.nb → A j = a.addr + j) :
    Geo db a (fun n => n * (db - a.addr % db)) (fun _ => db - a.addr % db) (fun _ => a.addr % db) A where
  first := Nat.zero_mul _
  next := fun n _ => Nat.succ_mul _ _
  fits := fun n _ => by have := Nat.mod_lt a.addr hdb; omega
  cover := fun n hn l hl h => by
    have hn0 : n = 0 := by omega
    subst hn0
    have := (laneOk_iff db a 0 l hnb hd).1 h
    rw [beatAddr_zero a hw] at this
    have := Nat.mod_lt a.addr hdb
    omega
  addr := fun n hn j _ h => by
    have hn0 : n = 0 := by omega
    subst hn0
    have h2 := (laneOk_iff db a 0 _ hnb hd).1 h
    have h3 := laneAddr_eq db a 0 j
    rw [beatAddr_zero a hw] at h2 h3
    rw [h3, Nat.zero_mul, Nat.zero_add]
    exact hA j (by omega)

/-! ## Incrementing bursts -/

theorem incr_addr (a : Ax) (hb : a.burst = .incr) (n : Nat) :
    a.beatAddr n = if n = 0 then a.addr else a.addr / a.nb * a.nb + n * a.nb := by
  unfold Ax.beatAddr
  rw [hb]

theorem incr_mod (a : Ax) (hb : a.burst = .incr) (n : Nat) (hn : 0 < n) : a.beatAddr n % a.nb = 0 := by
  rw [incr_addr a hb, if_neg (by omega), ← Nat.add_mul, Nat.mul_mod_left]

theorem incr_le (a : Ax) (hb : a.burst = .incr) (hnb : 0 < a.nb) (n : Nat) : a.addr ≤ a.beatAddr n := by
  rw [incr_addr a hb]
  by_cases h : n = 0
  · rw [if_pos h]; exact Nat.le_refl _
  · rw [if_neg h]
    have h1 := Nat.div_add_mod a.addr a.nb
    rw [Nat.mul_comm] at h1
    have h2 := Nat.mod_lt a.addr hnb
    have h3 : 1 * a.nb ≤ n * a.nb := Nat.mul_le_mul_right _ (by omega)
    omega

theorem incr_step (a : Ax) (hb : a.burst = .incr) (hnb : 0 < a.nb) (n : Nat) :
    a.beatAddr (n + 1) = a.beatAddr n + (a.nb - a.beatAddr n % a.nb) := by
  rw [incr_addr a hb (n + 1), if_neg (by omega)]
  by_cases h : n = 0
  · subst h
    rw [incr_addr a hb, if_pos rfl]
    have h1 := Nat.div_add_mod a.addr a.nb
    rw [Nat.mul_comm] at h1
    have h2 := Nat.mod_lt a.addr hnb
    omega
  · rw [incr_mod a hb n (by omega), incr_addr a hb n, if_neg h, Nat.succ_mul]
    omega

theorem geo_incr (db : Nat) (a : Ax) (A : Nat → Nat) (hdb : 0 < db) (hnb : 0 < a.nb) (hd : a.nb ∣ db) (hb : a.burst = .incr)
    (hA : ∀ i, i < a.beatAddr a.beats - a.addr → A i = a.addr + i) :
    Geo db a (fun n => a.beatAddr n - a.addr) (fun n => a.nb - a.beatAddr n % a.nb) (fun n => a.beatAddr n % db) A := by
  have hm : ∀ d n, a.beatAddr n ≤ a.beatAddr (n + d) := by
    intro d
    induction d with
    | zero => intro n; exact Nat.le_refl _
    | succ d ih => intro n; have := ih n; have := incr_step a hb hnb (n + d); rw [← Nat.add_assoc]; omega
  apply geo_of db a _ A hdb hnb hd
  · rw [beatAddr_zero a (by rw [hb]; simp)]; omega
  · intro n _
    have := incr_step a hb hnb n
    have := incr_le a hb hnb n
    omega
  · intro n hn j hj
    have h1 := incr_step a hb hnb n
    have h2 := incr_le a hb hnb n
    have h3 := hm (a.beats - (n + 1)) (n + 1)
    rw [show n + 1 + (a.beats - (n + 1)) = a.beats by omega] at h3
    rw [hA _ (by omega)]
    omega

/-! ## Fixed bursts -/

theorem fixed_addr (a : Ax) (hb : a.burst = .fixed) (n : Nat) : a.beatAddr n = a.addr := by
  unfold Ax.beatAddr
  rw [hb]

theorem geo_fixed (db : Nat) (a : Ax) (hdb : 0 < db) (hnb : 0 < a.nb) (hd : a.nb ∣ db) (hb : a.burst = .fixed) :
    Geo db a (fun n => n * (a.nb - a.addr % a.nb)) (fun n => a.nb - a.beatAddr n % a.nb) (fun n => a.beatAddr n % db)
      (fun i => a.addr + i % (a.nb - a.addr % a.nb)) := by
  apply geo_of db a _ _ hdb hnb hd
  · exact Nat.zero_mul _
  · intro n _
    rw [fixed_addr a hb, Nat.succ_mul]
  · intro n _ j hj
    rw [fixed_addr a hb] at hj ⊢
    rw [Nat.add_comm (n * _), Nat.add_mul_mod_self_right, Nat.mod_eq_of_lt hj]

/-! ## Wrapping bursts -/

theorem wrap_addr (a : Ax) (hb : a.burst = .wrap) (hal : a.addr % a.nb = 0) (n : Nat) :
    a.beatAddr n = if a.addr % (a.nb * a.beats) + n * a.nb < a.nb * a.beats then a.addr + n * a.nb
      else a.addr + n * a.nb - a.nb * a.beats := by
  unfold Ax.beatAddr
  rw [hb]
  simp only []
  have h1 := Nat.div_add_mod a.addr a.nb
  rw [Nat.mul_comm, hal, Nat.add_zero] at h1
  have h2 := Nat.div_add_mod a.addr (a.nb * a.beats)
  rw [Nat.mul_comm (a.nb * a.beats)] at h2
  rw [h1]
  by_cases h : a.addr % (a.nb * a.beats) + n * a.nb < a.nb * a.beats
  · rw [if_pos h, if_pos (by omega)]
  · rw [if_neg h, if_neg (by omega)]

theorem wrap_mod (a : Ax) (hb : a.burst = .wrap) (hal : a.addr % a.nb = 0) (n : Nat) : a.beatAddr n % a.nb = 0 := by
  rw [wrap_addr a hb hal]
  have h1 : a.nb ∣ a.addr := Nat.dvd_of_mod_eq_zero hal
  have h2 : a.nb ∣ n * a.nb := Nat.dvd_mul_left _ _
  have h3 : a.nb ∣ a.nb * a.beats := Nat.dvd_mul_right _ _
  apply Nat.mod_eq_zero_of_dvd
  by_cases h : a.addr % (a.nb * a.beats) + n * a.nb < a.nb * a.beats
  · rw [if_pos h]; exact Nat.dvd_add h1 h2
  · rw [if_neg h]; exact Nat.dvd_sub (Nat.dvd_add h1 h2) h3

theorem wrap_lane (db : Nat) (a : Ax) (hb : a.burst = .wrap) (hal : a.addr % a.nb = 0) (hd : db ∣ a.nb * a.beats) (n : Nat) :
    (a.addr % db + n * a.nb) % db = a.beatAddr n % db := by
  rw [wrap_addr a hb hal, Nat.mod_add_mod]
  by_cases h : a.addr % (a.nb * a.beats) + n * a.nb < a.nb * a.beats
  · rw [if_pos h]
  · rw [if_neg h]
    obtain ⟨q, hq⟩ := hd
    have hle : a.nb * a.beats ≤ a.addr + n * a.nb := by
      have := Nat.mod_le a.addr (a.nb * a.beats)
      omega
    rw [hq] at hle ⊢
    rw [Nat.sub_mul_mod hle]

theorem geo_wrap (db : Nat) (a : Ax) (hdb : 0 < db) (hnb : 0 < a.nb) (hd : a.nb ∣ db) (hb : a.burst = .wrap)
    (hal : a.addr % a.nb = 0) (hbe : 0 < a.beats) :
    Geo db a (fun n => n * a.nb) (fun n => a.nb - a.beatAddr n % a.nb) (fun n => a.beatAddr n % db)
      (WrapExpander.wrapAddr a.addr (a.nb * a.beats)) := by
  have hT : 0 < a.nb * a.beats := Nat.mul_pos hnb hbe
  have hdm := Nat.div_add_mod a.addr (a.nb * a.beats)
  rw [Nat.mul_comm (a.nb * a.beats)] at hdm
  have hr := Nat.mod_lt a.addr hT
  have hrd : a.nb ∣ a.addr % (a.nb * a.beats) := by
    rw [Nat.dvd_mod_iff (Nat.dvd_mul_right _ _)]
    exact Nat.dvd_of_mod_eq_zero hal
  apply geo_of db a _ _ hdb hnb hd
  · exact Nat.zero_mul _
  · intro n _
    rw [wrap_mod a hb hal, Nat.succ_mul]
    omega
  · intro n hn j hj
    rw [wrap_mod a hb hal] at hj
    have hnl : (n + 1) * a.nb ≤ a.beats * a.nb := Nat.mul_le_mul_right _ hn
    rw [Nat.succ_mul, Nat.mul_comm a.beats] at hnl
    rw [wrap_addr a hb hal]
    unfold WrapExpander.wrapAddr
    simp only []
    have hsub : a.addr - a.addr / (a.nb * a.beats) * (a.nb * a.beats) = a.addr % (a.nb * a.beats) := by omega
    rw [hsub]
    generalize a.addr / (a.nb * a.beats) * (a.nb * a.beats) = base at *
    obtain ⟨q, hq⟩ := hrd
    by_cases h : a.addr % (a.nb * a.beats) + n * a.nb < a.nb * a.beats
    · rw [if_pos h]
      have h2 : a.addr % (a.nb * a.beats) + n * a.nb + a.nb ≤ a.nb * a.beats := by
        rw [hq, Nat.mul_comm n, ← Nat.mul_add] at h ⊢
        have h2 : q + n < a.beats := Nat.lt_of_mul_lt_mul_left h
        rw [← Nat.mul_succ]
        exact Nat.mul_le_mul_left _ h2
      rw [Nat.mod_eq_of_lt (by omega)]
      omega
    · rw [if_neg h]
      rw [Nat.mod_eq_sub_mod (by omega), Nat.mod_eq_of_lt (by omega)]
      omega

end Verif.HwSlave
