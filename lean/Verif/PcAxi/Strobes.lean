import Verif.PcAxi.Model
import Verif.Axi.Spec

/-! # C47: write strobes under the protocol checker -/

namespace Verif.PcAxi
open Verif.Axi (Ax Burst)

/-! ## Specification -/

/-- Strobes only on the lanes of the beat; without gaps, on all of them, or (in the last beat) on the
first ones up to some lane. -/
def StrobesOk (db : Nat) (gaps : Bool) (a : Ax) (n : Nat) (strb : Nat → Bool) : Prop :=
  if gaps then ∀ l, l < db → strb l = true → a.laneOk db n l
  else if n + 1 = a.beats then
    ∃ m, a.lower db n ≤ m ∧ m ≤ a.upper db n ∧ ∀ l, l < db → (strb l = true ↔ a.lower db n ≤ l ∧ l ≤ m)
  else ∀ l, l < db → (strb l = true ↔ a.laneOk db n l)

def toBurst (b : Nat) : Burst := if b = 0 then .fixed else if b = 1 then .incr else .wrap

/-- The burst an address announces. -/
def Aw.ax (a : Aw) : Ax := ⟨a.addr, 2 ^ a.size, a.len + 1, toBurst a.burst⟩

/-! ## Proof -/

theorem ones_spec (strb : List Bool) (n i : Nat) :
    i ≤ ones strb i n ∧ ones strb i n ≤ i + n ∧ (∀ j, i ≤ j → j < ones strb i n → bit strb j = true) ∧
      (ones strb i n < i + n → bit strb (ones strb i n) = false) := by
  induction n generalizing i with
  | zero => exact ⟨Nat.le_refl _, Nat.le_refl _, fun j h1 h2 => by unfold ones at h2; omega, fun h => by unfold ones at h; omega⟩
  | succ n ih =>
    unfold ones
    by_cases c : bit strb i = true
    · rw [if_pos c]
      obtain ⟨h1, h2, h3, h4⟩ := ih (i + 1)
      refine ⟨by omega, by omega, ?_, fun h => h4 (by omega)⟩
      intro j hj1 hj2
      by_cases e : j = i
      · rw [e]; exact c
      · exact h3 j (by omega) hj2
    · rw [if_neg c]
      exact ⟨Nat.le_refl _, by omega, fun j h1 h2 => by omega, fun _ => by simpa using c⟩

/-- `checkWstrb` in terms of the two lanes. -/
theorem checkWstrb_lanes (db : Nat) (gaps : Bool) (t : WTx) (strb : List Bool) {lo up : Nat}
    (hl : lanes db t = (lo, up)) (h1 : lo ≤ up) (h2 : up < db) :
    checkWstrb db gaps t strb = true ↔
      if gaps then ∀ l, l < db → bit strb l = true → lo ≤ l ∧ l ≤ up
      else if t.beat = t.aw.len + 1 then
        ∃ m, lo ≤ m ∧ m ≤ up ∧ ∀ l, l < db → (bit strb l = true ↔ lo ≤ l ∧ l ≤ m)
      else ∀ l, l < db → (bit strb l = true ↔ lo ≤ l ∧ l ≤ up) := by
  unfold checkWstrb
  rw [hl]
  dsimp only
  by_cases z : (List.range lo).all (fun i => !bit strb i) = true
  · have z' : ∀ i, i < lo → bit strb i = false := by
      intro i hi
      have := List.all_eq_true.mp z i (List.mem_range.mpr hi)
      simpa using this
    rw [if_neg (by simp [z])]
    have tail : ∀ k, ((List.range db).all (fun i => decide (i < k) || !bit strb i) = true ↔
        ∀ l, l < db → bit strb l = true → l < k) := by
      intro k
      rw [List.all_eq_true]
      constructor
      · intro h l hl hb
        have := h l (List.mem_range.mpr hl)
        rw [hb] at this
        simpa using this
      · intro h l hl
        by_cases hb : bit strb l = true
        · have := h l (List.mem_range.mp hl) hb
          simp [this]
        · have : bit strb l = false := by simpa using hb
          simp [this]
    cases gaps with
    | true =>
      rw [if_pos rfl, if_pos rfl, tail]
      constructor
      · intro h l hl hb
        refine ⟨?_, Nat.le_of_lt_succ (h l hl hb)⟩
        rcases Nat.lt_or_ge l lo with c | c
        · rw [z' l c] at hb; cases hb
        · exact c
      · intro h l hl hb
        exact Nat.lt_succ_of_le (h l hl hb).2
    | false =>
      simp only [Bool.false_eq_true, if_false]
      by_cases cb : t.beat = t.aw.len + 1
      · rw [if_pos cb, if_pos cb]
        by_cases cl : bit strb lo = true
        · rw [if_neg (by simp [cl]), tail]
          obtain ⟨o1, o2, o3, o4⟩ := ones_spec strb (up - lo) (lo + 1)
          generalize ones strb (lo + 1) (up - lo) = k at *
          constructor
          · intro h
            refine ⟨k - 1, by omega, by omega, ?_⟩
            intro l hl
            constructor
            · intro hb
              have := h l hl hb
              refine ⟨?_, by omega⟩
              rcases Nat.lt_or_ge l lo with c | c
              · rw [z' l c] at hb; cases hb
              · exact c
            · intro ⟨c1, c2⟩
              by_cases e : l = lo
              · rw [e]; exact cl
              · exact o3 l (by omega) (by omega)
          · rintro ⟨m, m1, m2, hm⟩ l hl hb
            have hlm := ((hm l hl).mp hb).2
            rcases Nat.lt_or_ge l k with c | c
            · exact c
            · have kb : bit strb k = false := o4 (by omega)
              have : bit strb k = true := (hm k (by omega)).mpr ⟨by omega, by omega⟩
              rw [kb] at this; cases this
        · rw [if_pos (by simp [cl])]
          constructor
          · intro h; cases h
          · rintro ⟨m, m1, m2, hm⟩
            exact absurd ((hm lo (by omega)).mpr ⟨Nat.le_refl _, m1⟩) cl
      · rw [if_neg cb, if_neg cb]
        obtain ⟨o1, o2, o3, o4⟩ := ones_spec strb (up + 1 - lo) lo
        by_cases ck : ones strb lo (up + 1 - lo) = up + 1
        · rw [if_neg (by simp [ck]), tail]
          rw [ck] at o3
          constructor
          · intro h l hl
            constructor
            · intro hb
              have := h l hl hb
              refine ⟨?_, by omega⟩
              rcases Nat.lt_or_ge l lo with c | c
              · rw [z' l c] at hb; cases hb
              · exact c
            · intro ⟨c1, c2⟩
              exact o3 l c1 (by omega)
          · intro h l hl hb
            have := ((h l hl).mp hb).2
            omega
        · rw [if_pos ck]
          constructor
          · intro h; cases h
          · intro h
            have b1 := o4 (by omega)
            have b2 := (h (ones strb lo (up + 1 - lo)) (by omega)).mpr ⟨o1, by omega⟩
            rw [b1] at b2; cases b2
  · rw [if_pos (by simp [z])]
    have : ∃ i, i < lo ∧ bit strb i = true := by
      rcases Classical.em (∃ i, i < lo ∧ bit strb i = true) with h | h
      · exact h
      · refine absurd ?_ z
        rw [List.all_eq_true]
        intro i hi
        have : ¬ bit strb i = true := fun hb => h ⟨i, List.mem_range.mp hi, hb⟩
        simpa using this
    obtain ⟨i, hi, hb⟩ := this
    constructor
    · intro h; cases h
    · intro h
      exfalso
      split at h
      · have := (h i (by omega) hb).1; omega
      · split at h
        · obtain ⟨m, _, _, hm⟩ := h
          have := ((hm i (by omega)).mp hb).1; omega
        · have := ((h i (by omega)).mp hb).1; omega

theorem sub_align (a n : Nat) : a - align a n = a % n := by
  unfold align
  have := Nat.div_add_mod a n
  rw [Nat.mul_comm] at this
  omega

/-- A beat that starts at a multiple of its size lies inside one bus word. -/
theorem word_lanes {x nb db : Nat} (hnb : 0 < nb) (hd : nb ∣ db) (hdb : 0 < db) (hx : x % nb = 0) :
    x % db + (nb - 1) < db ∧ x / nb * nb + (nb - 1) - x / db * db = x % db + (nb - 1) := by
  obtain ⟨k, rfl⟩ := hd
  have e1 : x % (nb * k) % nb = 0 := by rw [Nat.mod_mul_right_mod]; exact hx
  have h1 : x % (nb * k) < nb * k := Nat.mod_lt _ hdb
  constructor
  · have e2 := Nat.div_add_mod (x % (nb * k)) nb
    rw [e1] at e2
    generalize x % (nb * k) = y at *
    have : y / nb < k := Nat.div_lt_of_lt_mul h1
    have : nb * (y / nb + 1) ≤ nb * k := Nat.mul_le_mul_left _ this
    rw [Nat.mul_add] at this
    omega
  · have e2 := Nat.div_add_mod x nb
    have e3 := Nat.div_add_mod x (nb * k)
    rw [Nat.mul_comm (x / nb), Nat.mul_comm (x / (nb * k))]
    omega

/-- The bursts for which the checker computes the right lanes. -/
def Covered (db : Nat) (a : Aw) (n : Nat) : Prop :=
  a.burst = 1 ∨ (a.burst = 0 ∧ (n = 0 ∨ a.addr % 2 ^ a.size = 0)) ∨
    (a.burst = 2 ∧ a.addr % 2 ^ a.size = 0 ∧ db ∣ 2 ^ a.size * (a.len + 1))

theorem first_upper (x nb db : Nat) (hnb : 0 < nb) (hd : nb ∣ db) (hdb : 0 < db) :
    x % db ≤ x / nb * nb + (nb - 1) - x / db * db ∧ x / nb * nb + (nb - 1) - x / db * db < db := by
  have hx : x / nb * nb % nb = 0 := Nat.mul_mod_left _ _
  obtain ⟨w1, w2⟩ := word_lanes hnb hd hdb hx
  have e1 : x / nb * nb / nb = x / nb := Nat.mul_div_cancel _ hnb
  have e2 : x / nb * nb / db = x / db := by
    obtain ⟨k, rfl⟩ := hd
    rw [← Nat.div_div_eq_div_mul, ← Nat.div_div_eq_div_mul, e1]
  rw [e1, e2] at w2
  refine ⟨?_, by omega⟩
  have e3 := Nat.div_add_mod x db
  have e4 := Nat.div_add_mod x nb
  have e5 := Nat.mod_lt x hnb
  rw [Nat.mul_comm] at e3 e4
  omega

theorem lanes_exact (db : Nat) (a : Aw) (n : Nat) (hd : 2 ^ a.size ∣ db) (hdb : 0 < db)
    (hc : Covered db a n) (hn : n ≤ a.len) :
    lanes db ⟨a, n + 1⟩ = (a.ax.lower db n, a.ax.upper db n) ∧ a.ax.lower db n ≤ a.ax.upper db n ∧
      a.ax.upper db n < db := by
  have hnb : 0 < 2 ^ a.size := Nat.pow_pos (by decide)
  generalize hN : 2 ^ a.size = nb at *
  unfold lanes Ax.lower Ax.upper
  rw [hN]
  simp only [Nat.add_sub_cancel, sub_align]
  have hnb' : a.ax.nb = nb := hN
  rw [hnb']
  by_cases c0 : n = 0
  · subst c0
    have hb : a.ax.beatAddr 0 = a.addr := by
      unfold Ax.beatAddr Aw.ax
      rw [hN]
      rcases hc with c | ⟨c, _⟩ | ⟨c, c1, _⟩
      · simp [c, toBurst]
      · simp [c, toBurst]
      · rw [hN] at c1
        simp only [c, toBurst]
        have e := Nat.div_add_mod a.addr nb
        rw [c1, Nat.mul_comm] at e
        have e2 := Nat.div_add_mod a.addr (nb * (a.len + 1))
        have e3 : a.addr % (nb * (a.len + 1)) < nb * (a.len + 1) := Nat.mod_lt a.addr (Nat.mul_pos hnb (Nat.succ_pos a.len))
        rw [Nat.mul_comm] at e2
        have : a.addr / nb * nb + 0 * nb < a.addr / (nb * (a.len + 1)) * (nb * (a.len + 1)) + nb * (a.len + 1) := by
          omega
        simp only [show ¬ (2 = 0) from by decide, show ¬ (2 = 1) from by decide, if_false]
        rw [if_pos this]
        omega
    rw [hb]
    have := first_upper a.addr nb db hnb hd hdb
    simp only [Nat.zero_add, if_true]
    refine ⟨?_, this.1, this.2⟩
    unfold align
    rfl
  · rw [if_neg (by omega)]
    -- the address the checker uses
    have key : ∀ y, y % nb = 0 → a.ax.beatAddr n % nb = 0 → a.ax.beatAddr n % db = y % db →
        (y % db, y % db + (nb - 1)) = (a.ax.beatAddr n % db, a.ax.beatAddr n / nb * nb + (nb - 1) - a.ax.beatAddr n / db * db) ∧
        a.ax.beatAddr n % db ≤ a.ax.beatAddr n / nb * nb + (nb - 1) - a.ax.beatAddr n / db * db ∧
        a.ax.beatAddr n / nb * nb + (nb - 1) - a.ax.beatAddr n / db * db < db := by
      intro y hy h1 h2
      obtain ⟨w1, w2⟩ := word_lanes hnb hd hdb h1
      rw [w2, h2]
      rw [h2] at w1
      exact ⟨rfl, by omega, w1⟩
    have hal : align a.addr nb % nb = 0 := Nat.mul_mod_left _ _
    have hstep : (align a.addr nb + n * nb) % nb = 0 := by
      rw [Nat.add_mul_mod_self_right]; exact hal
    rcases hc with c | ⟨c, c1⟩ | ⟨c, c1, c2⟩
    · have hb : a.ax.beatAddr n = align a.addr nb + n * nb := by
        unfold Ax.beatAddr Aw.ax align
        rw [hN]
        simp [c, toBurst, c0]
      rw [if_pos (by rw [c]; decide)]
      exact key _ hstep (by rw [hb]; exact hstep) (by rw [hb])
    · have hb : a.ax.beatAddr n = a.addr := by
        unfold Ax.beatAddr Aw.ax
        simp [c, toBurst]
      rcases c1 with c1 | c1
      · exact absurd c1 c0
      · rw [hN] at c1
        have e : align a.addr nb = a.addr := by
          unfold align
          have e := Nat.div_add_mod a.addr nb
          rw [c1, Nat.mul_comm] at e
          omega
        rw [if_neg (by rw [c]; decide), e]
        exact key _ c1 (by rw [hb]; exact c1) (by rw [hb])
    · rw [hN] at c1 c2
      rw [if_pos (by rw [c]; decide)]
      have hb : a.ax.beatAddr n = align a.addr nb + n * nb ∨
          (a.ax.beatAddr n + nb * (a.len + 1) = align a.addr nb + n * nb) := by
        unfold Ax.beatAddr Aw.ax align
        rw [hN]
        simp only [c, toBurst, show ¬ (2 = 0) from by decide, show ¬ (2 = 1) from by decide, if_false]
        split
        · exact Or.inl rfl
        · right
          rename_i hge
          have : nb * (a.len + 1) ≤ a.addr / (nb * (a.len + 1)) * (nb * (a.len + 1)) + nb * (a.len + 1) := by omega
          omega
      rcases hb with hb | hb
      · exact key _ hstep (by rw [hb]; exact hstep) (by rw [hb])
      · refine key _ hstep ?_ ?_
        · have := hstep
          rw [← hb, Nat.add_mul_mod_self_left] at this
          exact this
        · rw [← hb]
          obtain ⟨k, hk⟩ := c2
          rw [hk, Nat.add_mul_mod_self_left]

/-- **The strobe check accepts exactly the legal strobes** of every beat of incrementing bursts, of
wrapping bursts at least as long as the bus is wide, and of fixed bursts at aligned addresses.  Missing
for the full property: narrow wrapping and unaligned fixed bursts (`narrow_wrap_strobes_wrong`,
`unaligned_fixed_strobes_wrong`). -/
theorem strobes_checked_partial (db : Nat) (gaps : Bool) (a : Aw) (n : Nat) (strb : List Bool)
    (hd : 2 ^ a.size ∣ db) (hdb : 0 < db) (hc : Covered db a n) (hn : n ≤ a.len) :
    checkWstrb db gaps ⟨a, n + 1⟩ strb = true ↔ StrobesOk db gaps a.ax n (bit strb) := by
  obtain ⟨h1, h2, h3⟩ := lanes_exact db a n hd hdb hc hn
  rw [checkWstrb_lanes db gaps _ strb h1 h2 h3]
  unfold StrobesOk
  rfl

/-- **Narrow wrapping bursts are judged by the wrong lanes**: bytes 2, 3, 0, 1 of an 8-byte bus.  The
third beat's correct strobe is reported, a wrong one is not. -/
theorem narrow_wrap_strobes_wrong :
    let a : Aw := { id := 0, addr := 2, len := 3, size := 0, burst := 2 }
    let good := [true, false, false, false, false, false, false, false]
    let wrong := [false, false, false, false, true, false, false, false]
    (StrobesOk 8 false a.ax 2 (bit good) ∧ checkWstrb 8 false ⟨a, 3⟩ good = false) ∧
    (¬ StrobesOk 8 true a.ax 2 (bit wrong) ∧ checkWstrb 8 true ⟨a, 3⟩ wrong = true) := by
  refine ⟨⟨?_, by decide⟩, ?_, by decide⟩
  · show ∀ l, l < 8 → _
    decide
  · show ¬ ∀ l, l < 8 → _
    decide

/-- **Unaligned fixed bursts are judged by the wrong lanes** from the second beat on. -/
theorem unaligned_fixed_strobes_wrong :
    let a : Aw := { id := 0, addr := 1, len := 2, size := 1, burst := 0 }
    let good := [false, true, false, false]
    let wrong := [true, true, false, false]
    (StrobesOk 4 false a.ax 1 (bit good) ∧ checkWstrb 4 false ⟨a, 2⟩ good = false) ∧
    (¬ StrobesOk 4 true a.ax 1 (bit wrong) ∧ checkWstrb 4 true ⟨a, 2⟩ wrong = true) := by
  refine ⟨⟨?_, by decide⟩, ?_, by decide⟩
  · show ∀ l, l < 4 → _
    decide
  · show ¬ ∀ l, l < 4 → _
    decide

/-- The hypotheses are met, and the check distinguishes. -/
example : let a : Aw := { id := 0, addr := 3, len := 1, size := 2, burst := 1 }
    Covered 8 a 1 ∧ 2 ^ a.size ∣ 8 ∧
      checkWstrb 8 false ⟨a, 1⟩ [false, false, false, true, false, false, false, false] = true ∧
      checkWstrb 8 false ⟨a, 1⟩ [false, false, true, true, false, false, false, false] = false ∧
      checkWstrb 8 false ⟨a, 2⟩ [false, false, false, false, true, true, false, false] = true ∧
      checkWstrb 8 false ⟨a, 2⟩ [false, false, false, false, true, false, true, false] = false := by
  refine ⟨Or.inl rfl, by decide, by decide, by decide, by decide, by decide⟩

example : Covered 4 { id := 0, addr := 6, len := 3, size := 1, burst := 2 } 2 :=
  Or.inr (Or.inr ⟨rfl, by decide, by decide⟩)

end Verif.PcAxi
