import Verif.Tlm2Axi.Model

namespace Verif.Tlm2Axi
open Verif Verif.Axi

theorem filterMap_none {α β : Type} (f : α → Option β) (l : List α) (h : ∀ x ∈ l, f x = none) : l.filterMap f = [] := by
  induction l with
  | nil => rfl
  | cons a as ih => rw [List.filterMap_cons, h a (by simp)]; exact ih fun x hx => h x (by simp [hx])

theorem filterMap_congr' {α β : Type} (f g : α → Option β) (l : List α) (h : ∀ x ∈ l, f x = g x) : l.filterMap f = l.filterMap g := by
  induction l with
  | nil => rfl
  | cons a as ih =>
    rw [List.filterMap_cons, List.filterMap_cons, h a (by simp), ih fun x hx => h x (by simp [hx])]

theorem window {β : Type} (f g : Nat → Option β) (db o w p : Nat) (hfit : o + w ≤ db)
    (hout : ∀ l, l < db → (l < o ∨ o + w ≤ l) → f l = none) (hin : ∀ k, k < w → f (o + k) = g (p + k)) :
    (List.range db).filterMap f = (List.range' p w).filterMap g := by
  have e : List.range db = List.range' 0 o ++ (List.range' o w ++ List.range' (o + w) (db - o - w)) := by
    rw [List.range_eq_range', List.range'_append_1, show w + (db - o - w) = db - o by omega]
    have := @List.range'_append_1 0 o (db - o)
    rw [Nat.zero_add] at this
    rw [this]; congr 1; omega
  rw [e, List.filterMap_append, List.filterMap_append, filterMap_none f (List.range' 0 o), filterMap_none f (List.range' (o + w) _)]
  · rw [List.nil_append, List.append_nil, List.range'_eq_map_range, List.range'_eq_map_range, List.filterMap_map, List.filterMap_map]
    apply filterMap_congr'
    intro k hk
    exact hin k (List.mem_range.mp hk)
  · intro x hx; rw [List.mem_range'_1] at hx; exact hout x (by omega) (by omega)
  · intro x hx; rw [List.mem_range'_1] at hx; exact hout x (by omega) (by omega)

theorem rot_lane (db o l : Nat) (ho : o < db) (hl : l < db) : (l + db - o) % db = if o ≤ l then l - o else l + db - o := by
  split
  · rename_i h
    rw [show l + db - o = (l - o) + db by omega, Nat.add_mod_right, Nat.mod_eq_of_lt (by omega)]
  · exact Nat.mod_eq_of_lt (by omega)

/-- The writes TLM assigns to the bytes `p .. p+n`, byte `i` going to `A i`. -/
def tlmWrites (t : Gp) (A : Nat → Nat) (p n : Nat) : List (Nat × Byte) :=
  (List.range' p n).filterMap fun i => if enabled t.be i then some (A i, t.data i) else none

/-- One beat puts its bytes where `A` says. -/
theorem beat_ok (db : Nat) (t : Tr) (n ap p w : Nat) (A : Nat → Nat) (hdb : 0 < db)
    (hw : wlen db t (n + 1) ap p = w) (hfit : (t.gp.addr + ap % t.gp.sw) % db + w ≤ db)
    (hlane : ∀ k, k < w → t.ax.laneOk db n ((t.gp.addr + ap % t.gp.sw) % db + k) ∧
      t.ax.laneAddr db n ((t.gp.addr + ap % t.gp.sw) % db + k) = A (p + k))
    (hen : ∀ k, k < w → enabled t.gp.be (k + ap) = enabled t.gp.be (p + k)) :
    t.ax.beatOk db n (wbeat db t (n + 1) ap p) ∧
      t.ax.beatWrites db n (wbeat db t (n + 1) ap p) = tlmWrites t.gp A p w := by
  have ho : (t.gp.addr + ap % t.gp.sw) % db < db := Nat.mod_lt _ hdb
  generalize hod : (t.gp.addr + ap % t.gp.sw) % db = o at *
  have hstrb : ∀ l, l < db → (wbeat db t (n + 1) ap p).strb l =
      (decide (o ≤ l ∧ l < o + w) && enabled t.gp.be (p + (l - o))) := by
    intro l hl
    simp only [wbeat, hw, hod, rot_lane db o l ho hl]
    split
    · rename_i h
      by_cases hlw : l - o < w
      · rw [hen _ hlw]; simp [hlw, h]; intro; omega
      · have : ¬(o ≤ l ∧ l < o + w) := by omega
        simp [hlw, this]
    · rename_i h
      have h1 : ¬(l + db - o < w) := by omega
      have h2 : ¬(o ≤ l ∧ l < o + w) := by omega
      simp [h1, h2]
  constructor
  · refine ⟨?_, rfl⟩
    intro l hl hs
    rw [hstrb l hl] at hs
    simp only [Bool.and_eq_true, decide_eq_true_eq] at hs
    have := (hlane (l - o) (by omega)).1
    rwa [show o + (l - o) = l by omega] at this
  · unfold Ax.beatWrites tlmWrites
    apply window _ _ db o w p hfit
    · intro l hl hout
      rw [hstrb l hl]
      have : ¬(o ≤ l ∧ l < o + w) := by omega
      simp [this]
    · intro k hk
      simp only [hstrb (o + k) (by omega), (hlane k hk).2]
      have h1 : o ≤ o + k ∧ o + k < o + w := by omega
      have h2 : o + k - o = k := by omega
      have h3 : (wbeat db t (n + 1) ap p).data (o + k) = t.gp.data (p + k) := by
        simp only [wbeat, hw, hod, h1, and_self, if_true, h2]
      simp only [h1, and_self, decide_true, Bool.true_and, h2, h3]

/-- A plan of beats: beat `n` starts at byte `P n`, has `w n` bytes and address
offset `ap n`. -/
structure Plan (db : Nat) (t : Tr) (P ap w : Nat → Nat) (A : Nat → Nat) (N : Nat) : Prop where
  len : ∀ n, n < N → wlen db t (n + 1) (ap n) (P n) = w n
  pos : ∀ n, n < N → 0 < w n
  next : ∀ n, n < N → P (n + 1) = P n + w n
  nextAp : ∀ n, n < N → ap (n + 1) = if t.burst = .fixed then ap n else ap n + w n
  inside : ∀ n, n < N → P n < t.gp.len
  fin : P N = t.gp.len
  fit : ∀ n, n < N → (t.gp.addr + ap n % t.gp.sw) % db + w n ≤ db
  lane : ∀ n, n < N → ∀ k, k < w n → t.ax.laneOk db n ((t.gp.addr + ap n % t.gp.sw) % db + k) ∧
      t.ax.laneAddr db n ((t.gp.addr + ap n % t.gp.sw) % db + k) = A (P n + k)
  rlen : ∀ n, n < N → readlen db t (ap n) (t.gp.len - P n) = w n

/-- The byte-enable index used by the write path agrees with the buffer index. -/
def EnOk (t : Tr) (P ap w : Nat → Nat) (N : Nat) : Prop :=
  ∀ n, n < N → ∀ k, k < w n → enabled t.gp.be (k + ap n) = enabled t.gp.be (P n + k)

theorem Plan.le {db : Nat} {t : Tr} {P ap w A : Nat → Nat} {N : Nat} (h : Plan db t P ap w A N) (h0 : P 0 = 0) : N ≤ t.gp.len := by
  have : ∀ n, n ≤ N → n ≤ P n := by
    intro n
    induction n with
    | zero => intro _; omega
    | succ n ih =>
      intro hn
      have := ih (by omega)
      have := h.next n (by omega)
      have := h.pos n (by omega)
      omega
  have := this N (Nat.le_refl _)
  have := h.fin
  omega

theorem plan_from (db : Nat) (hdb : 0 < db) (t : Tr) (P ap w A : Nat → Nat) (h : Plan db t P ap w A t.numBeats)
    (hen : EnOk t P ap w t.numBeats) :
    ∀ (fuel n : Nat), n ≤ t.numBeats → t.numBeats - n ≤ fuel →
    t.ax.slaveFrom db n (wbeats db t fuel (n + 1) (ap n) (P n)) = some (tlmWrites t.gp A (P n) (t.gp.len - P n)) := by
  intro fuel
  induction fuel with
  | zero =>
    intro n hn hf
    have : n = t.numBeats := by omega
    subst this
    rw [wbeats, Ax.slaveFrom, h.fin]
    simp [Tr.ax, tlmWrites]
  | succ fuel ih =>
    intro n hn hf
    by_cases hlt : n < t.numBeats
    · have hin := h.inside n hlt
      have hb := beat_ok db t n (ap n) (P n) (w n) A hdb (h.len n hlt) (h.fit n hlt) (h.lane n hlt) (hen n hlt)
      rw [wbeats, if_pos hin]
      simp only [h.len n hlt]
      rw [Ax.slaveFrom, if_pos hb.1, ← h.next n hlt, ← h.nextAp n hlt, ih (n + 1) (by omega) (by omega), hb.2, Option.map_some]
      congr 1
      have hle : P (n + 1) ≤ t.gp.len := by
        by_cases h1 : n + 1 < t.numBeats
        · exact Nat.le_of_lt (h.inside _ h1)
        · rw [show n + 1 = t.numBeats by omega, h.fin]; exact Nat.le_refl _
      unfold tlmWrites
      rw [← List.filterMap_append, h.next n hlt, List.range'_append_1]
      congr 2
      have := h.next n hlt
      omega
    · have : n = t.numBeats := by omega
      subst this
      rw [wbeats, if_neg (by rw [h.fin]; omega), Ax.slaveFrom, h.fin]
      simp [Tr.ax, tlmWrites]

/-- A plan gives exactly the TLM writes. -/
theorem plan_writes (db : Nat) (hdb : 0 < db) (t : Tr) (P ap w A : Nat → Nat) (h : Plan db t P ap w A t.numBeats)
    (hen : EnOk t P ap w t.numBeats) (h0 : P 0 = 0) (ha : ap 0 = 0) :
    t.ax.slaveWrite db (writeBeats db t) = some (tlmWrites t.gp A 0 t.gp.len) := by
  have := plan_from db hdb t P ap w A h hen (t.gp.len + 1) 0 (Nat.zero_le _) (by have := h.le h0; omega)
  rw [h0, ha, Nat.zero_add] at this
  exact this

/-! ## Geometry of aligned bursts -/

theorem room (x db bw : Nat) (hbw : 0 < bw) (hd : bw ∣ db) (hdb : 0 < db) : x % db + (bw - x % bw) ≤ db := by
  obtain ⟨q, rfl⟩ := hd
  have h1 : x % (bw * q) % bw = x % bw := Nat.mod_mul_right_mod x bw q
  have h2 : x % (bw * q) < bw * q := Nat.mod_lt _ hdb
  generalize x % (bw * q) = r at h1 h2 ⊢
  rw [← h1]
  have h3 : r / bw < q := by rw [Nat.div_lt_iff_lt_mul hbw, Nat.mul_comm]; exact h2
  have h4 := Nat.div_add_mod r bw
  have h5 : bw * (r / bw) + bw ≤ bw * q := by
    rw [← Nat.mul_succ]; exact Nat.mul_le_mul_left _ h3
  have := Nat.mod_lt r hbw
  omega

/-- Start of beat `n` of an incrementing burst, in bytes from the start address. -/
def startOf (addr bw n : Nat) : Nat := n * bw - addr % bw

theorem startOf_succ_mod (addr bw n : Nat) (hbw : 0 < bw) (hn : 0 < n) : addr + startOf addr bw n = addr / bw * bw + n * bw := by
  unfold startOf
  have h1 := Nat.mod_lt addr hbw
  have h2 := Nat.div_add_mod addr bw
  have h3 : bw * 1 ≤ bw * n := Nat.mul_le_mul_left bw hn
  rw [Nat.mul_comm] at h2
  rw [Nat.mul_comm n bw]
  omega

theorem startOf_mod (addr bw n : Nat) (hbw : 0 < bw) : (addr + startOf addr bw n) % bw = if n = 0 then addr % bw else 0 := by
  split
  · rename_i h; subst h; simp [startOf]
  · rw [startOf_succ_mod addr bw n hbw (by omega), ← Nat.add_mul, Nat.mul_mod_left]

theorem startOf_next (addr bw n : Nat) (hbw : 0 < bw) :
    startOf addr bw (n + 1) = startOf addr bw n + (bw - (addr + startOf addr bw n) % bw) := by
  rw [startOf_mod addr bw n hbw]
  unfold startOf
  have h1 := Nat.mod_lt addr hbw
  split
  · rename_i h; subst h; simp
  · have h3 : bw * 1 ≤ bw * n := Nat.mul_le_mul_left bw (by omega)
    rw [Nat.add_mul, Nat.mul_comm n bw]
    omega

theorem startOf_mono (addr bw n m : Nat) (h : n ≤ m) : startOf addr bw n ≤ startOf addr bw m := by
  unfold startOf
  have := Nat.mul_le_mul_right bw h
  omega

theorem numBeats_bounds (len al bw N : Nat) (hbw : 0 < bw) (hlen : 0 < len) (hal : al < bw) (hN : N = (len + al + bw - 1) / bw) :
    len ≤ N * bw - al ∧ (N - 1) * bw - al < len ∧ 0 < N := by
  have h1 := Nat.div_add_mod (len + al + bw - 1) bw
  have h2 := Nat.mod_lt (len + al + bw - 1) hbw
  rw [← hN, Nat.mul_comm] at h1
  have h3 : 0 < N := by
    rw [hN]; exact Nat.div_pos (by omega) hbw
  have h4 : (N - 1) * bw = N * bw - bw := by rw [Nat.sub_mul, Nat.one_mul]
  have h5 : 1 * bw ≤ N * bw := Nat.mul_le_mul_right _ h3
  rw [h4]
  omega

theorem setupNumBeats_incr (addr len bw : Nat) (b : Burst) (hb : b ≠ .fixed) (hbw : 0 < bw) (hlt : len + 2 * bw < 2 ^ 32) :
    setupNumBeats addr len bw b = (len + addr % bw + bw - 1) / bw := by
  unfold setupNumBeats
  have h1 := Nat.mod_lt addr hbw
  have h2 := Nat.div_add_mod addr bw
  rw [Nat.mul_comm] at h2
  simp only [if_neg hb]
  rw [show addr - addr / bw * bw = addr % bw by omega, show len + addr % bw + bw + (2 ^ 32 - 1) = (len + addr % bw + bw - 1) + 2 ^ 32 by omega,
    Nat.add_mod_right, Nat.mod_eq_of_lt (by omega)]

theorem setupNumBeats_fixed (addr len bw : Nat) (hbw : 0 < bw) (ha : addr % bw = 0) (hlt : len + 2 * bw < 2 ^ 32) :
    setupNumBeats addr len bw .fixed = (len + bw - 1) / bw := by
  unfold setupNumBeats
  have h2 := Nat.div_add_mod addr bw
  rw [Nat.mul_comm] at h2
  simp only [if_true]
  rw [show addr - addr / bw * bw = 0 by omega, Nat.sub_zero, show len + bw + (2 ^ 32 - 1) = (len + bw - 1) + 2 ^ 32 by omega,
    Nat.add_mod_right, Nat.mod_eq_of_lt (by omega)]

theorem lane_geom (x nb db k : Nat) (hk : k < nb - x % nb) :
    x % db ≤ x % db + k ∧ x % db + k ≤ x / nb * nb + (nb - 1) - x / db * db ∧ x / db * db + (x % db + k) = x + k := by
  have h1 := Nat.div_add_mod x nb
  have h2 := Nat.div_add_mod x db
  rw [Nat.mul_comm] at h1 h2
  omega

theorem ite_le_eq_min (a b : Nat) : (if a ≤ b then a else b) = min a b := by split <;> omega
theorem ite_gt_eq_min (a b : Nat) : (if a > b then b else a) = min a b := by split <;> omega

theorem wlen_min (db : Nat) (t : Tr) (beat offset pos : Nat) :
    wlen db t beat offset pos =
      let w := min (min (t.gp.len - pos) (min (db - (t.gp.addr + offset % t.gp.sw) % db) (t.gp.sw - offset % t.gp.sw))) t.bw
      if t.burst = .fixed ∨ beat = 1 then min w (t.bw - (t.gp.addr + offset % t.gp.sw) % t.bw) else w := by
  unfold wlen
  simp only [ite_le_eq_min, ite_gt_eq_min]

theorem readlen_min (db : Nat) (t : Tr) (addrPos len : Nat) :
    readlen db t addrPos len =
      min (min (min (db - (t.gp.addr + addrPos % t.gp.sw) % db) len) t.bw) (t.bw - (t.gp.addr + addrPos % t.gp.sw) % t.bw) := by
  unfold readlen
  simp only [ite_le_eq_min, ite_gt_eq_min]

end Verif.Tlm2Axi
