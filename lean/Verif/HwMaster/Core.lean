import Verif.HwMaster.Lemmas

namespace Verif.HwMaster
open Verif Verif.Axi
open Verif.HwSlave (Legal writes applyWrites)

/-! ## The descriptor of an aligned access -/

/-- The length is at most a power of two the address is a multiple of. -/
def Natural (A len : Nat) : Prop := 0 < len ∧ ∃ k, len ≤ 2 ^ k ∧ A % 2 ^ k = 0

/-- Bytes per beat. -/
def nbOf (c : Cfg) (x : Nat) : Nat := if c.lite then c.db else 2 ^ x

theorem descAxsize_off (c : Cfg) (A len : Nat) : descAxsize c A len = descAxsize c (A % c.db) len := by
  unfold descAxsize
  rw [Nat.mod_mod]

def rowOk (db : Nat) (lite : Bool) (off len : Nat) : Option Nat → Bool
  | none => false
  | some x =>
    decide ((x < 5 ∧ (if lite then db else 2 ^ x) ∣ db) ∧ off + len ≤ db ∧
        off + len ≤ off / (if lite then db else 2 ^ x) * (if lite then db else 2 ^ x) + (if lite then db else 2 ^ x) ∧
        ((exactAxsize ⟨db, lite, 1, 0⟩ len).isSome = true → len = (if lite then db else 2 ^ x) ∧ off % len = 0))

/-- All accesses within one bus word. -/
def tableOk (db : Nat) (lite : Bool) : Bool :=
  (List.range db).all fun off => (List.range (db + 1)).all fun len => (List.range 5).all fun k =>
    !(decide (0 < len) && decide (off % 2 ^ k = 0) && decide (len ≤ 2 ^ k)) ||
      rowOk db lite off len (descAxsize ⟨db, lite, 1, 0⟩ off len)

theorem small_table (db : Nat) (hb : Bus db) (lite : Bool) (off : Nat) (ho : off < db) (len : Nat) (hl : len < db + 1)
    (h0 : 0 < len) (k : Nat) (hk : k < 5) (hk1 : off % 2 ^ k = 0) (hk2 : len ≤ 2 ^ k) :
    rowOk db lite off len (descAxsize ⟨db, lite, 1, 0⟩ off len) = true := by
  have h : tableOk db lite = true := by
    rcases hb with h | h | h <;> subst h <;> cases lite <;> decide +kernel
  unfold tableOk at h
  have h1 := List.all_eq_true.mp h off (List.mem_range.mpr ho)
  have h2 := List.all_eq_true.mp h1 len (List.mem_range.mpr hl)
  have h3 := List.all_eq_true.mp h2 k (List.mem_range.mpr hk)
  simpa [h0, hk1, hk2] using h3

structure Fit (c : Cfg) (A len x : Nat) : Prop where
  axsize : descAxsize c A len = some x
  pow : ∃ s, s < 5 ∧ nbOf c x = 2 ^ s
  dvd : nbOf c x ∣ c.db
  some_beat : 0 < nrBeats c.db (A % c.db) len
  max : nrBeats c.db (A % c.db) len ≤ 255
  shape : (nrBeats c.db (A % c.db) len = 1 ∧ A % c.db + len ≤ A % c.db / nbOf c x * nbOf c x + nbOf c x) ∨
    (nbOf c x = c.db ∧ A % c.db = 0)
  exact : (exactAxsize c len).isSome = true →
    nrBeats c.db (A % c.db) len = 1 ∧ len = nbOf c x ∧ A % c.db % len = 0 ∧ A % c.db + len ≤ c.db
  lite : c.lite = true → nrBeats c.db (A % c.db) len = 1

theorem fit_of (c : Cfg) (hc : c.Ok) (A len : Nat) (hn : Natural A len) (hl : len ≤ c.maxBeats * c.db) :
    ∃ x, Fit c A len x := by
  obtain ⟨h0, k, hk, hA⟩ := hn
  have hb := hc.bus
  have hdb0 : 0 < c.db := by rcases hb with h | h | h <;> omega
  have hoff := Nat.mod_lt A hdb0
  obtain ⟨t, ht5, ht⟩ : ∃ t, t < 5 ∧ c.db = 2 ^ t := by
    rcases hb with h | h | h
    · exact ⟨2, by omega, h⟩
    · exact ⟨3, by omega, h⟩
    · exact ⟨4, by omega, h⟩
  have hnr1 : A % c.db + len ≤ c.db → nrBeats c.db (A % c.db) len = 1 := by
    intro h
    unfold nrBeats
    rw [show A % c.db + len + c.db - 1 = (A % c.db + len - 1) + c.db by omega, Nat.add_div_right _ hdb0,
      Nat.div_eq_of_lt (by omega)]
  by_cases hlen : len ≤ c.db
  · have hex : ∃ k, k < 5 ∧ A % c.db % 2 ^ k = 0 ∧ len ≤ 2 ^ k := by
      by_cases hkt : k ≤ t
      · refine ⟨k, by omega, ?_, hk⟩
        rw [ht, Nat.mod_mod_of_dvd _ (Nat.pow_dvd_pow 2 hkt), hA]
      · refine ⟨t, ht5, ?_, by omega⟩
        have : A % 2 ^ t = 0 := by
          have h1 : 2 ^ t ∣ 2 ^ k := Nat.pow_dvd_pow 2 (by omega)
          exact Nat.mod_eq_zero_of_dvd (Nat.dvd_trans h1 (Nat.dvd_of_mod_eq_zero hA))
        rw [ht, this]
        simp
    obtain ⟨k', hk1, hk2, hk3⟩ := hex
    have tab := small_table c.db hb c.lite (A % c.db) hoff len (by omega) h0 k' hk1 hk2 hk3
    have e1 : descAxsize ⟨c.db, c.lite, 1, 0⟩ (A % c.db) len = descAxsize c A len := by
      rw [descAxsize_off c A len]; rfl
    have e2 : exactAxsize ⟨c.db, c.lite, 1, 0⟩ len = exactAxsize c len := rfl
    rw [e1] at tab
    cases hx : descAxsize c A len with
    | none => rw [hx] at tab; cases tab
    | some x =>
      rw [hx] at tab
      simp only [rowOk, decide_eq_true_eq, e2] at tab
      obtain ⟨⟨t1, t2⟩, t3, t4, t5⟩ := tab
      have hnr := hnr1 t3
      refine ⟨x, hx, ?_, t2, by omega, by omega, Or.inl ⟨hnr, t4⟩, ?_, fun _ => hnr⟩
      · unfold nbOf
        split
        · exact ⟨t, ht5, ht⟩
        · exact ⟨x, t1, rfl⟩
      · intro h
        exact ⟨hnr, (t5 h).1, (t5 h).2, t3⟩
  · have hoff0 : A % c.db = 0 := by
      have htk : t ≤ k := by
        rcases Nat.lt_or_ge k t with h | h
        · have := Nat.pow_le_pow_right (n := 2) (by omega) (Nat.le_of_lt h)
          omega
        · exact h
      rw [ht]
      exact Nat.mod_eq_zero_of_dvd (Nat.dvd_trans (Nat.pow_dvd_pow 2 htk) (Nat.dvd_of_mod_eq_zero hA))
    have hnl : c.lite = false := by
      cases h : c.lite with
      | false => rfl
      | true => rw [hc.lite h] at hl; omega
    have hex : exactAxsize c len = none := by
      unfold exactAxsize
      rw [if_neg (by omega)]
    have hx : descAxsize c A len = some t := by
      unfold descAxsize
      rw [hnl, hex]
      simp only [Bool.false_eq_true, if_false]
      rw [if_pos (by omega)]
      rcases hb with h | h | h
      · rw [h]
        have : t = 2 := by
          have : t = 0 ∨ t = 1 ∨ t = 2 ∨ t = 3 ∨ t = 4 := by omega
          rcases this with rfl | rfl | rfl | rfl | rfl <;> simp_all
        subst this; rfl
      · rw [h]
        have : t = 3 := by
          have : t = 0 ∨ t = 1 ∨ t = 2 ∨ t = 3 ∨ t = 4 := by omega
          rcases this with rfl | rfl | rfl | rfl | rfl <;> simp_all
        subst this; rfl
      · rw [h]
        have : t = 4 := by
          have : t = 0 ∨ t = 1 ∨ t = 2 ∨ t = 3 ∨ t = 4 := by omega
          rcases this with rfl | rfl | rfl | rfl | rfl <;> simp_all
        subst this; rfl
    have hnb : nbOf c t = c.db := by unfold nbOf; rw [hnl, ht]; simp
    refine ⟨t, hx, ⟨t, ht5, by rw [hnb, ht]⟩, by rw [hnb]; exact Nat.dvd_refl _, ?_, ?_, Or.inr ⟨hnb, hoff0⟩, ?_, ?_⟩
    · unfold nrBeats
      exact Nat.div_pos (by omega) hdb0
    · unfold nrBeats
      rw [hoff0]
      have h1 : c.maxBeats * c.db ≤ 255 * c.db := Nat.mul_le_mul_right _ hc.beats
      exact Nat.le_of_lt_succ (Nat.div_lt_of_lt_mul (by omega))
    · rw [hex]; intro h; cases h
    · rw [hnl]; intro h; cases h

/-! ## The burst -/

variable {c : Cfg} {A len x : Nat}

/-- The descriptor of an access. -/
def mkDesc (c : Cfg) (A len x : Nat) (isWrite : Bool) (be : List Bool) (attr : Option Attr) : Desc :=
  { addr := A, size := nrBeats c.db (A % c.db) len * c.db, axsize := x, isWrite := isWrite,
    strbs := needStrb c len isWrite be, attr := computeAttr attr ||| 1 }

theorem descOf_eq (f : Fit c A len x) (isWrite : Bool) (be : List Bool) (attr : Option Attr) :
    descOf c A len isWrite be attr = some (mkDesc c A len x isWrite be attr) := by
  unfold descOf
  rw [f.axsize]
  rfl

/-- The burst of an access. -/
def mkAx (c : Cfg) (A len x : Nat) : Ax :=
  { addr := A, nb := nbOf c x, beats := nrBeats c.db (A % c.db) len, burst := .incr }

theorem hwAx_eq (hc : c.Ok) (f : Fit c A len x) (isWrite : Bool) (be : List Bool) (attr : Option Attr) :
    hwAx c.db c.lite (mkDesc c A len x isWrite be attr) = mkAx c A len x := by
  have hdb0 : 0 < c.db := by rcases hc.bus with h | h | h <;> omega
  have hb : (if c.lite then 1 else (nrBeats c.db (A % c.db) len * c.db / c.db - 1) % 256 + 1) =
      nrBeats c.db (A % c.db) len := by
    have h1 := f.some_beat
    have h2 := f.max
    cases h : c.lite with
    | true => rw [if_pos rfl, f.lite h]
    | false =>
      rw [if_neg (by simp), Nat.mul_div_cancel _ hdb0]
      omega
  unfold hwAx mkDesc mkAx nbOf
  simp only [hb]

theorem lane_fact (hc : c.Ok) (f : Fit c A len x) (n l : Nat) (hn : n < nrBeats c.db (A % c.db) len) (hl : l < c.db)
    (h : A % c.db ≤ n * c.db + l ∧ n * c.db + l < A % c.db + len) : (mkAx c A len x).laneOk c.db n l := by
  have hdb0 : 0 < c.db := by rcases hc.bus with h | h | h <;> omega
  obtain ⟨s, _, hs⟩ := f.pow
  have hnb0 : 0 < nbOf c x := by rw [hs]; exact Nat.two_pow_pos s
  rw [HwSlave.laneOk_iff c.db _ n l hnb0 f.dvd]
  have hnb : (mkAx c A len x).nb = nbOf c x := rfl
  rw [HwSlave.incr_addr _ rfl]
  rw [hnb]
  have ha : (mkAx c A len x).addr = A := rfl
  rw [ha]
  rcases f.shape with ⟨h1, h2⟩ | ⟨h1, h2⟩
  · have hn0 : n = 0 := by omega
    subst hn0
    rw [if_pos rfl]
    have hmm : A % nbOf c x = A % c.db % nbOf c x := by rw [Nat.mod_mod_of_dvd _ f.dvd]
    rw [hmm]
    generalize A % c.db = o at *
    have h3 := Nat.div_add_mod o (nbOf c x)
    rw [Nat.mul_comm] at h3
    have h4 := Nat.mod_lt o hnb0
    omega
  · rw [h1]
    have hd : c.db ∣ A := Nat.dvd_of_mod_eq_zero h2
    have : ∀ y, c.db ∣ y → y % c.db ≤ l ∧ l < y % c.db + (c.db - y % c.db) := by
      intro y hy
      rw [Nat.mod_eq_zero_of_dvd hy]
      omega
    apply this
    split
    · exact hd
    · exact (Nat.dvd_add_iff_right (Nat.dvd_mul_left _ _)).mp (Nat.dvd_mul_left _ _)

theorem addr_fact (hc : c.Ok) (f : Fit c A len x) (n l : Nat) (hn : n < nrBeats c.db (A % c.db) len) :
    (mkAx c A len x).laneAddr c.db n l = A / c.db * c.db + (n * c.db + l) := by
  have hdb0 : 0 < c.db := by rcases hc.bus with h | h | h <;> omega
  unfold Ax.laneAddr
  rw [HwSlave.incr_addr _ rfl]
  have ha : (mkAx c A len x).addr = A := rfl
  have hnb : (mkAx c A len x).nb = nbOf c x := rfl
  rw [ha, hnb]
  by_cases h0 : n = 0
  · subst h0; rw [if_pos rfl]; omega
  · rw [if_neg h0]
    rcases f.shape with ⟨h1, h2⟩ | ⟨h1, h2⟩
    · omega
    · rw [h1, ← Nat.add_mul, Nat.mul_div_cancel _ hdb0, Nat.add_mul]
      omega

theorem legal (hc : c.Ok) (f : Fit c A len x) (h0 : 0 < len) (hp : (A + (len - 1)) / 4096 = A / 4096) :
    Legal c.db (mkAx c A len x) := by
  obtain ⟨s, hs5, hs⟩ := f.pow
  refine ⟨⟨s, hs⟩, f.dvd, f.some_beat, ?_, ?_, fun h => by cases h⟩
  · have := f.max
    refine Nat.le_trans ?_ (Nat.le_of_eq (if_pos rfl).symm)
    show nrBeats c.db (A % c.db) len ≤ 256
    omega
  · intro _
    show A / nbOf c x * nbOf c x + nrBeats c.db (A % c.db) len * nbOf c x ≤ (A / 4096 + 1) * 4096
    rcases f.shape with ⟨h1, h2⟩ | ⟨h1, h2⟩
    · rw [h1, hs]
      have : s = 0 ∨ s = 1 ∨ s = 2 ∨ s = 3 ∨ s = 4 := by omega
      rcases this with rfl | rfl | rfl | rfl | rfl <;> omega
    · rw [h1]
      unfold nrBeats
      rcases hc.bus with h | h | h <;> rw [h] at h2 ⊢ <;> omega

/-! ## Writes -/

theorem writes_nil (B : Nat → Nat) (cell : Nat → HwSlave.Cell) (i k : Nat) (h : ∀ j, j < k → (cell (i + j)).2 = false) :
    writes B cell i k = [] := by
  unfold writes
  apply List.filterMap_eq_nil_iff.mpr
  intro j hj
  rw [List.mem_range'_1] at hj
  have := h (j - i) (by omega)
  rw [show i + (j - i) = j by omega] at this
  simp [this]

theorem slaveFrom_writes (db : Nat) (a : Ax) (B : Nat → Nat) (cell : Nat → HwSlave.Cell)
    (hok : ∀ n l, n < a.beats → l < db → (cell (n * db + l)).2 = true → a.laneOk db n l ∧ a.laneAddr db n l = B (n * db + l)) :
    ∀ k n, n + k = a.beats →
      a.slaveFrom db n ((List.range' n k).map fun n =>
        { data := fun l => (cell (n * db + l)).1, strb := fun l => (cell (n * db + l)).2, last := decide (n + 1 = a.beats) }) =
      some (writes B cell (n * db) (k * db)) := by
  intro k
  induction k with
  | zero =>
    intro n h
    rw [List.range'_zero, List.map_nil, Ax.slaveFrom, if_pos (by omega), Nat.zero_mul]
    rfl
  | succ k ih =>
    intro n h
    rw [List.range'_succ, List.map_cons, Ax.slaveFrom, if_pos, ih (n + 1) (by omega)]
    · rw [Option.map_some, Nat.succ_mul k db, Nat.add_comm (k * db) db, HwSlave.writes_append, Nat.succ_mul n db]
      congr 2
      unfold Ax.beatWrites writes
      rw [List.range_eq_range', ← Nat.add_zero (n * db), ← List.map_add_range', List.filterMap_map]
      simp only [Nat.add_zero]
      apply HwSlave.fm_congr
      intro l hl
      rw [List.mem_range'_1] at hl
      simp only [Function.comp]
      split
      · rename_i hb
        rw [(hok n l (by omega) (by omega) hb).2]
      · rfl
    · exact ⟨fun l hl hs => (hok n l (by omega) hl hs).1, rfl⟩

theorem strobes (hc : c.Ok) (f : Fit c A len x) (be : List Bool) (attr : Option Attr) (b : Bufs) (n l : Nat)
    (hn : n < nrBeats c.db (A % c.db) len) (hl : l < c.db)
    (hb : needStrb c len true be = true → ∀ i, i < nrBeats c.db (A % c.db) len * c.db →
      (b.wstrb i).getLsbD 0 = enAt (A % c.db) len be i) :
    (if (mkDesc c A len x true be attr).strbs then (b.wstrb (n * c.db + l)).getLsbD 0
      else autoStrb c.db (mkAx c A len x) l) = enAt (A % c.db) len be (n * c.db + l) := by
  have hdb0 : 0 < c.db := by rcases hc.bus with h | h | h <;> omega
  have hlt : n * c.db + l < nrBeats c.db (A % c.db) len * c.db := by
    have : (n + 1) * c.db ≤ nrBeats c.db (A % c.db) len * c.db := Nat.mul_le_mul_right _ hn
    rw [Nat.succ_mul] at this
    omega
  show (if needStrb c len true be then _ else _) = _
  by_cases hs : needStrb c len true be = true
  · rw [if_pos hs, hb hs _ hlt]
  · rw [if_neg hs]
    have hs' : (exactAxsize c len).isSome = true ∧ be = [] := by
      unfold needStrb at hs
      cases h1 : exactAxsize c len with
      | none => rw [h1] at hs; simp at hs
      | some e =>
        rw [h1] at hs
        refine ⟨rfl, ?_⟩
        simpa using hs
    obtain ⟨h1, rfl⟩ := hs'
    obtain ⟨e1, e2, e3, e4⟩ := f.exact h1
    have hn0 : n = 0 := by omega
    subst hn0
    have hen : enAt (A % c.db) len [] (0 * c.db + l) = decide (A % c.db ≤ l ∧ l < A % c.db + len) := by
      unfold enAt
      rw [beEnabled_nil, Bool.and_true, Nat.zero_mul, Nat.zero_add]
    rw [hen]
    unfold autoStrb
    have hbt : (mkAx c A len x).beats = 1 := e1
    have hnb : (mkAx c A len x).nb = len := e2.symm
    have ha : (mkAx c A len x).addr = A := rfl
    rw [hnb, hbt, ha]
    by_cases h3 : len < c.db
    · rw [if_pos ⟨rfl, h3⟩]
      simp only
      generalize A % c.db = o at *
      have := Nat.div_add_mod o len
      rw [e3, Nat.add_zero, Nat.mul_comm] at this
      rw [this, Bool.and_self]
    · rw [if_neg (fun h => h3 h.2)]
      symm
      apply decide_eq_true
      omega

theorem write_core (hc : c.Ok) (f : Fit c A len x) (be : List Bool) (attr : Option Attr) (b : Bufs) (m : Mem)
    (d : List Byte) (sw : Nat) (hd : d.length = len) (hsw : sw = 0 ∨ len ≤ sw)
    (hb : needStrb c len true be = true → ∀ i, i < nrBeats c.db (A % c.db) len * c.db →
      (b.wstrb i).getLsbD 0 = enAt (A % c.db) len be i)
    (hw : ∀ i, i < len → b.wdata (A % c.db + i) = d.getD i 0) :
    ((mkAx c A len x).slaveWrite c.db (hwBeats c.db c.lite (mkDesc c A len x true be attr) b)).map (applyWrites m) =
      some (writeFrom m A sw be 0 d) := by
  have hdb0 : 0 < c.db := by rcases hc.bus with h | h | h <;> omega
  let cell : Nat → HwSlave.Cell := fun i => (b.wdata i, enAt (A % c.db) len be i)
  let B : Nat → Nat := fun i => A / c.db * c.db + i
  have hbeats : (mkAx c A len x).beats = nrBeats c.db (A % c.db) len := rfl
  have hcell : ∀ i, (cell i).2 = true → A % c.db ≤ i ∧ i < A % c.db + len := by
    intro i hi
    simp only [cell, enAt, Bool.and_eq_true, decide_eq_true_eq] at hi
    exact hi.1
  have hS := slaveFrom_writes c.db (mkAx c A len x) B cell (by
    intro n l hn hl hcl
    exact ⟨lane_fact hc f n l hn hl (hcell _ hcl), addr_fact hc f n l hn⟩) (mkAx c A len x).beats 0 (by omega)
  -- the strobes of the hardware are those of the access
  have hcongr : (mkAx c A len x).slaveWrite c.db (hwBeats c.db c.lite (mkDesc c A len x true be attr) b) =
      some (writes B cell 0 (nrBeats c.db (A % c.db) len * c.db)) := by
    rw [Nat.zero_mul] at hS
    rw [← hbeats, ← hS]
    unfold Ax.slaveWrite hwBeats
    rw [hwAx_eq hc f]
    simp only [List.range_eq_range']
    have key : ∀ k n, n + k = nrBeats c.db (A % c.db) len →
        (mkAx c A len x).slaveFrom c.db n ((List.range' n k).map fun n =>
          { data := fun l => b.wdata (n * c.db + l)
            strb := fun l => if (mkDesc c A len x true be attr).strbs then (b.wstrb (n * c.db + l)).getLsbD 0
              else autoStrb c.db (mkAx c A len x) l
            last := decide (n + 1 = (mkAx c A len x).beats) }) =
        (mkAx c A len x).slaveFrom c.db n ((List.range' n k).map fun n =>
          { data := fun l => (cell (n * c.db + l)).1, strb := fun l => (cell (n * c.db + l)).2,
            last := decide (n + 1 = (mkAx c A len x).beats) }) := by
      intro k
      induction k with
      | zero => intro n _; rfl
      | succ k ih =>
        intro n h
        rw [List.range'_succ, List.map_cons, List.map_cons, Ax.slaveFrom, Ax.slaveFrom, ih (n + 1) (by omega)]
        have hst : ∀ l, l < c.db → (if (mkDesc c A len x true be attr).strbs then (b.wstrb (n * c.db + l)).getLsbD 0
            else autoStrb c.db (mkAx c A len x) l) = (cell (n * c.db + l)).2 :=
          fun l hl => strobes hc f be attr b n l (by omega) hl hb
        have hok : (mkAx c A len x).beatOk c.db n
            { data := fun l => b.wdata (n * c.db + l)
              strb := fun l => if (mkDesc c A len x true be attr).strbs then (b.wstrb (n * c.db + l)).getLsbD 0
                else autoStrb c.db (mkAx c A len x) l
              last := decide (n + 1 = (mkAx c A len x).beats) } := by
          refine ⟨fun l hl hs => ?_, rfl⟩
          simp only [hst l hl] at hs
          exact lane_fact hc f n l (by omega) hl (hcell _ hs)
        have hok' : (mkAx c A len x).beatOk c.db n
            { data := fun l => (cell (n * c.db + l)).1, strb := fun l => (cell (n * c.db + l)).2,
              last := decide (n + 1 = (mkAx c A len x).beats) } :=
          ⟨fun l hl hs => lane_fact hc f n l (by omega) hl (hcell _ hs), rfl⟩
        rw [if_pos hok, if_pos hok']
        have hbw : (mkAx c A len x).beatWrites c.db n
            { data := fun l => b.wdata (n * c.db + l)
              strb := fun l => if (mkDesc c A len x true be attr).strbs then (b.wstrb (n * c.db + l)).getLsbD 0
                else autoStrb c.db (mkAx c A len x) l
              last := decide (n + 1 = (mkAx c A len x).beats) } = (mkAx c A len x).beatWrites c.db n
            { data := fun l => (cell (n * c.db + l)).1, strb := fun l => (cell (n * c.db + l)).2,
              last := decide (n + 1 = (mkAx c A len x).beats) } := by
          unfold Ax.beatWrites
          apply HwSlave.fm_congr
          intro l hl
          have hl' : l < c.db := by simpa using hl
          simp only [hst l hl']
          rfl
        rw [hbw]
    exact key _ 0 (by rw [hbeats]; omega)
  rw [hcongr, Option.map_some]
  have hle : A % c.db + len ≤ nrBeats c.db (A % c.db) len * c.db := by
    unfold nrBeats
    generalize A % c.db + len = y
    have h1 := Nat.div_add_mod (y + c.db - 1) c.db
    have h2 := Nat.mod_lt (y + c.db - 1) hdb0
    rw [Nat.mul_comm] at h1
    omega
  rw [show nrBeats c.db (A % c.db) len * c.db = A % c.db + (len + (nrBeats c.db (A % c.db) len * c.db - (A % c.db + len))) by omega,
    HwSlave.writes_append, HwSlave.writes_append, writes_nil B cell 0, writes_nil B cell (0 + A % c.db + len), List.nil_append, List.append_nil]
  · congr 1
    rw [HwSlave.writeFrom_writes (fun i => A + i) (fun i => (d.getD i 0, beEnabled be i)) A sw be d m 0 (by
      intro j hj
      refine ⟨rfl, fun _ => ⟨by simp, ?_⟩⟩
      rcases hsw with h | h
      · simp [h]
      · rw [Nat.mod_eq_of_lt (by omega)]), hd]
    congr 1
    apply HwSlave.writes_congr
    intro j hj
    have hdm := Nat.div_add_mod A c.db
    rw [Nat.mul_comm] at hdm
    refine ⟨?_, fun _ => ⟨?_, ?_⟩⟩
    · simp only [cell, enAt]
      rw [decide_eq_true (by omega), Bool.true_and]
      congr 1
      omega
    · simp only [cell]
      rw [Nat.zero_add, hw j hj, Nat.zero_add]
    · simp only [B]
      omega
  · intro j _
    cases hcc : (cell (0 + A % c.db + len + j)).2 with
    | false => rfl
    | true => have := hcell _ hcc; omega
  · intro j hj
    cases hcc : (cell (0 + j)).2 with
    | false => rfl
    | true => have := hcell _ hcc; omega

theorem read_core (hc : c.Ok) (f : Fit c A len x) (m : Mem) (rd : Nat → Byte)
    (hr : ∀ n l, n < nrBeats c.db (A % c.db) len → l < c.db → (mkAx c A len x).laneOk c.db n l →
      rd (n * c.db + l) = m ((mkAx c A len x).laneAddr c.db n l)) (i : Nat) (hi : i < len) :
    rd (A % c.db + i) = m (A + i) := by
  have hdb0 : 0 < c.db := by rcases hc.bus with h | h | h <;> omega
  have hdm := Nat.div_add_mod (A % c.db + i) c.db
  rw [Nat.mul_comm] at hdm
  have hl := Nat.mod_lt (A % c.db + i) hdb0
  have hn : (A % c.db + i) / c.db < nrBeats c.db (A % c.db) len := by
    unfold nrBeats
    have h1 := Nat.div_add_mod (A % c.db + len + c.db - 1) c.db
    have h2 := Nat.mod_lt (A % c.db + len + c.db - 1) hdb0
    rw [Nat.mul_comm] at h1
    rcases Nat.lt_or_ge ((A % c.db + i) / c.db) ((A % c.db + len + c.db - 1) / c.db) with h | h
    · exact h
    · have := Nat.mul_le_mul_right c.db h
      omega
  have h1 := hr _ _ hn hl (lane_fact hc f _ _ hn hl (by omega))
  rw [addr_fact hc f _ _ hn, hdm] at h1
  rw [h1]
  have hA := Nat.div_add_mod A c.db
  rw [Nat.mul_comm] at hA
  congr 1
  omega

end Verif.HwMaster
