import Verif.Axi2Tlm.Lemmas
import Verif.Tlm2Axi.Props

/-! # C25 and C26: AXI bursts turned into TLM accesses -/

namespace Verif.Axi2Tlm
open Verif Verif.Axi Verif.Tlm2Axi

/-! ## Writes -/

theorem fill_generic (db : Nat) (a : Ax) (P i0 A : Nat → Nat)
    (hi0 : ∀ n, n < a.beats → (if n + 1 = 1 then gpAddr db a - align (gpAddr db a) db else 0) = i0 n)
    (hidb : ∀ n, n < a.beats → i0 n ≤ db)
    (hP : ∀ n, n < a.beats → P (n + 1) = P n + (db - i0 n)) (hend : P a.beats = dataLen db a)
    (hlow : ∀ n, n < a.beats → i0 n ≤ a.lower db n)
    (hA : ∀ n, n < a.beats → ∀ j, j < db - i0 n → A (P n + j) = a.laneAddr db n (i0 n + j)) :
    ∀ (bs : List WBeat) (n : Nat) (acc : List (Option Byte)) (ws : List (Nat × Byte)), n ≤ a.beats → acc.length = P n →
      a.slaveFrom db n bs = some ws →
      ∃ rest, fillAll db a (n + 1) acc bs = acc ++ rest ∧ writesAt A (P n) rest = ws ∧ P n + rest.length = dataLen db a := by
  have hmono : ∀ d n, n + d = a.beats → P n ≤ dataLen db a := by
    intro d
    induction d with
    | zero => intro n h; rw [← hend, ← h]; exact Nat.le_refl _
    | succ d ih => intro n h; have := ih (n + 1) (by omega); have := hP n (by omega); omega
  intro bs
  induction bs with
  | nil =>
    intro n acc ws hn hacc hs
    rw [Ax.slaveFrom] at hs
    split at hs
    · rename_i he
      cases hs
      refine ⟨[], by simp [fillAll], rfl, ?_⟩
      rw [he, hend]; rfl
    · cases hs
  | cons b bs ih =>
    intro n acc ws hn hacc hs
    rw [Ax.slaveFrom] at hs
    split at hs
    · rename_i hok
      cases hrec : a.slaveFrom db (n + 1) bs with
      | none => rw [hrec] at hs; cases hs
      | some ws' =>
        rw [hrec, Option.map_some] at hs
        have hnb : n < a.beats := by
          rcases Nat.lt_or_ge n a.beats with h | h
          · exact h
          · exfalso
            -- past the announced beats the slave never accepts
            have : ∀ (l : List WBeat) (m : Nat), a.beats < m → a.slaveFrom db m l = none := by
              intro l
              induction l with
              | nil => intro m hm; rw [Ax.slaveFrom, if_neg (by omega)]
              | cons c cs ih2 =>
                intro m hm
                rw [Ax.slaveFrom]
                split
                · rw [ih2 (m + 1) (by omega)]; rfl
                · rfl
            rw [this bs (n + 1) (by omega)] at hrec
            cases hrec
        have hPn := hP n hnb
        have hle := hmono (a.beats - (n + 1)) (n + 1) (by omega)
        have hid := hidb n hnb
        rw [fillAll]
        have hfb : fillBeat db a (n + 1) acc b =
            acc ++ (List.range' (i0 n) (db - i0 n)).map (fun l => if b.strb l then some (b.data l) else none) := by
          unfold fillBeat
          simp only [hi0 n hnb]
          rw [show min (db - i0 n) (dataLen db a - acc.length) = db - i0 n by omega]
        rw [hfb]
        obtain ⟨rest, h1, h2, h3⟩ := ih (n + 1) (acc ++ (List.range' (i0 n) (db - i0 n)).map (fun l => if b.strb l then some (b.data l) else none)) ws'
          hnb (by simp [hacc, hPn]) hrec
        refine ⟨(List.range' (i0 n) (db - i0 n)).map (fun l => if b.strb l then some (b.data l) else none) ++ rest, ?_, ?_, ?_⟩
        · rw [h1, List.append_assoc]
        · rw [writesAt_append]
          rw [beat_writes db a n b A (P n) (i0 n) (db - i0 n) (by omega) ?_ (hA n hnb)]
          · simp only [List.length_map, List.length_range']
            rw [← hPn, h2]
            exact Option.some.inj hs
          · intro l hl
            cases hc : b.strb l with
            | false => rfl
            | true =>
              have := (hok.1 l (by omega) hc).1
              have := hlow n hnb
              omega
        · simp only [List.length_append, List.length_map, List.length_range']
          omega
    · cases hs

theorem fill_spec (db : Nat) (a : Ax) (P i0 : Nat → Nat) (bs : List WBeat) (ws : List (Nat × Byte)) (h0 : P 0 = 0)
    (hi0 : ∀ n, n < a.beats → (if n + 1 = 1 then gpAddr db a - align (gpAddr db a) db else 0) = i0 n)
    (hidb : ∀ n, n < a.beats → i0 n ≤ db)
    (hP : ∀ n, n < a.beats → P (n + 1) = P n + (db - i0 n)) (hend : P a.beats = dataLen db a)
    (hlow : ∀ n, n < a.beats → i0 n ≤ a.lower db n)
    (hA : ∀ n, n < a.beats → ∀ j, j < db - i0 n → tlmAddr (writeGp db a bs) (P n + j) = a.laneAddr db n (i0 n + j))
    (hs : a.slaveWrite db bs = some ws) : specWrites (writeGp db a bs) = ws := by
  obtain ⟨rest, h1, h2, h3⟩ := fill_generic db a P i0 (tlmAddr (writeGp db a bs)) hi0 hidb hP hend hlow hA bs 0 [] ws (Nat.zero_le _) (by simp [h0]) hs
  rw [h0, Nat.zero_add] at h3
  rw [h0] at h2
  rw [spec_of_bytes (writeGp db a bs) rest h3, h2]
  · intro i; show ((fillAll db a 1 [] bs).getD i none).getD 0 = _; rw [h1, List.nil_append]
  · show tryDropBE ((fillAll db a 1 [] bs).map Option.isSome) = _; rw [h1, List.nil_append]

/-- **C25, fixed bursts.** For every bus width, beat size, address, burst length,
strobes and data: if the burst obeys the AXI protocol, the TLM write performs
exactly its byte writes. -/
theorem write_fixed (db : Nat) (a : Ax) (bs : List WBeat) (ws : List (Nat × Byte)) (hb : a.burst = .fixed)
    (hs : a.slaveWrite db bs = some ws) : specWrites (writeGp db a bs) = ws := by
  have hal : gpAddr db a - align (gpAddr db a) db = 0 := by
    rw [sub_align, gpAddr, if_pos hb, align, Nat.mul_mod_left]
  apply fill_spec db a (fun n => n * db) (fun _ => 0) bs ws (by simp)
  · intro n _; rw [hal]; split <;> rfl
  · intro n _; exact Nat.zero_le _
  · intro n _; exact Nat.succ_mul _ _
  · simp [dataLen, hb]
  · intro n _; exact Nat.zero_le _
  · intro n _ j hj
    simp only [tlmAddr, writeGp, gpAddr, gpSw, hb, Ax.laneAddr, Ax.beatAddr, align, if_true]
    simp
    exact Nat.mod_eq_of_lt (by omega)
  · exact hs

theorem full_width_common (db : Nat) (a : Ax) (hdb : 0 < db) (hnb : a.nb = db) (hb : a.burst ≠ .fixed) (hbe : 0 < a.beats) :
    startOf a.addr db a.beats = dataLen db a := by
  unfold startOf dataLen
  rw [if_neg hb, sub_align, hnb]
  have h1 := Nat.mod_lt a.addr hdb
  have h2 : a.beats * db = (a.beats - 1) * db + db := by
    rw [← Nat.succ_mul]; congr 1; omega
  omega

/-- **C25, incrementing bursts of full-width beats.** -/
theorem write_incr_partial (db : Nat) (a : Ax) (bs : List WBeat) (ws : List (Nat × Byte)) (hdb : 0 < db) (hb : a.burst = .incr)
    (hnb : a.nb = db) (hbe : 0 < a.beats) (hs : a.slaveWrite db bs = some ws) : specWrites (writeGp db a bs) = ws := by
  have hnf : a.burst ≠ .fixed := by rw [hb]; simp
  have hend := full_width_common db a hdb hnb hnf hbe
  have hga : gpAddr db a = a.addr := by simp [gpAddr, hb]
  have hmod := Nat.mod_lt a.addr hdb
  have hx : ∀ n, a.beatAddr n = a.addr + startOf a.addr db n := by
    intro n
    unfold Ax.beatAddr
    simp only [hb, hnb]
    split
    · rename_i h; subst h; simp [startOf]
    · rw [startOf_succ_mod _ _ _ hdb (by omega)]
  apply fill_spec db a (startOf a.addr db) (fun n => if n + 1 = 1 then a.addr % db else 0) bs ws (by simp [startOf])
  · intro n _; rw [hga, sub_align]
  · intro n _; split <;> omega
  · intro n _
    rw [startOf_next _ _ _ hdb, startOf_mod _ _ _ hdb]
    simp only [Nat.add_eq_right]
  · exact hend
  · intro n _
    rw [Ax.lower, hx, startOf_mod _ _ _ hdb]
    simp only [Nat.add_eq_right]
    split <;> omega
  · intro n hn j hj
    have hle : startOf a.addr db (n + 1) ≤ startOf a.addr db a.beats := startOf_mono _ _ _ _ hn
    rw [startOf_next _ _ _ hdb, startOf_mod _ _ _ hdb] at hle
    simp only [Nat.add_eq_right] at hj ⊢
    have hdm := Nat.div_add_mod (a.addr + startOf a.addr db n) db
    rw [Nat.mul_comm, startOf_mod _ _ _ hdb] at hdm
    simp only [tlmAddr, writeGp, hga, gpSw, hb, Ax.laneAddr, hx]
    have : startOf a.addr db n + j < dataLen db a := by omega
    simp only [reduceCtorEq, decide_false, Bool.false_eq_true, if_false]
    rw [Nat.mod_eq_of_lt this]
    omega
  · exact hs

/-- **C25, wrapping bursts of full-width beats** from an aligned address (which
AXI requires of them). -/
theorem write_wrap_partial (db : Nat) (a : Ax) (bs : List WBeat) (ws : List (Nat × Byte)) (hdb : 0 < db) (hb : a.burst = .wrap)
    (hnb : a.nb = db) (hal : a.addr % db = 0) (hbe : 0 < a.beats) (hs : a.slaveWrite db bs = some ws) :
    specWrites (writeGp db a bs) = ws := by
  have hnf : a.burst ≠ .fixed := by rw [hb]; simp
  have hga : gpAddr db a = a.addr := by simp [gpAddr, hb]
  have hst : ∀ n, startOf a.addr db n = n * db := by intro n; simp [startOf, hal]
  have hend := full_width_common db a hdb hnb hnf hbe
  rw [hst] at hend
  have hL : 0 < dataLen db a := by rw [← hend]; exact Nat.mul_pos hbe hdb
  have hdiv : a.addr / db * db = a.addr := by
    have := Nat.div_add_mod a.addr db; rw [hal, Nat.add_zero, Nat.mul_comm] at this; exact this
  apply fill_spec db a (fun n => n * db) (fun _ => 0) bs ws (by simp)
  · intro n _; rw [hga, sub_align, hal]; split <;> rfl
  · intro n _; exact Nat.zero_le _
  · intro n _; exact Nat.succ_mul _ _
  · exact hend
  · intro n _; exact Nat.zero_le _
  · intro n hn j hj
    simp only [Nat.sub_zero] at hj
    have e0 := Nat.div_add_mod a.addr (dataLen db a)
    rw [Nat.mul_comm] at e0
    have hr := Nat.mod_lt a.addr hL
    have hnl : n * db + db ≤ dataLen db a := by
      rw [← hend, ← Nat.succ_mul]; exact Nat.mul_le_mul_right _ hn
    have hrd : db ∣ a.addr % dataLen db a := by
      rw [Nat.dvd_mod_iff ⟨a.beats, by rw [← hend, Nat.mul_comm]⟩]; exact Nat.dvd_of_mod_eq_zero hal
    have hlod : db ∣ a.addr / dataLen db a * dataLen db a := by
      rw [← hend]; exact ⟨a.addr / (a.beats * db) * a.beats, by rw [Nat.mul_comm db, Nat.mul_assoc]⟩
    have htot : db * a.beats = dataLen db a := by rw [← hend, Nat.mul_comm]
    simp only [tlmAddr, writeGp, hga, hb, Ax.laneAddr, Ax.beatAddr, hnb, htot, hdiv]
    simp only [decide_true, if_true]
    generalize hlo : a.addr / dataLen db a * dataLen db a = lo at *
    have hbl : a.addr % dataLen db a + n * db < dataLen db a → a.addr % dataLen db a + n * db + db ≤ dataLen db a := by
      intro h
      obtain ⟨r, hrr⟩ := hrd
      rw [hrr, ← hend, Nat.mul_comm n, Nat.mul_comm a.beats, ← Nat.mul_add] at h ⊢
      have h2 : r + n < a.beats := Nat.lt_of_mul_lt_mul_left h
      rw [← Nat.mul_succ]; exact Nat.mul_le_mul_left _ h2
    split
    · rename_i hc
      rw [Nat.mod_eq_of_lt (show a.addr % dataLen db a + (n * db + j) < dataLen db a by omega)]
      rw [show (a.addr + n * db) / db * db = a.addr + n * db by
        rw [Nat.add_mul_div_right _ _ hdb, Nat.add_mul, hdiv]]
      omega
    · rename_i hc
      rw [Nat.mod_eq_sub_mod (show dataLen db a ≤ a.addr % dataLen db a + (n * db + j) by omega), Nat.mod_eq_of_lt (by omega)]
      have : (a.addr + n * db - dataLen db a) / db * db = a.addr + n * db - dataLen db a := by
        apply Nat.div_mul_cancel
        apply Nat.dvd_sub
        · exact Nat.dvd_add (Nat.dvd_of_mod_eq_zero hal) (Nat.dvd_mul_left _ _)
        · exact ⟨a.beats, by rw [← hend, Nat.mul_comm]⟩
      rw [this]
      omega
  · exact hs

/-- Bytes 0, 1, 2, … on the lanes of an incrementing burst. -/
def demoBeat (lo hi base : Nat) (last : Bool) : WBeat :=
  { data := fun l => BitVec.ofNat 8 (base + l), strb := fun l => decide (lo ≤ l ∧ l ≤ hi), last := last }

/-- **C25 (violation).** Beats narrower than the bus: the payload takes all lanes
of the first beats, so later beats are lost. -/
theorem narrow_beats_lost :
    let a : Ax := { addr := 0, nb := 2, beats := 2, burst := .incr }
    let bs := [demoBeat 0 1 0x10 false, demoBeat 2 3 0x20 true]
    a.slaveWrite 4 bs = some [(0, 0x10), (1, 0x11), (2, 0x22), (3, 0x23)] ∧
      specWrites (writeGp 4 a bs) = [(0, 0x10), (1, 0x11)] := by
  decide +kernel

/-! ## Reads -/

theorem getIdx_succ (db : Nat) (a : Ax) (n : Nat) : getIdx db a (n + 2) = getIdx db a (n + 1) + getCount db a (n + 1) := rfl

/-- Lanes and buffer positions of the beats of incrementing and wrapping bursts. -/
theorem get_geom (db : Nat) (a : Ax) (hdb : 0 < db) (hnb0 : 0 < a.nb) (hdvd : a.nb ∣ db) (hb : a.burst ≠ .fixed) (n : Nat) :
    (getLanes db a (n + 1)).1 = (a.addr + startOf a.addr a.nb n) % db ∧
    (getLanes db a (n + 1)).2 + 1 = (a.addr + startOf a.addr a.nb n) % db + (a.nb - (a.addr + startOf a.addr a.nb n) % a.nb) ∧
    getIdx db a (n + 1) = startOf a.addr a.nb n ∧
    getIdx db a (n + 1) + getCount db a (n + 1) = startOf a.addr a.nb (n + 1) := by
  have hga : gpAddr db a = a.addr := by simp [gpAddr, hb]
  have hlanes : ∀ n, (getLanes db a (n + 1)).1 = (a.addr + startOf a.addr a.nb n) % db ∧
      (getLanes db a (n + 1)).2 + 1 = (a.addr + startOf a.addr a.nb n) % db + (a.nb - (a.addr + startOf a.addr a.nb n) % a.nb) := by
    intro n
    unfold getLanes
    simp only [hga, if_neg hb]
    by_cases hn : n = 0
    · subst hn
      simp only [Nat.zero_add, if_true, sub_align, startOf, Nat.zero_mul, Nat.zero_sub, Nat.add_zero, true_and]
      unfold align
      have h1 := Nat.div_add_mod a.addr a.nb
      have h2 := Nat.div_add_mod a.addr db
      have h3 := Nat.mod_lt a.addr hnb0
      rw [Nat.mul_comm] at h1 h2
      have h4 : a.addr / db * db ≤ a.addr / a.nb * a.nb := by
        obtain ⟨q, rfl⟩ := hdvd
        rw [← Nat.div_div_eq_div_mul, Nat.mul_comm a.nb q, ← Nat.mul_assoc]
        exact Nat.mul_le_mul_right _ (Nat.div_mul_le_self _ _)
      omega
    · rw [if_neg (by omega)]
      rw [startOf_mod _ _ _ hnb0, if_neg hn, startOf_succ_mod _ _ _ hnb0 (by omega)]
      simp only [Nat.add_sub_cancel, show align a.addr a.nb = a.addr / a.nb * a.nb from rfl]
      rw [sub_align]
      exact ⟨rfl, by omega⟩
  have hcount : ∀ n, getCount db a (n + 1) = a.nb - (a.addr + startOf a.addr a.nb n) % a.nb := by
    intro n
    have h := hlanes n
    have hr := room (a.addr + startOf a.addr a.nb n) db a.nb hnb0 hdvd hdb
    unfold getCount
    simp only []
    omega
  have hidx : ∀ n, getIdx db a (n + 1) = startOf a.addr a.nb n := by
    intro n
    induction n with
    | zero => simp [getIdx, startOf]
    | succ n ih => rw [getIdx_succ, ih, hcount, ← startOf_next _ _ _ hnb0]
  exact ⟨(hlanes n).1, (hlanes n).2, hidx n, by rw [hidx, hcount, ← startOf_next _ _ _ hnb0]⟩

theorem len_startOf (db : Nat) (a : Ax) (hnb0 : 0 < a.nb) (hb : a.burst ≠ .fixed) (hbe : 0 < a.beats) :
    dataLen db a = startOf a.addr a.nb a.beats := by
  unfold startOf dataLen
  rw [if_neg hb, sub_align]
  have h1 := Nat.mod_lt a.addr hnb0
  have h2 : a.beats * a.nb = (a.beats - 1) * a.nb + a.nb := by
    rw [← Nat.succ_mul]; congr 1; omega
  omega

/-- **C26 (safety).** No beat reads past the end of the payload's buffer. -/
theorem read_in_bounds (db : Nat) (a : Ax) (hdb : 0 < db) (hnb0 : 0 < a.nb) (hdvd : a.nb ∣ db) (n : Nat) (hn : n < a.beats) :
    getIdx db a (n + 1) + getCount db a (n + 1) ≤ dataLen db a := by
  by_cases hb : a.burst = .fixed
  · have hc : ∀ n, getCount db a n = db := by
      intro n; simp [getCount, getLanes, hb]; omega
    have hi : ∀ n, getIdx db a (n + 1) = n * db := by
      intro n
      induction n with
      | zero => simp [getIdx]
      | succ n ih => rw [getIdx_succ, ih, hc, Nat.succ_mul]
    rw [hi, hc, dataLen, if_pos hb, ← Nat.succ_mul]
    exact Nat.mul_le_mul_right _ hn
  · rw [(get_geom db a hdb hnb0 hdvd hb n).2.2.2, len_startOf db a hnb0 hb (by omega)]
    exact startOf_mono _ _ _ _ hn

/-- **C26, fixed bursts.** -/
theorem read_fixed (db : Nat) (a : Ax) (mem : Nat → Byte) (init prev : Nat → Byte) (hb : a.burst = .fixed) (n : Nat) (hn : n < a.beats) :
    a.readBeatOk db mem n (getBeat db a (specRead (readGp db a init) mem) prev (n + 1)) := by
  intro l hl _
  have hc : ∀ n, getCount db a n = db := by
    intro n; simp [getCount, getLanes, hb]; omega
  have hi : ∀ n, getIdx db a (n + 1) = n * db := by
    intro n
    induction n with
    | zero => simp [getIdx]
    | succ n ih => rw [getIdx_succ, ih, hc, Nat.succ_mul]
  have hlt : n * db + l < a.beats * db := by
    have := Nat.mul_le_mul_right db (Nat.succ_le_of_lt hn)
    rw [Nat.succ_mul] at this
    omega
  unfold getBeat
  simp only [getLanes, hb, if_true, hi, Nat.zero_le, true_and, Nat.sub_zero]
  rw [if_pos (by omega)]
  simp only [specRead, readGp, dataLen, hb, if_true, tlmAddr, gpAddr, gpSw, Ax.laneAddr, Ax.beatAddr, beEnabled, align]
  simp [hlt]
  rw [Nat.mod_eq_of_lt hl]

/-- **C26, incrementing bursts.** For every beat size that divides the bus width,
every address and length: the lanes of every beat's addresses carry the bytes the
target returned for those addresses. -/
theorem read_incr (db : Nat) (a : Ax) (mem : Nat → Byte) (init prev : Nat → Byte) (hdb : 0 < db) (hnb0 : 0 < a.nb) (hdvd : a.nb ∣ db)
    (hb : a.burst = .incr) (n : Nat) (hn : n < a.beats) :
    a.readBeatOk db mem n (getBeat db a (specRead (readGp db a init) mem) prev (n + 1)) := by
  intro l hl hok
  have hnf : a.burst ≠ .fixed := by rw [hb]; simp
  obtain ⟨g1, g2, g3, g4⟩ := get_geom db a hdb hnb0 hdvd hnf n
  have hx : a.beatAddr n = a.addr + startOf a.addr a.nb n := by
    unfold Ax.beatAddr
    simp only [hb]
    split
    · rename_i h; subst h; simp [startOf]
    · rw [startOf_succ_mod _ _ _ hnb0 (by omega)]
  have hlen := len_startOf db a hnb0 hnf (by omega)
  have hmono := startOf_mono a.addr a.nb (n + 1) a.beats hn
  have hnext := startOf_next a.addr a.nb n hnb0
  unfold Ax.laneOk Ax.lower Ax.upper at hok
  rw [hx] at hok
  unfold Ax.laneAddr
  rw [hx]
  generalize hX : a.addr + startOf a.addr a.nb n = X at *
  have e1 := Nat.div_add_mod X db
  have e2 := Nat.div_add_mod X a.nb
  have e3 := Nat.mod_lt X hnb0
  rw [Nat.mul_comm] at e1 e2
  unfold getBeat
  simp only [g1, g3]
  rw [if_pos (by omega)]
  unfold specRead
  have hin : startOf a.addr a.nb n + (l - X % db) < dataLen db a := by omega
  rw [if_pos ⟨hin, rfl⟩]
  congr 1
  simp only [tlmAddr, readGp, gpAddr, gpSw, hb]
  simp only [reduceCtorEq, decide_false, Bool.false_eq_true, if_false]
  rw [Nat.mod_eq_of_lt hin]
  omega

/-- **C26, wrapping bursts** from an aligned address over a block that is a whole
number of bus words. -/
theorem read_wrap_partial (db : Nat) (a : Ax) (mem : Nat → Byte) (init prev : Nat → Byte) (hdb : 0 < db) (hnb0 : 0 < a.nb) (hdvd : a.nb ∣ db)
    (hb : a.burst = .wrap) (hal : a.addr % a.nb = 0) (hblk : db ∣ a.nb * a.beats) (n : Nat) (hn : n < a.beats) :
    a.readBeatOk db mem n (getBeat db a (specRead (readGp db a init) mem) prev (n + 1)) := by
  intro l hl hok
  have hnf : a.burst ≠ .fixed := by rw [hb]; simp
  obtain ⟨g1, g2, g3, g4⟩ := get_geom db a hdb hnb0 hdvd hnf n
  have hst : ∀ n, startOf a.addr a.nb n = n * a.nb := by intro n; simp [startOf, hal]
  have hlen := len_startOf db a hnb0 hnf (by omega)
  rw [hst, Nat.mul_comm] at hlen
  rw [hst] at g1 g2 g3
  have hnm : (a.addr + n * a.nb) % a.nb = 0 := by rw [Nat.add_mul_mod_self_right]; exact hal
  rw [hnm, Nat.sub_zero] at g2
  have hnl : n * a.nb + a.nb ≤ dataLen db a := by
    rw [hlen, Nat.mul_comm a.nb, ← Nat.succ_mul]; exact Nat.mul_le_mul_right _ hn
  have hL : 0 < dataLen db a := by omega
  have hdiv : a.addr / a.nb * a.nb = a.addr := by
    have := Nat.div_add_mod a.addr a.nb; rw [hal, Nat.add_zero, Nat.mul_comm] at this; exact this
  have hx : a.beatAddr n = if a.addr + n * a.nb < a.addr / dataLen db a * dataLen db a + dataLen db a then a.addr + n * a.nb
      else a.addr + n * a.nb - dataLen db a := by
    unfold Ax.beatAddr
    simp only [hb, hdiv, hlen]
  have e0 := Nat.div_add_mod a.addr (dataLen db a)
  rw [Nat.mul_comm] at e0
  have hr := Nat.mod_lt a.addr hL
  have hbl : a.addr % dataLen db a + n * a.nb < dataLen db a → a.addr % dataLen db a + n * a.nb + a.nb ≤ dataLen db a := by
    intro h
    have hrd : a.nb ∣ a.addr % dataLen db a := by
      rw [Nat.dvd_mod_iff ⟨a.beats, hlen⟩]; exact Nat.dvd_of_mod_eq_zero hal
    obtain ⟨r, hrr⟩ := hrd
    rw [hrr, hlen, Nat.mul_comm n, ← Nat.mul_add] at h ⊢
    have h2 : r + n < a.beats := Nat.lt_of_mul_lt_mul_left h
    rw [← Nat.mul_succ]; exact Nat.mul_le_mul_left _ h2
  -- the wrapped address has the same position in its bus word
  have hcong : a.beatAddr n % db = (a.addr + n * a.nb) % db ∧ a.beatAddr n % a.nb = 0 ∧
      ∀ k, k < a.nb → a.beatAddr n + k = a.addr / dataLen db a * dataLen db a + (a.addr % dataLen db a + (n * a.nb + k)) % dataLen db a := by
    rw [hx]
    generalize hlo : a.addr / dataLen db a * dataLen db a = lo at *
    split
    · rename_i hc
      refine ⟨rfl, hnm, ?_⟩
      intro k hk
      rw [Nat.mod_eq_of_lt (show a.addr % dataLen db a + (n * a.nb + k) < dataLen db a by omega)]
      omega
    · rename_i hc
      have hsub : (a.addr + n * a.nb - dataLen db a) + dataLen db a = a.addr + n * a.nb := by omega
      obtain ⟨m, hm⟩ := hblk
      have hLm : dataLen db a = db * m := by rw [hlen, hm]
      refine ⟨?_, ?_, ?_⟩
      · conv => rhs; rw [← hsub]
        rw [hLm, Nat.add_mul_mod_self_left]
      · have : ((a.addr + n * a.nb - dataLen db a) + dataLen db a) % a.nb = 0 := by rw [hsub]; exact hnm
        conv at this => lhs; arg 1; arg 2; rw [hlen]
        rwa [Nat.add_mul_mod_self_left] at this
      · intro k hk
        rw [Nat.mod_eq_sub_mod (show dataLen db a ≤ a.addr % dataLen db a + (n * a.nb + k) by omega), Nat.mod_eq_of_lt (by omega)]
        omega
  obtain ⟨c1, c2, c3⟩ := hcong
  unfold Ax.laneOk Ax.lower Ax.upper at hok
  unfold Ax.laneAddr
  generalize a.beatAddr n = Y at *
  have e1 := Nat.div_add_mod Y db
  have e2 := Nat.div_add_mod Y a.nb
  rw [Nat.mul_comm] at e1 e2
  unfold getBeat
  simp only [g1, g3]
  rw [if_pos (by omega)]
  unfold specRead
  have hin : n * a.nb + (l - (a.addr + n * a.nb) % db) < dataLen db a := by omega
  rw [if_pos ⟨hin, rfl⟩]
  congr 1
  simp only [tlmAddr, readGp, gpAddr, hb]
  simp only [decide_true, if_true, reduceCtorEq, if_false]
  rw [← c3 _ (by omega)]
  omega

/-- **C26 (violation).** A wrapping burst over a block smaller than the bus puts
the wrapped beat on the lanes of the unwrapped addresses: here lanes 0 and 1 of
the second beat, which should carry addresses 0 and 1, keep their old value. -/
theorem narrow_wrap_lanes (mem init : Nat → Byte) (prev : Nat → Byte) :
    let a : Ax := { addr := 2, nb := 2, beats := 2, burst := .wrap }
    a.laneOk 8 1 0 ∧ a.laneAddr 8 1 0 = 0 ∧ getBeat 8 a (specRead (readGp 8 a init) mem) prev 2 0 = prev 0 := by
  refine ⟨by decide, by decide, ?_⟩
  simp [getBeat, getLanes, gpAddr, align]

/-! ## Round trip through both bridges -/

/-- A TLM write sent through the TLM-to-AXI bridge and turned back into TLM by the
AXI-to-TLM bridge performs the same byte writes, for every address, length and
byte-enable pattern. -/
theorem write_roundtrip (db : Nat) (p : Tlm2Axi.Gp) (t : Tr) (hdb : 0 < db) (ht : mkTr db p = some t) (hw : p.wrap = false)
    (hlen : 0 < p.len) (hsw : p.len ≤ p.sw) (hbw : t.bw = db) (hsmall : p.len + 2 * db < 2 ^ 32) :
    specWrites (writeGp db t.ax (writeBeats db t)) = specWrites p := by
  have h := Tlm2Axi.write_incr db p t hdb ht hw hlen hsw (by rw [hbw]; exact Nat.dvd_refl _) hsmall
  have hbi : t.burst = .incr ∧ 0 < t.numBeats := by
    unfold mkTr at ht
    rw [show setupBurstType db p = some (.incr, p.burstWidth) by
      unfold setupBurstType; rw [if_neg (by simp [hw]), if_pos hsw]] at ht
    simp only [Option.some.injEq] at ht
    have hN : t.numBeats = setupNumBeats p.addr p.len t.bw .incr := by rw [← ht]
    refine ⟨by rw [← ht], ?_⟩
    rw [hN, setupNumBeats_incr _ _ _ _ (by simp) (by omega) (by omega)]
    exact Nat.div_pos (by omega) (by omega)
  exact write_incr_partial db t.ax _ _ hdb hbi.1 hbw hbi.2 h

/-- A TLM read through both bridges returns what the target behind them holds, for
every beat width, address, length and byte-enable pattern, whatever the bus
carried before. -/
theorem read_roundtrip (db : Nat) (p : Tlm2Axi.Gp) (t : Tr) (hdb : 0 < db) (ht : mkTr db p = some t) (hw : p.wrap = false)
    (hlen : 0 < p.len) (hsw : p.len ≤ p.sw) (hdvd : t.bw ∣ db) (hsmall : p.len + 2 * db < 2 ^ 32)
    (mem init : Nat → Byte) (prev : Nat → Nat → Byte) (id resp : Nat) :
    readBeats db t ((List.range t.numBeats).map fun n =>
        ⟨getBeat db t.ax (specRead (readGp db t.ax init) mem) (prev n) (n + 1), id, resp, decide (n + 1 = t.numBeats)⟩) =
      some (specRead p mem, resp, []) := by
  have hbw : 0 < t.bw := Nat.pos_of_ne_zero (by intro h; rw [h] at hdvd; have := Nat.eq_zero_of_zero_dvd hdvd; omega)
  have hble := Nat.le_of_dvd hdb hdvd
  have hbi : t.burst = .incr ∧ 0 < t.numBeats := by
    have ht2 := ht
    unfold mkTr at ht2
    rw [show setupBurstType db p = some (.incr, p.burstWidth) by
      unfold setupBurstType; rw [if_neg (by simp [hw]), if_pos hsw]] at ht2
    simp only [Option.some.injEq] at ht2
    have hN : t.numBeats = setupNumBeats p.addr p.len t.bw .incr := by rw [← ht2]
    refine ⟨by rw [← ht2], ?_⟩
    rw [hN, setupNumBeats_incr _ _ _ _ (by simp) hbw (by omega)]
    exact Nat.div_pos (by omega) hbw
  rw [Tlm2Axi.read_incr db p t hdb ht hw hlen hsw hdvd hsmall mem _ ?_
    ⟨getBeat db t.ax (specRead (readGp db t.ax init) mem) (prev (t.numBeats - 1)) (t.numBeats - 1 + 1), id, resp,
      decide (t.numBeats - 1 + 1 = t.numBeats)⟩ ?_]
  · rw [List.drop_eq_nil_of_le (by simp [Tr.ax])]
  · intro n hn
    have hn' : n < t.numBeats := hn
    exact ⟨_, by rw [List.getElem?_map, List.getElem?_range hn']; rfl,
      read_incr db t.ax mem init (prev n) hdb hbw hdvd hbi.1 n hn, fun h => by simpa [Tr.ax] using h⟩
  · show ((List.range t.numBeats).map _)[t.numBeats - 1]? = _
    rw [List.getElem?_map, List.getElem?_range (by omega)]; rfl

example : ∃ ws, ({ addr := 1, nb := 4, beats := 2, burst := .incr } : Ax).slaveWrite 4 [demoBeat 2 3 0 false, demoBeat 0 2 4 true] = some ws ∧ ws ≠ [] :=
  ⟨_, rfl, by decide +kernel⟩
example : ∃ ws, ({ addr := 6, nb := 2, beats := 2, burst := .fixed } : Ax).slaveWrite 4 [demoBeat 2 3 0 false, demoBeat 2 2 4 true] = some ws ∧ ws ≠ [] :=
  ⟨_, rfl, by decide +kernel⟩
example : ∃ ws, ({ addr := 4, nb := 4, beats := 2, burst := .wrap } : Ax).slaveWrite 4 [demoBeat 0 3 0 false, demoBeat 0 2 4 true] = some ws ∧ ws ≠ [] :=
  ⟨_, rfl, by decide +kernel⟩

end Verif.Axi2Tlm
