import Verif.HwSlave.Core

/-! # C54: AXI bursts at the hardware bridge, as TLM accesses -/

namespace Verif.HwSlave
open Verif Verif.Axi
open Verif.Aligner (memT)

theorem bus_pos {db : Nat} (h : Bus db) : 0 < db ∧ db ≤ 128 := by
  obtain ⟨t, ht, rfl⟩ := h
  exact ⟨Nat.two_pow_pos t, by
    have := Nat.pow_le_pow_right (n := 2) (by omega) ht
    simpa using this⟩

theorem nb_pos {db : Nat} {a : Ax} (h : Legal db a) : 0 < a.nb := by
  obtain ⟨s, hs⟩ := h.size
  rw [hs]
  exact Nat.two_pow_pos s

theorem beats_le {db : Nat} {a : Ax} (h : Legal db a) : a.beats ≤ 256 := by
  have := h.max
  by_cases hb : a.burst = .incr
  · rw [if_pos hb] at this; exact this
  · rw [if_neg hb] at this; omega

theorem cap_ok {db : Nat} {a : Ax} (hb : Bus db) (h : Legal db a) : a.beats * db ≤ cap := by
  have h1 := beats_le h
  have h2 := (bus_pos hb).2
  have := Nat.mul_le_mul h1 h2
  unfold cap
  omega

theorem desc_beats {db : Nat} {a : Ax} (hb : Bus db) (h : Legal db a) : (a.beats * db - 1) / db + 1 = a.beats := by
  have h1 := (bus_pos hb).1
  have h2 := h.some_beat
  have h3 : a.beats * db = (a.beats - 1) * db + db := by
    rw [← Nat.succ_mul]; congr 1; omega
  have h4 : (a.beats * db - 1) = (db - 1) + (a.beats - 1) * db := by omega
  rw [h4, Nat.add_mul_div_right _ _ h1, Nat.div_eq_of_lt (by omega)]
  omega

theorem wrap_total {db : Nat} {a : Ax} (hb : Bus db) (h : Legal db a) (hw : a.burst = .wrap) (hn : db ≤ a.nb * a.beats) :
    db ∣ a.nb * a.beats := by
  obtain ⟨t, _, rfl⟩ := hb
  obtain ⟨s, hs⟩ := h.size
  obtain ⟨k, hk⟩ : ∃ k, a.beats = 2 ^ k := by
    rcases (h.wrap hw).2 with h | h | h | h
    · exact ⟨1, h⟩
    · exact ⟨2, h⟩
    · exact ⟨3, h⟩
    · exact ⟨4, h⟩
  rw [hs, hk, ← Nat.pow_add] at hn ⊢
  exact Nat.pow_dvd_pow 2 ((Nat.pow_le_pow_iff_right (by omega)).1 hn)

/-- A burst this bridge treats correctly: any but a wrapping burst shorter than the
data bus. -/
def NotShortWrap (db : Nat) (a : Ax) : Prop := a.burst = .wrap → db ≤ a.nb * a.beats

/-- The layout of a rearranged burst. -/
theorem layout_rearranged {db : Nat} {a : Ax} (hb : Bus db) (h : Legal db a) (hw : NotShortWrap db a) :
    ∃ Q L lane A, Geo db a Q L lane A ∧ lane 0 = a.addr % db ∧ L 0 = firstLen a ∧
      (∀ n, n + 1 < a.beats → (if decide (a.burst = .fixed) = true then L n else a.nb) = L (n + 1)) ∧
      (∀ n, 0 < n → n < a.beats → (if decide (a.burst = .fixed) = true then offsetOf db a.addr else (lane 0 + Q n) % db) = lane n) ∧
      (Q 1 = firstLen a) ∧
      (∀ i, i < Q a.beats → A i =
        if a.burst = .wrap then WrapExpander.wrapAddr a.addr (Q a.beats) i
        else a.addr + i % (if a.burst = .fixed then firstLen a else Q a.beats)) ∧
      Q a.beats = if a.burst = .fixed then a.beats * firstLen a else a.nb * a.beats - a.addr % a.nb := by
  have hdb := (bus_pos hb).1
  have hnb := nb_pos h
  have hbe := h.some_beat
  have hfl := firstLen_mod a h.size
  rw [offset_mod]
  cases hbu : a.burst with
  | fixed =>
    refine ⟨_, _, _, _, geo_fixed db a hdb hnb h.narrow hbu, ?_, ?_, ?_, ?_, ?_, ?_, ?_⟩
    · rw [fixed_addr a hbu]
    · rw [fixed_addr a hbu, hfl]
    · intro n _; simp [fixed_addr a hbu]
    · intro n _ _; simp [fixed_addr a hbu]
    · rw [hfl]; exact Nat.one_mul _
    · intro i _; rw [hfl]; simp
    · rw [hfl]; simp
  | incr =>
    have hend : a.beatAddr a.beats - a.addr = a.nb * a.beats - a.addr % a.nb := by
      rw [incr_addr a hbu, if_neg (by omega), Nat.mul_comm a.beats]
      have h1 := Nat.div_add_mod a.addr a.nb
      rw [Nat.mul_comm] at h1
      omega
    refine ⟨_, _, _, fun i => a.addr + i, geo_incr db a _ hdb hnb h.narrow hbu (fun _ _ => rfl), ?_, ?_, ?_, ?_, ?_, ?_, ?_⟩
    · rw [beatAddr_zero a (by rw [hbu]; simp)]
    · rw [beatAddr_zero a (by rw [hbu]; simp), hfl]
    · intro n _
      rw [incr_mod a hbu (n + 1) (by omega)]
      simp
    · intro n _ _
      have := incr_le a hbu hnb n
      simp only [reduceCtorEq, decide_false, Bool.false_eq_true, if_false]
      rw [beatAddr_zero a (by rw [hbu]; simp), Nat.mod_add_mod]
      congr 1
      omega
    · have := incr_step a hbu hnb 0
      rw [beatAddr_zero a (by rw [hbu]; simp)] at this
      rw [hfl, this]
      omega
    · intro i hi
      simp only [reduceCtorEq, if_false]
      rw [Nat.mod_eq_of_lt hi]
    · simp only [reduceCtorEq, if_false]
      exact hend
  | wrap =>
    have hal := (h.wrap hbu).1
    have hdt := wrap_total hb h hbu (hw hbu)
    have hz : a.beatAddr 0 = a.addr := by
      rw [wrap_addr a hbu hal, Nat.zero_mul, Nat.add_zero, if_pos (Nat.mod_lt _ (Nat.mul_pos hnb hbe))]
      rfl
    refine ⟨_, _, _, _, geo_wrap db a hdb hnb h.narrow hbu hal hbe, ?_, ?_, ?_, ?_, ?_, ?_, ?_⟩
    · rw [hz]
    · rw [hz, hfl]
    · intro n _
      have := wrap_mod a hbu hal (n + 1)
      simp [this]
    · intro n _ _
      simp only [reduceCtorEq, decide_false, Bool.false_eq_true, if_false]
      rw [hz]
      exact wrap_lane db a hbu hal hdt n
    · rw [hfl, hal]; omega
    · intro i _
      simp only [if_true]
      rw [Nat.mul_comm]
    · simp only [reduceCtorEq, if_false]
      rw [hal, Nat.mul_comm, Nat.sub_zero]

/-- The layout of a burst that is left as it is. -/
theorem layout_plain {db : Nat} {a : Ax} (hb : Bus db) (h : Legal db a)
    (hp : ¬(1 < a.beats ∧ (a.burst = .fixed ∨ a.nb < db))) :
    ∃ Q L lane A, Geo db a Q L lane A ∧ lane 0 = a.addr % db ∧
      (∀ n, n < a.beats → lane 0 + Q n = n * db + lane n) ∧
      lane 0 + Q a.beats = a.beats * db ∧
      (∀ i, i < Q a.beats → A i =
        if a.burst = .wrap then WrapExpander.wrapAddr a.addr (Q a.beats) i
        else a.addr + i % (if a.burst = .fixed then firstLen a else Q a.beats)) := by
  have hdb := (bus_pos hb).1
  have hnb := nb_pos h
  have hbe := h.some_beat
  have hfl := firstLen_mod a h.size
  have hlt := Nat.mod_lt a.addr hdb
  by_cases h1 : a.beats = 1
  · have hw : a.burst ≠ .wrap := by
      intro hw
      have := (h.wrap hw).2
      omega
    have hmn := mod_nb_lt db a.nb a.addr hdb hnb h.narrow
    refine ⟨_, _, _, fun i => a.addr + i % (if a.burst = .fixed then firstLen a else db - a.addr % db),
      geo_single db a _ hdb hnb h.narrow hw h1 ?_, rfl, ?_, ?_, ?_⟩
    · intro j hj
      by_cases hf : a.burst = .fixed
      · rw [if_pos hf, hfl, Nat.mod_eq_of_lt hj]
      · rw [if_neg hf, Nat.mod_eq_of_lt (by omega)]
    · intro n hn
      have hn0 : n = 0 := by omega
      subst hn0
      rw [Nat.zero_mul, Nat.zero_mul]; omega
    · rw [h1, Nat.one_mul, Nat.one_mul]; omega
    · intro i _
      rw [if_neg hw, h1, Nat.one_mul]
  · have hb1 : 1 < a.beats := by omega
    have hnf : a.burst ≠ .fixed := fun hf => hp ⟨hb1, Or.inl hf⟩
    have hnd : a.nb = db := by
      have := Nat.le_of_dvd hdb h.narrow
      have : ¬ a.nb < db := fun hlt => hp ⟨hb1, Or.inr hlt⟩
      omega
    cases hbu : a.burst with
    | fixed => exact absurd hbu hnf
    | incr =>
      have hal : ∀ n, 0 < n → a.addr % db + (a.beatAddr n - a.addr) = n * db := by
        intro n hn
        rw [incr_addr a hbu, if_neg (by omega), hnd]
        have h1 := Nat.div_add_mod a.addr db
        rw [Nat.mul_comm] at h1
        have : 1 * db ≤ n * db := Nat.mul_le_mul_right _ hn
        omega
      refine ⟨_, _, _, fun i => a.addr + i, geo_incr db a _ hdb hnb h.narrow hbu (fun _ _ => rfl), ?_, ?_, ?_, ?_⟩
      · rw [beatAddr_zero a (by rw [hbu]; simp)]
      · intro n hn
        have hz := beatAddr_zero a (by rw [hbu]; simp)
        by_cases hn0 : n = 0
        · subst hn0
          rw [hz]
          omega
        · have := incr_mod a hbu n (by omega)
          rw [hnd] at this
          rw [hz, this, hal n (by omega)]
          omega
      · rw [beatAddr_zero a (by rw [hbu]; simp), hal _ hbe]
      · intro i hi
        simp only [reduceCtorEq, if_false]
        rw [Nat.mod_eq_of_lt hi]
    | wrap =>
      have hal := (h.wrap hbu).1
      have hz : a.beatAddr 0 = a.addr := by
        rw [wrap_addr a hbu hal, Nat.zero_mul, Nat.add_zero, if_pos (Nat.mod_lt _ (Nat.mul_pos hnb hbe))]
        rfl
      refine ⟨_, _, _, _, geo_wrap db a hdb hnb h.narrow hbu hal hbe, ?_, ?_, ?_, ?_⟩
      · rw [hz]
      · intro n _
        have := wrap_mod a hbu hal n
        have h0 := wrap_mod a hbu hal 0
        rw [hnd] at this h0
        rw [this, h0, hnd]; omega
      · have h0 := wrap_mod a hbu hal 0
        rw [hnd] at h0
        rw [h0, hnd]; omega
      · intro i _
        simp only [if_true]
        rw [Nat.mul_comm]

/-- **C54, writes.** For every bus width, every AXI write burst the protocol allows
(incrementing, fixed or wrapping; narrow or full width; aligned or not; any
strobes and data) except wrapping bursts shorter than the bus: the bridge stays
inside its buffers, and the memory behind it ends up as if the burst's byte writes
had been done one by one in the order of the burst; the answer is OK. -/
theorem write_right_partial (db : Nat) (hb : Bus db) (a : Ax) (h : Legal db a) (hw : NotShortWrap db a) (bs : List WBeat)
    (ws : List (Nat × Byte)) (hs : a.slaveWrite db bs = some ws) (old : Buf) (m : Mem) :
    ∃ f, process db (hwWrite db a bs) memT m (hwBuf db bs old) = some (applyWrites m ws, f, .ok) := by
  have hbe := h.some_beat
  have hpre : ∃ f' Q L lane A, Geo db a Q L lane A ∧ offsetOf db a.addr = lane 0 ∧
      prepare db (hwWrite db a bs) (hwBuf db bs old) = some (f', lane 0 + Q a.beats) ∧ 0 < Q a.beats ∧
      (∀ n, n < a.beats → ∀ j, j < L n → f' (lane 0 + Q n + j) = hwBuf db bs old (n * db + lane n + j)) ∧
      (∀ i, i < Q a.beats → A i =
        if a.burst = .wrap then WrapExpander.wrapAddr a.addr (Q a.beats) i
        else a.addr + i % (if a.burst = .fixed then firstLen a else Q a.beats)) := by
    by_cases hr : 1 < a.beats ∧ (a.burst = .fixed ∨ a.nb < db)
    · obtain ⟨Q, L, lane, A, g, hl0, hL0, hlen, hsrc, hQ1, hA, hQ⟩ := layout_rearranged hb h hw
      have hreq : (hwWrite db a bs).rearranged db = true := by
        unfold Desc.rearranged Desc.beats hwWrite
        simp only [desc_beats hb h]
        simp [hr.1, hr.2]
      have hsq : Squeezed db Q L lane (hwBuf db bs old) 1 (hwBuf db bs old) := by
        constructor
        · intro n hn j _
          have hn0 : n = 0 := by omega
          subst hn0
          rw [g.first, Nat.zero_mul]; congr 1; omega
        · intro i _; rfl
      obtain ⟨f', h1, h2⟩ := squeeze_ok g (decide (a.burst = .fixed)) a.nb (offsetOf db a.addr) (cap_ok hb h) (hwBuf db bs old) hlen hsrc
        (a.beats - 1) 1 _ (by omega) (by omega) hsq
      refine ⟨f', Q, L, lane, A, g, by rw [offset_mod, hl0], ?_, ?_, ?_, hA⟩
      · unfold prepare
        simp only [hreq, if_true]
        unfold Desc.beats
        simp only [hwWrite, desc_beats hb h, if_true]
        rw [hQ1, Nat.sub_self, hL0, hl0, ← offset_mod] at h1
        rw [hl0, ← offset_mod]
        exact h1
      · have hm := g.mono (a.beats - 1) 1 (by omega)
        rw [show 1 + (a.beats - 1) = a.beats by omega] at hm
        have := Nat.mod_lt a.addr (nb_pos h)
        have := firstLen_mod a h.size
        omega
      · intro n hn j hj
        exact h2.done n hn j hj
    · obtain ⟨Q, L, lane, A, g, hl0, hpl, hend, hA⟩ := layout_plain hb h hr
      have hreq : (hwWrite db a bs).rearranged db = false := by
        unfold Desc.rearranged Desc.beats hwWrite
        simp only [desc_beats hb h]
        rw [Bool.and_eq_false_iff]
        by_cases h1 : 1 < a.beats
        · right
          rw [Bool.or_eq_false_iff]
          exact ⟨by simpa using fun hf => hr ⟨h1, Or.inl hf⟩, by simpa using fun hf => hr ⟨h1, Or.inr hf⟩⟩
        · left; simpa using h1
      refine ⟨hwBuf db bs old, Q, L, lane, A, g, by rw [offset_mod, hl0], ?_, ?_, ?_, hA⟩
      · unfold prepare
        simp only [hreq]
        rw [if_pos (show (hwWrite db a bs).isWrite = true from rfl), if_neg (by simp), hend]
        rfl
      · have := (bus_pos hb).1
        have := Nat.mod_lt a.addr (bus_pos hb).1
        have : 1 * db ≤ a.beats * db := Nat.mul_le_mul_right _ hbe
        omega
      · intro n hn j _
        rw [hpl n hn]
  obtain ⟨f', Q, L, lane, A, g, hoff, hprep, hpos, hf, hA⟩ := hpre
  obtain ⟨d, hiss⟩ := write_core g bs ws hs old f' m hoff hpos hf hA
  refine ⟨f', ?_⟩
  have hax : (hwWrite db a bs).ax = a := rfl
  have hiw : (hwWrite db a bs).isWrite = true := rfl
  have hfin : ∀ tx, finish db (hwWrite db a bs) tx f' = some f' := by
    intro tx
    unfold finish
    rw [hiw]
    simp
  unfold process
  rw [hprep]
  simp only [hax, hiss, hiw, if_true, hfin, Option.map_some]

/-- **C54, reads.** Under the same conditions every lane the burst asks for gets
the byte at its address, in every beat, and memory is untouched; the bridge stays
inside its buffers, the fixed-size bounce buffer included. -/
theorem read_right_partial (db : Nat) (hb : Bus db) (a : Ax) (h : Legal db a) (hw : NotShortWrap db a) (old : Buf) (m : Mem) :
    ∃ f, process db (hwRead db a) memT m old = some (m, f, .ok) ∧
      ∀ n, n < a.beats → a.readBeatOk db m n (hwBeat db f n) := by
  have hbe := h.some_beat
  have hdb := bus_pos hb
  have hnb := nb_pos h
  have hax : (hwRead db a).ax = a := rfl
  have hiw : (hwRead db a).isWrite = false := rfl
  have hsz : (hwRead db a).size = a.beats * db := rfl
  have hbs : (hwRead db a).beats db = a.beats := by
    unfold Desc.beats
    rw [hsz]
    exact desc_beats hb h
  have hlt := Nat.mod_lt a.addr hdb.1
  have hln := Nat.mod_lt a.addr hnb
  have hle : a.nb ≤ db := Nat.le_of_dvd hdb.1 h.narrow
  have hfl := firstLen_mod a h.size
  have hone : 1 * db ≤ a.beats * db := Nat.mul_le_mul_right _ hbe
  have hmle : a.addr % a.nb ≤ a.addr % db := by
    rw [← Nat.mod_mod_of_dvd a.addr h.narrow]; exact Nat.mod_le _ _
  by_cases hr : 1 < a.beats ∧ (a.burst = .fixed ∨ a.nb < db)
  · obtain ⟨Q, L, lane, A, g, hl0, hL0, hlen, hsrc, hQ1, hA, hQ⟩ := layout_rearranged hb h hw
    have hreq : (hwRead db a).rearranged db = true := by
      unfold Desc.rearranged
      rw [hbs, hax]
      simp [hr.1, hr.2]
    -- the size of the TLM access
    have htx : ∃ tx, prepare db (hwRead db a) old = some (old, tx) ∧ lane 0 + Q a.beats ≤ tx ∧ tx ≤ 4096 ∧ offsetOf db a.addr < tx ∧
        (a.burst ≠ .fixed → tx - offsetOf db a.addr = Q a.beats) := by
      have hnbb : a.nb * a.beats = a.beats * a.nb := Nat.mul_comm _ _
      have hbn : 1 * a.nb ≤ a.beats * a.nb := Nat.mul_le_mul_right _ hbe
      have h16 : a.burst ≠ .incr → a.beats * a.nb ≤ 2048 ∧ a.beats * db ≤ 2048 := by
        intro hni
        have h1 := h.max
        rw [if_neg hni] at h1
        exact ⟨Nat.le_trans (Nat.mul_le_mul h1 (Nat.le_trans hle hdb.2)) (by omega), Nat.le_trans (Nat.mul_le_mul h1 hdb.2) (by omega)⟩
      have hfx : a.beats * (a.nb - a.addr % a.nb) ≤ a.beats * a.nb - a.addr % a.nb := by
        rw [Nat.mul_sub]
        have : 1 * (a.addr % a.nb) ≤ a.beats * (a.addr % a.nb) := Nat.mul_le_mul_right _ hbe
        omega
      by_cases hn : a.nb < db
      · refine ⟨a.addr % db + a.nb * a.beats - a.addr % a.nb, ?_, ?_, ?_, ?_, ?_⟩
        · unfold prepare
          simp only [hiw, hbs, hax]
          rw [if_neg (by simp), if_pos ⟨hr.1, hn⟩, offset_mod, and_mod _ _ h.size]
        · rw [hl0, hQ, hfl]
          by_cases hf : a.burst = .fixed
          · rw [if_pos hf]; omega
          · rw [if_neg hf]; omega
        · by_cases hi : a.burst = .incr
          · have hpg := h.page hi
            obtain ⟨t, ht, hdt⟩ := hb
            have hd4 : db ∣ 4096 := by
              rw [hdt]; exact Nat.pow_dvd_pow 2 (n := 12) (by omega)
            have h1 : a.addr % db ≤ a.addr % 4096 := by
              rw [← Nat.mod_mod_of_dvd a.addr hd4]; exact Nat.mod_le _ _
            have h2 := Nat.div_add_mod a.addr a.nb
            rw [Nat.mul_comm] at h2
            have h3 := Nat.div_add_mod a.addr 4096
            omega
          · have := (h16 hi).1
            omega
        · rw [offset_mod]; omega
        · intro hf
          rw [offset_mod, hQ, if_neg hf]; omega
      · have hf : a.burst = .fixed := by
          rcases hr.2 with h1 | h1
          · exact h1
          · exact absurd h1 hn
        have hnd : a.nb = db := by omega
        refine ⟨a.beats * db, ?_, ?_, ?_, ?_, ?_⟩
        · unfold prepare
          simp only [hiw, hbs, hax]
          rw [if_neg (by simp), if_neg (by omega)]
          rfl
        · rw [hl0, hQ, if_pos hf, hfl, hnd]
          rw [hnd] at hfx
          omega
        · have := (h16 (by rw [hf]; simp)).2
          omega
        · rw [offset_mod]; omega
        · intro hnf; exact absurd hf hnf
    obtain ⟨tx, hprep, htxQ, htx4, htx0, htxn⟩ := htx
    obtain ⟨d, hiss, hdl, hd⟩ := read_core db a old m tx htx0
    have hfc : ∀ i, i < tx - offsetOf db a.addr → (filled old (offsetOf db a.addr) d (lane 0 + i)).1 = d.getD i 0 := by
      intro i hi
      unfold filled
      rw [if_pos ⟨by rw [offset_mod, hl0]; omega, by rw [offset_mod] at hi hdl ⊢; omega⟩]
      simp only []
      rw [offset_mod, hl0, Nat.add_sub_cancel_left]
    obtain ⟨f', h1, h2⟩ := spread_ok g (decide (a.burst = .fixed)) a.nb (offsetOf db a.addr) tx (cap_ok hb h) htxQ
      (filled old (offsetOf db a.addr) d) hlen hsrc (a.beats - 1) 1 (filled old (offsetOf db a.addr) d) (by omega) (by omega) (by
        intro n hn j _
        have hn0 : n = 0 := by omega
        subst hn0
        rw [g.first, Nat.zero_mul]; congr 1; omega)
    refine ⟨f', ?_, ?_⟩
    · unfold process
      rw [hprep]
      simp only [hax, hiss, hiw, Bool.false_eq_true, if_false]
      have : finish db (hwRead db a) tx (filled old (offsetOf db a.addr) d) = some f' := by
        unfold finish
        simp only [hiw, hreq, hax, hbs, Bool.not_false, Bool.and_self, if_true]
        rw [if_pos htx4]
        rw [hQ1, Nat.sub_self, hL0, hl0, ← offset_mod] at h1
        exact h1
      rw [this, Option.map_some]
    · intro n hn l hl hok
      obtain ⟨hc1, hc2⟩ := g.cover n hn l hl hok
      have hjn : l - lane n < L n := by omega
      have he : n * db + l = n * db + lane n + (l - lane n) := by omega
      have hqm := g.mono (a.beats - (n + 1)) (n + 1) (by omega)
      rw [show n + 1 + (a.beats - (n + 1)) = a.beats by omega] at hqm
      have hqn := g.next n hn
      have hi : Q n + (l - lane n) < Q a.beats := by omega
      have hit : Q n + (l - lane n) < tx - offsetOf db a.addr := by
        rw [offset_mod]; omega
      have hadr := g.addr n hn (l - lane n) hjn (by rw [show lane n + (l - lane n) = l by omega]; exact hok)
      rw [show lane n + (l - lane n) = l by omega] at hadr
      unfold hwBeat
      rw [he, h2 n hn _ hjn, Nat.add_assoc, hfc _ hit, hd _ hit, ← hadr, hA _ hi]
      by_cases hwr : a.burst = .wrap
      · rw [if_pos hwr, if_pos hwr, htxn (by rw [hwr]; simp)]
      · rw [if_neg hwr, if_neg hwr]
        by_cases hf : a.burst = .fixed
        · rw [if_pos hf, if_pos hf]
        · rw [if_neg hf, if_neg hf, htxn hf]
  · obtain ⟨Q, L, lane, A, g, hl0, hpl, hend, hA⟩ := layout_plain hb h hr
    have hreq : (hwRead db a).rearranged db = false := by
      unfold Desc.rearranged
      rw [hbs, hax, Bool.and_eq_false_iff]
      by_cases h1 : 1 < a.beats
      · right
        rw [Bool.or_eq_false_iff]
        exact ⟨by simpa using fun hf => hr ⟨h1, Or.inl hf⟩, by simpa using fun hf => hr ⟨h1, Or.inr hf⟩⟩
      · left; simpa using h1
    have hprep : prepare db (hwRead db a) old = some (old, a.beats * db) := by
      unfold prepare
      simp only [hiw, hbs, hax]
      rw [if_neg (by simp), if_neg (fun hc => hr ⟨hc.1, Or.inr hc.2⟩)]
      rfl
    have htx0 : offsetOf db a.addr < a.beats * db := by rw [offset_mod]; omega
    have hQt : a.beats * db - offsetOf db a.addr = Q a.beats := by rw [offset_mod]; omega
    obtain ⟨d, hiss, hdl, hd⟩ := read_core db a old m (a.beats * db) htx0
    refine ⟨filled old (offsetOf db a.addr) d, ?_, ?_⟩
    · unfold process
      rw [hprep]
      simp only [hax, hiss, hiw, Bool.false_eq_true, if_false]
      have : finish db (hwRead db a) (a.beats * db) (filled old (offsetOf db a.addr) d) = some (filled old (offsetOf db a.addr) d) := by
        unfold finish
        rw [hreq]
        simp
      rw [this, Option.map_some]
    · intro n hn l hl hok
      obtain ⟨hc1, hc2⟩ := g.cover n hn l hl hok
      have hjn : l - lane n < L n := by omega
      have hqm := g.mono (a.beats - (n + 1)) (n + 1) (by omega)
      rw [show n + 1 + (a.beats - (n + 1)) = a.beats by omega] at hqm
      have hqn := g.next n hn
      have hpn := hpl n hn
      have hi : Q n + (l - lane n) < Q a.beats := by omega
      have hadr := g.addr n hn (l - lane n) hjn (by rw [show lane n + (l - lane n) = l by omega]; exact hok)
      rw [show lane n + (l - lane n) = l by omega] at hadr
      have he : n * db + l = lane 0 + (Q n + (l - lane n)) := by omega
      unfold hwBeat filled
      rw [he, if_pos ⟨by rw [offset_mod]; omega, by rw [offset_mod] at hdl ⊢; omega⟩]
      simp only []
      rw [show lane 0 + (Q n + (l - lane n)) - offsetOf db a.addr = Q n + (l - lane n) by rw [offset_mod]; omega]
      rw [hd _ (by omega), ← hadr, hA _ hi, hQt]

/-! ## Concrete bursts -/

/-- Three beats of two bytes from address 5 on a four-byte bus: lanes 1; 2, 3; 0, 1. -/
def demoAx : Ax := ⟨5, 2, 3, .incr⟩

def demoBeats : List WBeat :=
  [⟨fun l => BitVec.ofNat 8 (0x10 + l), fun l => l == 1, false⟩,
   ⟨fun l => BitVec.ofNat 8 (0x20 + l), fun l => l == 2 || l == 3, false⟩,
   ⟨fun l => BitVec.ofNat 8 (0x30 + l), fun l => l == 0, true⟩]

theorem demo_legal : Legal 4 demoAx where
  size := ⟨1, rfl⟩
  narrow := ⟨2, rfl⟩
  some_beat := by decide
  max := by decide
  page := by decide
  wrap := by intro h; cases h

/-- The hypotheses of `write_right_partial` and `read_right_partial` are met by a
narrow, unaligned burst. -/
example : Bus 4 ∧ Legal 4 demoAx ∧ NotShortWrap 4 demoAx ∧
    demoAx.slaveWrite 4 demoBeats = some [(5, 0x11), (6, 0x22), (7, 0x23), (8, 0x30)] :=
  ⟨⟨2, by decide, rfl⟩, demo_legal, by (intro h; cases h), by decide +kernel⟩

example : (process 4 (hwWrite 4 demoAx demoBeats) memT (fun _ => 0) (hwBuf 4 demoBeats fun _ => (0xee, true))).map
    (fun r => ((List.range 12).map r.1, r.2.2)) = some ([0, 0, 0, 0, 0, 0x11, 0x22, 0x23, 0x30, 0, 0, 0], .ok) := by decide +kernel

example : (process 4 (hwRead 4 demoAx) memT (fun a => BitVec.ofNat 8 a) (fun _ => (0xee, true))).map
    (fun r => ((List.range 12).map fun i => (r.2.1 i).1)) =
    some [0xee, 5, 6, 7, 8, 9, 6, 7, 8, 9, 0xee, 0xee] := by decide +kernel

/-- A wrapping burst as long as the bus: two beats of two bytes from address 6. -/
example : Legal 4 ⟨6, 2, 2, .wrap⟩ ∧ NotShortWrap 4 ⟨6, 2, 2, .wrap⟩ ∧
    (process 4 (hwRead 4 ⟨6, 2, 2, .wrap⟩) memT (fun a => BitVec.ofNat 8 a) (fun _ => (0xee, true))).map
      (fun r => ((List.range 8).map fun i => (r.2.1 i).1)) = some [0xee, 0xee, 6, 7, 4, 5, 0xee, 0xee] :=
  ⟨⟨⟨1, rfl⟩, ⟨2, rfl⟩, by decide, by decide, by (intro h; cases h), by decide⟩, by (intro _; decide), by decide +kernel⟩

/-! ## Bursts the bridge gets wrong -/

/-- Two beats of one byte that wrap inside a four-byte bus word. -/
def shortWrap : Ax := ⟨1, 1, 2, .wrap⟩

theorem short_legal : Legal 4 shortWrap where
  size := ⟨0, rfl⟩
  narrow := ⟨4, rfl⟩
  some_beat := by decide
  max := by decide
  page := by intro h; cases h
  wrap := by intro _; decide

/-- **C54, failure.** A legal wrapping write shorter than the bus loses bytes: the
second beat's byte is taken from the wrong lane, where the strobe is unset. -/
theorem short_wrap_write_wrong : ∃ (a : Ax) (bs : List WBeat) (ws : List (Nat × Byte)) (m : Mem), Legal 4 a ∧
    a.slaveWrite 4 bs = some ws ∧
    applyWrites m ws 0 = 0x20 ∧
    ∀ old, (process 4 (hwWrite 4 a bs) memT m (hwBuf 4 bs old)).map (fun r => (r.1 0, r.2.2)) = some (0, .ok) := by
  refine ⟨shortWrap, [⟨fun _ => 0x10, fun l => l == 1, false⟩, ⟨fun _ => 0x20, fun l => l == 0, true⟩],
    [(1, 0x10), (0, 0x20)], fun _ => 0, short_legal, by decide +kernel, rfl, ?_⟩
  intro old
  with_unfolding_all rfl

/-- **C54, failure.** A legal wrapping read shorter than the bus returns its second
byte on the wrong lane; the lane the master looks at keeps what the buffer held
before. -/
theorem short_wrap_read_wrong : ∃ (a : Ax) (m : Mem), Legal 4 a ∧
    a.laneOk 4 1 0 ∧ m (a.laneAddr 4 1 0) = 0x20 ∧
    ∀ old : Buf, (process 4 (hwRead 4 a) memT m old).map (fun r => (hwBeat 4 r.2.1 1 0, r.2.2)) = some ((old 4).1, .ok) := by
  refine ⟨shortWrap, fun _ => 0x20, short_legal, by decide, rfl, ?_⟩
  intro old
  with_unfolding_all rfl

/-- **C54, side effects.** A single-beat read asks the target for every byte up to
the end of the bus word, whatever its size: reading one byte at address 0 of an
eight-byte bus reads eight.  (Harmless for memory, not for registers that change
when read.) -/
theorem narrow_read_overreads : ∃ a : Ax, Legal 8 a ∧ a.nb * a.beats = 1 ∧
    ∀ f : Buf, ∃ tx, prepare 8 (hwRead 8 a) f = some (f, tx) ∧ (payload 8 (hwRead 8 a) f tx).len = 8 :=
  ⟨⟨0, 1, 1, .incr⟩, ⟨⟨0, rfl⟩, ⟨8, rfl⟩, by decide, by decide, by (intro _; decide), by (intro h; cases h)⟩, rfl,
    fun _ => ⟨_, rfl, rfl⟩⟩

/-- **C54.** A fixed burst of unaligned full-width beats reads more bytes from its
address than it returns: two beats of three bytes read seven. -/
theorem fixed_read_overreads : ∃ a : Ax, Legal 4 a ∧ a.burst = .fixed ∧ a.beats * firstLen a = 6 ∧
    ∀ f : Buf, ∃ tx, prepare 4 (hwRead 4 a) f = some (f, tx) ∧ (payload 4 (hwRead 4 a) f tx).len = 7 :=
  ⟨⟨1, 4, 2, .fixed⟩, ⟨⟨2, rfl⟩, ⟨1, rfl⟩, by decide, by decide, by (intro h; cases h), by (intro h; cases h)⟩, rfl, by decide,
    fun _ => ⟨_, rfl, rfl⟩⟩

/-- **C54, exact reads.** Narrow bursts of several beats, incrementing or wrapping,
read exactly the bytes they return. -/
theorem narrow_read_exact (db : Nat) (hb : Bus db) (a : Ax) (h : Legal db a) (hn : a.nb < db) (hm : 1 < a.beats) (f : Buf) :
    ∃ tx, prepare db (hwRead db a) f = some (f, tx) ∧
      (payload db (hwRead db a) f tx).len = a.nb * a.beats - a.addr % a.nb := by
  have hbs : (hwRead db a).beats db = a.beats := by
    unfold Desc.beats
    exact desc_beats hb h
  have hmle : a.addr % a.nb ≤ a.addr % db := by
    rw [← Nat.mod_mod_of_dvd a.addr h.narrow]; exact Nat.mod_le _ _
  have hbn : a.nb * 1 ≤ a.nb * a.beats := Nat.mul_le_mul_left _ h.some_beat
  have := Nat.mod_lt a.addr (nb_pos h)
  refine ⟨a.addr % db + a.nb * a.beats - a.addr % a.nb, ?_, ?_⟩
  · unfold prepare
    simp only [hbs]
    rw [if_neg (by simp [hwRead]), if_pos ⟨hm, hn⟩, offset_mod]
    simp only [hwRead]
    rw [and_mod _ _ h.size]
  · unfold payload Gp.len
    simp only [List.length_map, List.length_range, offset_mod, hwRead]
    omega

example : demoAx.nb < 4 ∧ 1 < demoAx.beats ∧ Legal 4 demoAx := ⟨by decide, by decide, demo_legal⟩

/-! ## Responses -/

/-- Descriptor `e`'s response in the register. -/
def respOf (r : BitVec 32) (e : Nat) : BitVec 32 := (r >>> (e * 2)) &&& 3#32

/-- **C54, responses.** Posting a descriptor's response makes the register show it
and leaves the other fifteen as they were. -/
theorem resp_fields (r : BitVec 32) (d e : Nat) (hd : d < 16) (he : e < 16) (x : AxiResp.Resp) :
    respOf (setResp r d (respCode x)) e = if e = d then respCode x else respOf r e := by
  have h3 : ∀ i, (3#32).getLsbD i = decide (i < 2) := by
    intro i
    rcases Nat.lt_or_ge i 32 with hi | hi
    · have : ∀ i : Fin 32, (3#32).getLsbD i = decide (i.1 < 2) := by decide
      exact this ⟨i, hi⟩
    · rw [BitVec.getLsbD_of_ge _ _ hi]
      symm; simp; omega
  have hx : ∀ i, 2 ≤ i → (respCode x).getLsbD i = false := by
    intro i h2
    rcases Nat.lt_or_ge i 32 with hi | hi
    · have : ∀ i : Fin 32, 2 ≤ i.1 → (respCode x).getLsbD i = false := by cases x <;> decide
      exact this ⟨i, hi⟩ h2
    · exact BitVec.getLsbD_of_ge _ _ hi
  apply BitVec.eq_of_getLsbD_eq
  intro i hi
  unfold respOf setResp
  by_cases h2 : i < 2
  · have hlt : e * 2 + i < 32 := by omega
    by_cases hed : e = d
    · subst hed
      rw [if_pos rfl]
      simp only [BitVec.getLsbD_and, BitVec.getLsbD_or, BitVec.getLsbD_ushiftRight, BitVec.getLsbD_shiftLeft, BitVec.getLsbD_not, h3]
      simp [h2, hlt, show ¬ (e * 2 + i < e * 2) by omega]
    · rw [if_neg hed]
      simp only [BitVec.getLsbD_and, BitVec.getLsbD_or, BitVec.getLsbD_ushiftRight, BitVec.getLsbD_shiftLeft, BitVec.getLsbD_not, h3]
      rcases Nat.lt_or_ge e d with h | h
      · simp [h2, hlt, show e * 2 + i < d * 2 by omega]
      · have h4 : ¬ (e * 2 + i < d * 2) := by omega
        have h5 : ¬ (e * 2 + i - d * 2 < 2) := by omega
        rw [hx (e * 2 + i - d * 2) (by omega)]
        simp [h2, hlt, h5]
  · by_cases hed : e = d
    · rw [if_pos hed, hx i (by omega), BitVec.getLsbD_and, h3]
      simp [h2]
    · rw [if_neg hed, BitVec.getLsbD_and, BitVec.getLsbD_and, h3]
      simp [h2]

example : respOf (setResp 0xe4e4e4e4 3 (respCode .slverr)) 3 = 2 ∧ respOf (setResp 0xe4e4e4e4 3 (respCode .slverr)) 2 = 2 := by
  decide

/-- **C54, failure.** The "exclusive handled" flag of a descriptor's payload is
never cleared: once a target has set it for an exclusive access, every later
successful access through that descriptor, exclusive or not and whatever its
target says, is answered EXOKAY. -/
theorem stale_exokay (flag excl : Bool) (st : Status) (later : List (Bool × Bool)) :
    ∀ x ∈ later, ∀ l1 l2, later = l1 ++ x :: l2 →
      (respond (l1.foldl (fun f y => (respond f y.1 y.2 .ok).1) (respond flag true excl st).1) x.1 x.2 .ok).2 = .exokay := by
  intro x _ l1 l2 _
  have : ∀ l : List (Bool × Bool), l.foldl (fun f y => (respond f y.1 y.2 .ok).1) true = true := by
    intro l
    induction l with
    | nil => rfl
    | cons y l ih => rw [List.foldl_cons]; simp only [respond, Bool.true_or]; exact ih
  rw [show (respond flag true excl st).1 = true by simp [respond], this]
  rfl

/-- An ordinary access whose target marks nothing, after an exclusive one. -/
example : (respond (respond false true true .ok).1 false false .ok).2 = .exokay ∧ (respond false false false .ok).2 = .okay :=
  ⟨rfl, rfl⟩

end Verif.HwSlave
