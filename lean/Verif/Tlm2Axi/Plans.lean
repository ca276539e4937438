import Verif.Tlm2Axi.Lemmas
import Verif.Tlm2Axi.Spec

namespace Verif.Tlm2Axi
open Verif Verif.Axi

theorem enabled_eq (be : List Bool) (i : Nat) : enabled be i = beEnabled be i := by
  unfold enabled beEnabled
  cases be with
  | nil => rfl
  | cons b bs =>
    rw [if_neg (by simp), List.getD_eq_getElem?_getD]
    have : i % (b :: bs).length < (b :: bs).length := Nat.mod_lt _ (by simp)
    rw [List.getElem?_eq_getElem this]
    rfl

theorem tlmWrites_spec (p : Gp) (A : Nat → Nat) (h : ∀ i, i < p.len → A i = tlmAddr p i) :
    tlmWrites p A 0 p.len = specWrites p := by
  unfold tlmWrites specWrites
  rw [List.range_eq_range']
  apply filterMap_congr'
  intro i hi
  rw [List.mem_range'_1] at hi
  rw [enabled_eq, h i (by omega)]

/-- The part of a plan that incrementing and wrapping bursts share. -/
theorem incr_wlen (db : Nat) (t : Tr) (hdb : 0 < db) (hbw : 0 < t.bw) (hdvd : t.bw ∣ db) (hnf : t.burst ≠ .fixed)
    (hsw : t.gp.len ≤ t.gp.sw) (n : Nat) (hin : startOf t.gp.addr t.bw n < t.gp.len) :
    wlen db t (n + 1) (startOf t.gp.addr t.bw n) (startOf t.gp.addr t.bw n) =
      min t.gp.len (startOf t.gp.addr t.bw (n + 1)) - startOf t.gp.addr t.bw n := by
  have h1 := startOf_next t.gp.addr t.bw n hbw
  have h2 := room (t.gp.addr + startOf t.gp.addr t.bw n) db t.bw hbw hdvd hdb
  have h3 := startOf_mod t.gp.addr t.bw n hbw
  have h4 := Nat.mod_lt t.gp.addr hbw
  have h5 := Nat.mod_lt (t.gp.addr + startOf t.gp.addr t.bw n) hdb
  generalize hs : startOf t.gp.addr t.bw n = s at *
  generalize startOf t.gp.addr t.bw (n + 1) = s' at *
  simp only [wlen_min, Nat.mod_eq_of_lt (show s < t.gp.sw by omega)]
  generalize (t.gp.addr + s) % db = o at *
  generalize (t.gp.addr + s) % t.bw = r at *
  generalize t.gp.addr % t.bw = r0 at *
  by_cases hn : n = 0
  · simp only [hn, if_true, Nat.zero_add, or_true] at h3 ⊢
    omega
  · simp only [hn, if_false, hnf, false_or, show ¬(n + 1 = 1) by omega] at h3 ⊢
    omega

/-- The read path takes the same number of bytes per beat as the write path. -/
theorem incr_rlen (db : Nat) (t : Tr) (hdb : 0 < db) (hbw : 0 < t.bw) (hdvd : t.bw ∣ db)
    (hsw : t.gp.len ≤ t.gp.sw) (n : Nat) (hin : startOf t.gp.addr t.bw n < t.gp.len) :
    readlen db t (startOf t.gp.addr t.bw n) (t.gp.len - startOf t.gp.addr t.bw n) =
      min t.gp.len (startOf t.gp.addr t.bw (n + 1)) - startOf t.gp.addr t.bw n := by
  have h1 := startOf_next t.gp.addr t.bw n hbw
  have h2 := room (t.gp.addr + startOf t.gp.addr t.bw n) db t.bw hbw hdvd hdb
  have h5 := Nat.mod_lt (t.gp.addr + startOf t.gp.addr t.bw n) hdb
  generalize hs : startOf t.gp.addr t.bw n = s at *
  generalize startOf t.gp.addr t.bw (n + 1) = s' at *
  simp only [readlen_min, Nat.mod_eq_of_lt (show s < t.gp.sw by omega)]
  omega

theorem incr_plan (db : Nat) (t : Tr) (hdb : 0 < db) (hbw : 0 < t.bw) (hdvd : t.bw ∣ db) (hnf : t.burst ≠ .fixed)
    (hlen : 0 < t.gp.len) (hsw : t.gp.len ≤ t.gp.sw) (hN : t.numBeats = (t.gp.len + t.gp.addr % t.bw + t.bw - 1) / t.bw) (A : Nat → Nat)
    (hlane : ∀ n, n < t.numBeats → ∀ k, k < t.bw - (t.gp.addr + startOf t.gp.addr t.bw n) % t.bw → startOf t.gp.addr t.bw n + k < t.gp.len →
      t.ax.laneOk db n ((t.gp.addr + startOf t.gp.addr t.bw n) % db + k) ∧
      t.ax.laneAddr db n ((t.gp.addr + startOf t.gp.addr t.bw n) % db + k) = A (startOf t.gp.addr t.bw n + k)) :
    Plan db t (fun n => min t.gp.len (startOf t.gp.addr t.bw n)) (fun n => min t.gp.len (startOf t.gp.addr t.bw n))
      (fun n => min t.gp.len (startOf t.gp.addr t.bw (n + 1)) - min t.gp.len (startOf t.gp.addr t.bw n)) A t.numBeats := by
  obtain ⟨b1, b2, b3⟩ := numBeats_bounds t.gp.len (t.gp.addr % t.bw) t.bw t.numBeats hbw hlen (Nat.mod_lt _ hbw) hN
  have hin : ∀ n, n < t.numBeats → startOf t.gp.addr t.bw n < t.gp.len := by
    intro n hn
    have := startOf_mono t.gp.addr t.bw n (t.numBeats - 1) (by omega)
    unfold startOf at this ⊢
    omega
  have hmin : ∀ n, n < t.numBeats → min t.gp.len (startOf t.gp.addr t.bw n) = startOf t.gp.addr t.bw n := by
    intro n hn; have := hin n hn; omega
  have hstep : ∀ n, n < t.numBeats → startOf t.gp.addr t.bw n < startOf t.gp.addr t.bw (n + 1) := by
    intro n hn
    have := startOf_next t.gp.addr t.bw n hbw
    have := Nat.mod_lt (t.gp.addr + startOf t.gp.addr t.bw n) hbw
    omega
  refine ⟨?_, ?_, ?_, ?_, ?_, ?_, ?_, ?_, ?_⟩
  · intro n hn
    simp only [hmin n hn]
    exact incr_wlen db t hdb hbw hdvd hnf hsw n (hin n hn)
  · intro n hn; have := hin n hn; have := hstep n hn; omega
  · intro n hn; have := hstep n hn; omega
  · intro n hn; have := hstep n hn; simp only [if_neg hnf]; omega
  · intro n hn; have := hin n hn; omega
  · unfold startOf; omega
  · intro n hn
    have h1 := hin n hn
    have h2 := startOf_next t.gp.addr t.bw n hbw
    have h3 := room (t.gp.addr + startOf t.gp.addr t.bw n) db t.bw hbw hdvd hdb
    simp only [hmin n hn, Nat.mod_eq_of_lt (show startOf t.gp.addr t.bw n < t.gp.sw by omega)]
    omega
  · intro n hn k hk
    have h1 := hin n hn
    have h2 := startOf_next t.gp.addr t.bw n hbw
    simp only [hmin n hn] at hk ⊢
    rw [Nat.mod_eq_of_lt (show startOf t.gp.addr t.bw n < t.gp.sw by omega)]
    exact hlane n hn k (by omega) (by omega)
  · intro n hn
    simp only [hmin n hn]
    exact incr_rlen db t hdb hbw hdvd hsw n (hin n hn)

theorem rplan_from (db : Nat) (t : Tr) (P ap w A : Nat → Nat) (h : Plan db t P ap w A t.numBeats)
    (mem : Nat → Byte) (bs : List RBeat) (hbs : ∀ n, n < t.numBeats → ∃ b, bs[n]? = some b ∧ t.ax.readBeatOk db mem n b.data ∧
      (b.last = true → n + 1 = t.numBeats)) (bl : RBeat) (hbl : bs[t.numBeats - 1]? = some bl) :
    ∀ (d n : Nat), n + d + 1 = t.numBeats → ∀ buf : Nat → Byte,
    ∃ buf', readLoop db t (bs.drop n) (ap n) (P n) (t.gp.len - P n) buf = some (buf', bl.resp, bs.drop t.numBeats) ∧
      ∀ i, buf' i = if P n ≤ i ∧ i < t.gp.len ∧ enabled t.gp.be i = true then mem (A i) else buf i := by
  intro d
  induction d with
  | zero =>
    intro n hn buf
    have hlt : n < t.numBeats := by omega
    obtain ⟨b, hb, hok, hl⟩ := hbs n hlt
    have hdrop : bs.drop n = b :: bs.drop (n + 1) := by
      obtain ⟨hlen, he⟩ := List.getElem?_eq_some_iff.mp hb
      rw [List.drop_eq_getElem_cons hlen, he]
    have hin := h.inside n hlt
    have hnext := h.next n hlt
    have hfin := h.fin
    rw [show t.numBeats = n + 1 by omega] at hfin
    have hw : t.gp.len - P n - w n = 0 := by omega
    rw [hdrop, readLoop]
    simp only [h.rlen n hlt, hw]
    rw [if_neg (by simp), if_pos trivial]
    have e : bl = b := by
      rw [show t.numBeats - 1 = n by omega, hb] at hbl; exact (Option.some.inj hbl).symm
    refine ⟨_, by rw [e, show t.numBeats = n + 1 by omega], ?_⟩
    intro i
    unfold copyBeat
    by_cases hi : P n ≤ i ∧ i < t.gp.len ∧ enabled t.gp.be i = true
    · rw [if_pos hi, if_pos ⟨hi.1, by omega, hi.2.2⟩]
      have hk := h.lane n hlt (i - P n) (by omega)
      have hf := h.fit n hlt
      show b.data _ = _
      rw [hok _ (by omega) hk.1, hk.2, show P n + (i - P n) = i by omega]
    · rw [if_neg hi, if_neg (by intro hc; exact hi ⟨hc.1, by omega, hc.2.2⟩)]
  | succ d ih =>
    intro n hn buf
    have hlt : n < t.numBeats := by omega
    obtain ⟨b, hb, hok, hl⟩ := hbs n hlt
    have hdrop : bs.drop n = b :: bs.drop (n + 1) := by
      obtain ⟨hlen, he⟩ := List.getElem?_eq_some_iff.mp hb
      rw [List.drop_eq_getElem_cons hlen, he]
    have hin := h.inside n hlt
    have hin' := h.inside (n + 1) (by omega)
    have hnext := h.next n hlt
    rw [hdrop, readLoop]
    simp only [h.rlen n hlt]
    have hnl : b.last = false := by
      cases hc : b.last with
      | false => rfl
      | true => have := hl hc; omega
    rw [if_neg (by simp [hnl]), if_neg (by omega)]
    rw [show t.gp.len - P n - w n = t.gp.len - P (n + 1) by omega, ← hnext, ← h.nextAp n hlt]
    obtain ⟨buf', h1, h2⟩ := ih (n + 1) (by omega) (copyBeat t.gp.be buf (P n) (w n)
      (fun k => b.data ((t.gp.addr + ap n % t.gp.sw) % db + k)))
    refine ⟨buf', h1, ?_⟩
    intro i
    rw [h2 i]
    unfold copyBeat
    by_cases hA : P (n + 1) ≤ i ∧ i < t.gp.len ∧ enabled t.gp.be i = true
    · rw [if_pos hA, if_pos ⟨by omega, hA.2⟩]
    · rw [if_neg hA]
      by_cases hi : P n ≤ i ∧ i < P n + w n ∧ enabled t.gp.be i = true
      · rw [if_pos hi, if_pos ⟨hi.1, by omega, hi.2.2⟩]
        have hk := h.lane n hlt (i - P n) (by omega)
        have hf := h.fit n hlt
        show b.data _ = _
        rw [hok _ (by omega) hk.1, hk.2, show P n + (i - P n) = i by omega]
      · rw [if_neg hi, if_neg (by
          intro hc
          by_cases h3 : i < P n + w n
          · exact hi ⟨hc.1, h3, hc.2.2⟩
          · exact hA ⟨by omega, hc.2⟩)]

theorem rplan_read (db : Nat) (t : Tr) (P ap w A : Nat → Nat) (h : Plan db t P ap w A t.numBeats) (h0 : P 0 = 0) (ha : ap 0 = 0)
    (hN : 0 < t.numBeats) (mem : Nat → Byte) (bs : List RBeat)
    (hbs : ∀ n, n < t.numBeats → ∃ b, bs[n]? = some b ∧ t.ax.readBeatOk db mem n b.data ∧ (b.last = true → n + 1 = t.numBeats))
    (bl : RBeat) (hbl : bs[t.numBeats - 1]? = some bl) :
    ∃ buf', readBeats db t bs = some (buf', bl.resp, bs.drop t.numBeats) ∧
      ∀ i, buf' i = if i < t.gp.len ∧ enabled t.gp.be i = true then mem (A i) else t.gp.data i := by
  obtain ⟨buf', h1, h2⟩ := rplan_from db t P ap w A h mem bs hbs bl hbl (t.numBeats - 1) 0 (by omega) t.gp.data
  rw [h0, ha, List.drop_zero, Nat.sub_zero] at h1
  refine ⟨buf', h1, ?_⟩
  intro i
  rw [h2 i, h0]
  simp

/-- The beats follow a plan that puts every byte at its TLM address. -/
def Good (db : Nat) (t : Tr) : Prop :=
  ∃ P ap w A, Plan db t P ap w A t.numBeats ∧ P 0 = 0 ∧ ap 0 = 0 ∧ 0 < t.numBeats ∧ (∀ i, i < t.gp.len → A i = tlmAddr t.gp i) ∧
    ((t.burst ≠ .fixed ∨ t.gp.be.length ∣ t.gp.sw) → EnOk t P ap w t.numBeats)

theorem Good.write {db : Nat} {t : Tr} (hdb : 0 < db) (h : Good db t) (hbe : t.burst ≠ .fixed ∨ t.gp.be.length ∣ t.gp.sw) :
    t.ax.slaveWrite db (writeBeats db t) = some (specWrites t.gp) := by
  obtain ⟨P, ap, w, A, hp, h0, ha, _, hA, hen⟩ := h
  rw [plan_writes db hdb t P ap w A hp (hen hbe) h0 ha, tlmWrites_spec t.gp A hA]

theorem Good.read {db : Nat} {t : Tr} (h : Good db t) (mem : Nat → Byte) (bs : List RBeat)
    (hbs : ∀ n, n < t.numBeats → ∃ b, bs[n]? = some b ∧ t.ax.readBeatOk db mem n b.data ∧ (b.last = true → n + 1 = t.numBeats))
    (bl : RBeat) (hbl : bs[t.numBeats - 1]? = some bl) :
    readBeats db t bs = some (specRead t.gp mem, bl.resp, bs.drop t.numBeats) := by
  obtain ⟨P, ap, w, A, hp, h0, ha, hN, hA, _⟩ := h
  obtain ⟨buf', h1, h2⟩ := rplan_read db t P ap w A hp h0 ha hN mem bs hbs bl hbl
  rw [h1]
  have : buf' = specRead t.gp mem := by
    funext i
    rw [h2 i, specRead, enabled_eq]
    split
    · rename_i h; rw [hA i h.1]
    · rfl
  rw [this]

theorem incr_en (t : Tr) (P w : Nat → Nat) (N : Nat) : EnOk t P P w N := by
  intro n _ k _; rw [Nat.add_comm]

theorem good_incr (db : Nat) (p : Gp) (t : Tr) (hdb : 0 < db) (ht : mkTr db p = some t) (hw : p.wrap = false)
    (hlen : 0 < p.len) (hsw : p.len ≤ p.sw) (hdvd : t.bw ∣ db) (hsmall : p.len + 2 * db < 2 ^ 32) :
    Good db t ∧ t.gp = p := by
  have hbw : 0 < t.bw := Nat.pos_of_ne_zero (by intro h; rw [h] at hdvd; have := Nat.eq_zero_of_zero_dvd hdvd; omega)
  have hble := Nat.le_of_dvd hdb hdvd
  have hs : setupBurstType db p = some (.incr, p.burstWidth) := by
    unfold setupBurstType; rw [if_neg (by simp [hw]), if_pos hsw]
  unfold mkTr at ht
  rw [hs] at ht
  simp only [Option.some.injEq] at ht
  have hgp : t.gp = p := by rw [← ht]
  have hburst : t.burst = .incr := by rw [← ht]
  have hN : t.numBeats = (t.gp.len + t.gp.addr % t.bw + t.bw - 1) / t.bw := by
    have : t.numBeats = setupNumBeats p.addr p.len t.bw .incr := by rw [← ht]
    rw [this, setupNumBeats_incr _ _ _ _ (by simp) hbw (by omega), hgp]
  subst hgp
  have hplan := incr_plan db t hdb hbw hdvd (by rw [hburst]; simp) hlen hsw hN (fun i => t.gp.addr + i) (by
    intro n hn k hk _
    have hba : t.ax.beatAddr n = t.gp.addr + startOf t.gp.addr t.bw n := by
      unfold Ax.beatAddr Tr.ax
      simp only [hburst]
      split
      · rename_i h; subst h; simp [startOf]
      · rw [startOf_succ_mod _ _ _ hbw (by omega)]
    have hg := lane_geom (t.gp.addr + startOf t.gp.addr t.bw n) t.bw db k hk
    unfold Ax.laneOk Ax.lower Ax.upper Ax.laneAddr
    rw [hba, show t.ax.nb = t.bw from rfl]
    exact ⟨⟨hg.1, hg.2.1⟩, by rw [hg.2.2]; omega⟩)
  refine ⟨⟨_, _, _, _, hplan, by simp [startOf], by simp [startOf], (numBeats_bounds t.gp.len (t.gp.addr % t.bw) t.bw t.numBeats hbw hlen (Nat.mod_lt _ hbw) hN).2.2, ?_, fun _ => incr_en _ _ _ _⟩, rfl⟩
  intro i hi
  simp only [tlmAddr, hw, Bool.false_eq_true, if_false]
  rw [Nat.mod_eq_of_lt (by omega)]

theorem good_wrap (db : Nat) (p : Gp) (t : Tr) (hdb : 0 < db) (ht : mkTr db p = some t) (hw : p.wrap = true)
    (hlen : 0 < p.len) (hsw : p.sw = p.len) (hdvd : t.bw ∣ db) (hblk : db ∣ p.len) (hal : p.addr % t.bw = 0)
    (hsmall : p.len + 2 * db < 2 ^ 32) :
    Good db t ∧ t.gp = p := by
  have hbw : 0 < t.bw := Nat.pos_of_ne_zero (by intro h; rw [h] at hdvd; have := Nat.eq_zero_of_zero_dvd hdvd; omega)
  have hble := Nat.le_of_dvd hdb hdvd
  have hs : setupBurstType db p = some (.wrap, p.burstWidth) := by
    unfold setupBurstType; rw [if_pos ⟨hsw, hw⟩]
  unfold mkTr at ht
  rw [hs] at ht
  simp only [Option.some.injEq] at ht
  have hgp : t.gp = p := by rw [← ht]
  have hburst : t.burst = .wrap := by rw [← ht]
  have hN : t.numBeats = (t.gp.len + t.gp.addr % t.bw + t.bw - 1) / t.bw := by
    have : t.numBeats = setupNumBeats p.addr p.len t.bw .wrap := by rw [← ht]
    rw [this, setupNumBeats_incr _ _ _ _ (by simp) hbw (by omega), hgp]
  subst hgp
  obtain ⟨q, hq⟩ := hdvd
  obtain ⟨m, hm⟩ := hblk
  have hlenq : t.gp.len = t.bw * (q * m) := by rw [hm, hq, Nat.mul_assoc]
  have htot : t.bw * t.numBeats = t.gp.len := by
    rw [hN, hal, hlenq, Nat.add_zero, Nat.add_sub_assoc hbw, Nat.mul_add_div hbw, Nat.div_eq_of_lt (by omega), Nat.add_zero]
  have hst : ∀ n, startOf t.gp.addr t.bw n = n * t.bw := by intro n; simp [startOf, hal]
  have hplan := incr_plan db t hdb hbw ⟨q, hq⟩ (by rw [hburst]; simp) hlen (by omega) hN
    (fun i => t.gp.addr / t.gp.len * t.gp.len + (t.gp.addr % t.gp.len + i) % t.gp.len) (by
    intro n hn k hk hkl
    rw [hst] at hk hkl ⊢
    -- the address without wrapping, and the two forms of the beat address
    obtain ⟨c, hc⟩ := Nat.dvd_of_mod_eq_zero hal
    have e0 := Nat.div_add_mod t.gp.addr t.gp.len
    rw [Nat.mul_comm] at e0
    have hr := Nat.mod_lt t.gp.addr hlen
    have hnl : n * t.bw + t.bw ≤ t.gp.len := by
      rw [← htot, ← Nat.succ_mul, Nat.mul_comm t.bw]; exact Nat.mul_le_mul_right _ hn
    have hrd : t.bw ∣ t.gp.addr % t.gp.len := by
      rw [Nat.dvd_mod_iff ⟨q * m, hlenq⟩]; exact ⟨c, hc⟩
    have hxm : (t.gp.addr + n * t.bw) % t.bw = 0 := by rw [Nat.add_mul_mod_self_right]; exact hal
    rw [hxm] at hk
    have hba : t.ax.beatAddr n = if t.gp.addr + n * t.bw < t.gp.addr / t.gp.len * t.gp.len + t.gp.len then t.gp.addr + n * t.bw
        else t.gp.addr + n * t.bw - t.gp.len := by
      unfold Ax.beatAddr Tr.ax
      simp only [hburst, htot]
      rw [show t.gp.addr / t.bw * t.bw = t.gp.addr by rw [hc, Nat.mul_div_cancel_left _ hbw, Nat.mul_comm]]
    have hlow : t.gp.len ≤ t.gp.addr + n * t.bw ∨ t.gp.addr + n * t.bw < t.gp.addr / t.gp.len * t.gp.len + t.gp.len := by omega
    generalize hlo : t.gp.addr / t.gp.len * t.gp.len = lo at *
    by_cases hcase : t.gp.addr + n * t.bw < lo + t.gp.len
    · rw [if_pos hcase] at hba
      have hg := lane_geom (t.gp.addr + n * t.bw) t.bw db k (by rw [hxm]; exact hk)
      unfold Ax.laneOk Ax.lower Ax.upper Ax.laneAddr
      rw [hba, show t.ax.nb = t.bw from rfl]
      refine ⟨⟨hg.1, hg.2.1⟩, ?_⟩
      rw [hg.2.2]
      -- the beat does not cross the end of the block
      have : t.gp.addr % t.gp.len + n * t.bw + t.bw ≤ t.gp.len := by
        obtain ⟨r, hrr⟩ := hrd
        have h1 : t.bw * r + n * t.bw < t.bw * (q * m) := by rw [← hrr, ← hlenq]; omega
        rw [Nat.mul_comm n, ← Nat.mul_add] at h1
        have h2 : r + n < q * m := Nat.lt_of_mul_lt_mul_left h1
        rw [hrr, hlenq, Nat.mul_comm n, ← Nat.mul_add, ← Nat.mul_succ]
        exact Nat.mul_le_mul_left _ h2
      rw [Nat.mod_eq_of_lt (show t.gp.addr % t.gp.len + (n * t.bw + k) < t.gp.len by omega)]
      omega
    · rw [if_neg hcase] at hba
      have hsub : (t.gp.addr + n * t.bw - t.gp.len) + t.gp.len = t.gp.addr + n * t.bw := by omega
      have hmod : (t.gp.addr + n * t.bw) % db = (t.gp.addr + n * t.bw - t.gp.len) % db := by
        rw [← hsub, hm, Nat.add_mul_mod_self_left, Nat.add_sub_cancel]
      have hmodb : (t.gp.addr + n * t.bw - t.gp.len) % t.bw = 0 := by
        rw [← hxm, ← hsub]
        conv => rhs; rw [hlenq, Nat.add_mul_mod_self_left]
        rw [← hlenq, Nat.add_sub_cancel]
      rw [hmod]
      have hg := lane_geom (t.gp.addr + n * t.bw - t.gp.len) t.bw db k (by rw [hmodb]; exact hk)
      unfold Ax.laneOk Ax.lower Ax.upper Ax.laneAddr
      rw [hba, show t.ax.nb = t.bw from rfl]
      refine ⟨⟨hg.1, hg.2.1⟩, ?_⟩
      rw [hg.2.2, Nat.mod_eq_sub_mod (show t.gp.len ≤ t.gp.addr % t.gp.len + (n * t.bw + k) by omega),
        Nat.mod_eq_of_lt (by omega)]
      omega)
  refine ⟨⟨_, _, _, _, hplan, by simp [startOf], by simp [startOf], (numBeats_bounds t.gp.len (t.gp.addr % t.bw) t.bw t.numBeats hbw hlen (Nat.mod_lt _ hbw) hN).2.2, ?_, fun _ => incr_en _ _ _ _⟩, rfl⟩
  intro i hi
  simp only [tlmAddr, hw, if_true]

theorem good_fixed (db : Nat) (p : Gp) (t : Tr) (hdb : 0 < db) (ht : mkTr db p = some t) (hw : p.wrap = false)
    (hsw0 : 0 < p.sw) (hsw : p.sw < p.len) (hbs : t.bw = p.sw) (hfx : t.burst = .fixed) (hdvd : p.sw ∣ db) (hal : p.addr % p.sw = 0)
    (hsmall : p.len + 2 * db < 2 ^ 32) :
    Good db t ∧ t.gp = p := by
  have hble := Nat.le_of_dvd hdb hdvd
  have hgp : t.gp = p ∧ t.numBeats = setupNumBeats p.addr p.len t.bw t.burst := by
    unfold mkTr at ht
    cases h : setupBurstType db p with
    | none => rw [h] at ht; cases ht
    | some x => rw [h] at ht; simp only [Option.some.injEq] at ht; rw [← ht]; exact ⟨rfl, rfl⟩
  obtain ⟨hgp, hN⟩ := hgp
  subst hgp
  rw [hfx, hbs, setupNumBeats_fixed _ _ _ hsw0 hal (by omega)] at hN
  obtain ⟨b1, b2, b3⟩ := numBeats_bounds t.gp.len 0 t.gp.sw t.numBeats hsw0 (by omega) hsw0 (by rw [hN]; rfl)
  rw [Nat.sub_zero] at b1 b2
  have hin : ∀ n, n < t.numBeats → n * t.gp.sw < t.gp.len := by
    intro n hn
    have := Nat.mul_le_mul_right t.gp.sw (show n ≤ t.numBeats - 1 by omega)
    omega
  have hroom := room t.gp.addr db t.gp.sw hsw0 hdvd hdb
  rw [hal, Nat.sub_zero] at hroom
  have hplan : Plan db t (fun n => min t.gp.len (n * t.gp.sw)) (fun _ => 0) (fun n => min t.gp.len ((n + 1) * t.gp.sw) - min t.gp.len (n * t.gp.sw))
      (fun i => t.gp.addr + i % t.gp.sw) t.numBeats := by
    have hs : ∀ n, (n + 1) * t.gp.sw = n * t.gp.sw + t.gp.sw := fun n => Nat.succ_mul _ _
    refine ⟨?_, ?_, ?_, ?_, ?_, ?_, ?_, ?_, ?_⟩
    · intro n hn
      have := hin n hn
      simp only [wlen_min, hs, hfx, true_or, if_true, Nat.zero_mod, Nat.add_zero, Nat.sub_zero, hbs, hal]
      generalize n * t.gp.sw = x at *
      omega
    · intro n hn; have := hin n hn; simp only [hs]; omega
    · intro n hn; simp only [hs]; omega
    · intro n hn; simp [hfx]
    · intro n hn; have := hin n hn; omega
    · omega
    · intro n hn; simp only [hs, Nat.zero_mod, Nat.add_zero]; omega
    · intro n hn k hk
      have := hin n hn
      simp only [hs] at hk
      simp only [Nat.zero_mod, Nat.add_zero]
      have hg := lane_geom t.gp.addr t.bw db k (by rw [hbs, hal]; omega)
      unfold Ax.laneOk Ax.lower Ax.upper Ax.laneAddr
      have hba : t.ax.beatAddr n = t.gp.addr := by simp [Ax.beatAddr, Tr.ax, hfx]
      rw [hba, show t.ax.nb = t.bw from rfl]
      refine ⟨⟨hg.1, hg.2.1⟩, ?_⟩
      rw [hg.2.2, show min t.gp.len (n * t.gp.sw) = n * t.gp.sw by omega, Nat.mul_add_mod_self_right, Nat.mod_eq_of_lt (by omega)]
    · intro n hn
      have := hin n hn
      simp only [readlen_min, hs, Nat.zero_mod, Nat.add_zero, hbs, hal]
      generalize n * t.gp.sw = x at *
      omega
  refine ⟨⟨_, _, _, _, hplan, by simp, rfl, b3, ?_, ?_⟩, rfl⟩
  rotate_left
  · intro hbe n hn k hk
    have hbe := hbe.resolve_left (by simp [hfx])
    have := hin n hn
    simp only [Nat.add_zero]
    rw [show min t.gp.len (n * t.gp.sw) = n * t.gp.sw by omega]
    unfold enabled
    obtain ⟨c, hc⟩ := hbe
    rw [show (n * t.gp.sw + k) % t.gp.be.length = k % t.gp.be.length by
      rw [hc, Nat.mul_left_comm, Nat.mul_add_mod]]
  intro i hi
  simp only [tlmAddr, hw, Bool.false_eq_true, if_false]

end Verif.Tlm2Axi
