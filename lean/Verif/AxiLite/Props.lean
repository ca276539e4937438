import Verif.AxiLite.Model
import Verif.Aligner.Props

/-! # C46: the AXI4-Lite bridges move every byte to its address -/

namespace Verif.AxiLite
open Verif

/-! ## Specification: an AXI4-Lite memory

All transfers are the full width of the bus; lane `l` of a transfer at `addr` is the byte at
`addr / bw * bw + l`. -/

def slaveWrite (bw : Nat) (m : Mem) (b : WBeat) : Mem := fun x =>
  if x / bw = b.addr / bw ∧ b.strb (x % bw) = true then b.data (x % bw) else m x

def slaveRead (bw : Nat) (m : Mem) (addr : Nat) (l : Nat) : Byte := m (addr / bw * bw + l)

/-! ## Helper lemmas -/

theorem writeFrom_apply (a sw : Nat) (be : List Bool) (x : Nat) : ∀ (d : List Byte) (m : Mem) (i : Nat),
    i + d.length ≤ sw → writeFrom m a sw be i d x =
      if a + i ≤ x ∧ x < a + i + d.length ∧ beEnabled be (x - a) = true then d.getD (x - (a + i)) 0 else m x := by
  intro d
  induction d with
  | nil => intro m i _; rw [if_neg (by simp; omega)]; rfl
  | cons b d ih =>
    intro m i h
    simp only [List.length_cons] at h ⊢
    rw [writeFrom, ih _ _ (by omega), Nat.mod_eq_of_lt (by omega)]
    by_cases hx : x = a + i
    · subst hx
      rw [if_neg (by omega), Nat.add_sub_cancel_left]
      by_cases hb : beEnabled be i = true
      · simp [hb, Mem.set]
      · simp [hb]
    · have hm : (if beEnabled be i = true then m.set (a + i) b else m) x = m x := by
        split
        · simp [Mem.set, hx]
        · rfl
      rw [hm]
      by_cases hc : a + (i + 1) ≤ x ∧ x < a + (i + 1) + d.length ∧ beEnabled be (x - a) = true
      · rw [if_pos hc, if_pos ⟨by omega, by omega, hc.2.2⟩, show x - (a + i) = x - (a + (i + 1)) + 1 by omega]
        rfl
      · rw [if_neg hc, if_neg (fun h' => hc ⟨by omega, by omega, h'.2.2⟩)]

theorem readFrom_getElem? (m : Mem) (a sw : Nat) (be : List Bool) : ∀ (d : List Byte) (i j : Nat),
    i + d.length ≤ sw → (readFrom m a sw be i d)[j]? =
      (d[j]?).map fun b => if beEnabled be (i + j) = true then m (a + (i + j)) else b := by
  intro d
  induction d with
  | nil => intro i j _; simp [readFrom]
  | cons b d ih =>
    intro i j h
    simp only [List.length_cons] at h
    cases j with
    | zero => simp [readFrom, Nat.mod_eq_of_lt (show i < sw by omega)]
    | succ j =>
      simp only [readFrom, List.getElem?_cons_succ]
      rw [ih (i + 1) j (by omega), show i + 1 + j = i + (j + 1) by omega]

theorem store_apply (m : Mem) (a : Nat) (d : List Byte) (x : Nat) : m.store a d x =
    if a ≤ x ∧ x < a + d.length then d.getD (x - a) 0 else m x := rfl

theorem fill_eq (data : List Byte) (off wl : Nat) (hw : wl ≤ data.length) : ∀ (fuel i : Nat) (d : Mem),
    wl - i ≤ fuel → i ≤ wl ∨ wl ≤ i →
    ∀ l, fill data off wl fuel i d l = if off + i ≤ l ∧ l < off + wl then data.getD (l - off) 0 else d l
  | 0, i, d, h, _, l => by
    rw [if_neg (by omega)]; rfl
  | fuel + 1, i, d, h, _, l => by
    unfold fill
    by_cases hi : i < wl
    · rw [if_pos hi]
      rw [fill_eq data off wl hw fuel (i + 8) _ (by omega) (by omega) l]
      by_cases h1 : off + (i + 8) ≤ l ∧ l < off + wl
      · rw [if_pos h1, if_pos (by omega)]
      · rw [if_neg h1, store_apply]
        have hlen : ((data.drop i).take (min (wl - i) 8)).length = min (wl - i) 8 := by
          rw [List.length_take, List.length_drop]; omega
        rw [hlen]
        by_cases h2 : off + i ≤ l ∧ l < off + i + min (wl - i) 8
        · rw [if_pos h2, if_pos (by omega)]
          simp only [List.getD_eq_getElem?_getD]
          rw [List.getElem?_take_of_lt (by omega), List.getElem?_drop, show i + (l - (off + i)) = l - off by omega]
        · rw [if_neg h2, if_neg (by omega)]
    · rw [if_neg hi, if_neg (by omega)]

theorem takeLanes_getElem? (rdata : Nat → Byte) (be : List Bool) (off w : Nat) : ∀ (n i : Nat) (buf : List Byte)
    (j : Nat), (takeLanes rdata be off w i n buf)[j]? = (buf[j]?).map fun b =>
      if w + i ≤ j ∧ j < w + i + n ∧ beEnabled be j = true then rdata (off + j) else b
  | 0, i, buf, j => by
    have : ∀ b : Byte, (if w + i ≤ j ∧ j < w + i + 0 ∧ beEnabled be j = true then rdata (off + j) else b) = b :=
      fun b => if_neg (by omega)
    simp only [this, takeLanes]; simp
  | n + 1, i, buf, j => by
    rw [takeLanes, takeLanes_getElem? rdata be off w n (i + 1)]
    by_cases hj : j = w + i
    · subst hj
      by_cases hb : beEnabled be (w + i) = true
      · rw [if_pos hb]
        rcases hg : buf[w + i]? with _ | b
        · simp [List.getElem?_eq_none_iff.1 hg]
        · have hl : w + i < buf.length := by
            rcases Nat.lt_or_ge (w + i) buf.length with h | h
            · exact h
            · rw [List.getElem?_eq_none h] at hg; cases hg
          rw [List.getElem?_set_self hl]
          simp only [Option.map_some]
          rw [if_neg (by omega), if_pos ⟨by omega, by omega, hb⟩, Nat.add_assoc]
      · rw [if_neg hb]
        congr 1; funext b
        rw [if_neg (by omega), if_neg (fun h => hb h.2.2)]
    · have hs : (if beEnabled be (w + i) = true then buf.set (w + i) (rdata (off + w + i)) else buf)[j]? = buf[j]? := by
        split
        · rw [List.getElem?_set_ne (by omega)]
        · rfl
      rw [hs]
      congr 1; funext b
      by_cases h : w + (i + 1) ≤ j ∧ j < w + (i + 1) + n ∧ beEnabled be j = true
      · rw [if_pos h, if_pos ⟨by omega, by omega, h.2.2⟩]
      · rw [if_neg h, if_neg (fun h' => h ⟨by omega, by omega, h'.2.2⟩)]

theorem takeBeat_getElem? (rdata : Nat → Byte) (be : List Bool) (off rl : Nat) : ∀ (fuel w : Nat) (buf : List Byte)
    (j : Nat), rl - w ≤ fuel → (takeBeat rdata be off rl fuel w buf)[j]? = (buf[j]?).map fun b =>
      if w ≤ j ∧ j < rl ∧ beEnabled be j = true then rdata (off + j) else b
  | 0, w, buf, j, h => by
    have : ∀ b : Byte, (if w ≤ j ∧ j < rl ∧ beEnabled be j = true then rdata (off + j) else b) = b :=
      fun b => if_neg (by omega)
    simp only [this, takeBeat]; simp
  | fuel + 1, w, buf, j, h => by
    unfold takeBeat
    by_cases hw : w < rl
    · rw [if_pos hw, takeBeat_getElem? rdata be off rl fuel (w + 8) _ j (by omega), takeLanes_getElem?,
        Option.map_map]
      congr 1; funext b
      simp only [Function.comp]
      by_cases h1 : w + 8 ≤ j ∧ j < rl ∧ beEnabled be j = true
      · rw [if_pos h1, if_pos ⟨by omega, h1.2.1, h1.2.2⟩]
      · rw [if_neg h1]
        by_cases h2 : w + 0 ≤ j ∧ j < w + 0 + min (rl - w) 8 ∧ beEnabled be j = true
        · rw [if_pos h2, if_pos ⟨by omega, by omega, h2.2.2⟩]
        · rw [if_neg h2, if_neg]
          intro h3
          by_cases h4 : w + 8 ≤ j
          · exact h1 ⟨h4, h3.2.1, h3.2.2⟩
          · exact h2 ⟨by omega, by omega, h3.2.2⟩
    · rw [if_neg hw]
      have : ∀ b : Byte, (if w ≤ j ∧ j < rl ∧ beEnabled be j = true then rdata (off + j) else b) = b :=
        fun b => if_neg (by omega)
      simp only [this]; simp

theorem div_eq_of_word {bw x q : Nat} (hbw : 0 < bw) (h1 : bw * q ≤ x) (h2 : x < bw * q + bw) : x / bw = q := by
  obtain ⟨r, rfl⟩ := Nat.exists_eq_add_of_le h1
  rw [Nat.mul_add_div hbw, Nat.div_eq_of_lt (by omega), Nat.add_zero]

/-! ## TLM to AXI4-Lite -/

/-- The access lies in one word of the bus and does not repeat addresses. -/
structure InWord (bw : Nat) (g : Gp) : Prop where
  word : g.addr % bw + g.len ≤ bw
  sw : g.len ≤ g.sw
  len : 0 < g.len

/-- **Writes are exact**: an AXI4-Lite memory ends up as the reference TLM memory does. -/
theorem write_exact {aw bw : Nat} {g : Gp} (m : Mem) (hbw : 0 < bw) (h : InWord bw g)
    (ha : g.addr < 2 ^ aw) (hw : g.cmd = .write) :
    ∃ b, wbeat aw bw g = some b ∧ slaveWrite bw m b = (g.run m).1 := by
  obtain ⟨h1, h2, h3⟩ := h
  unfold wbeat
  rw [if_neg (by omega)]
  refine ⟨_, rfl, ?_⟩
  funext x
  have hlt := Nat.mod_lt g.addr hbw
  have hl : wlen bw g = g.data.length := by
    unfold wlen offset; unfold Gp.len at *; omega
  have hr : (g.run m).1 = writeFrom m g.addr g.sw g.be 0 g.data := by unfold Gp.run; rw [hw]
  rw [hr, writeFrom_apply _ _ _ _ _ _ _ (by rw [Nat.zero_add]; exact h2)]
  simp only [slaveWrite, Nat.mod_eq_of_lt ha, Nat.add_zero]
  have hx := Nat.div_add_mod x bw
  have hg := Nat.div_add_mod g.addr bw
  have hxl := Nat.mod_lt x hbw
  unfold Gp.len at *
  by_cases hq : x / bw = g.addr / bw
  · have e1 : x = bw * (g.addr / bw) + x % bw := by rw [← hq]; omega
    by_cases hin : g.addr ≤ x ∧ x < g.addr + g.data.length
    · have e2 : (x % bw + (bw - g.addr % bw)) % bw = x - g.addr := by
        rw [show x % bw + (bw - g.addr % bw) = (x - g.addr) + bw by omega, Nat.add_mod_right,
          Nat.mod_eq_of_lt (by omega)]
      have es : strb bw g (x % bw) = beEnabled g.be (x - g.addr) := by
        unfold strb strb0 offset
        rw [e2, hl]; simp [hxl, show x - g.addr < g.data.length by omega]
      rw [es]
      by_cases hb : beEnabled g.be (x - g.addr) = true
      · rw [if_pos ⟨hq, hb⟩, if_pos ⟨hin.1, hin.2, hb⟩, hl,
          fill_eq _ _ _ (Nat.le_refl _) _ _ _ (by omega) (by omega), if_pos (by unfold offset; omega)]
        unfold offset; congr 1; omega
      · rw [if_neg (fun h => hb h.2), if_neg (fun h => hb h.2.2)]
    · rw [if_neg (c := g.addr ≤ x ∧ _) (fun h => hin ⟨h.1, h.2.1⟩), if_neg]
      rintro ⟨_, hs⟩
      unfold strb strb0 offset at hs
      simp only [Bool.and_eq_true, decide_eq_true_eq, hl] at hs
      have hs1 := hs.2.1
      by_cases hge : g.addr % bw ≤ x % bw
      · rw [show x % bw + (bw - g.addr % bw) = (x % bw - g.addr % bw) + bw by omega, Nat.add_mod_right,
          Nat.mod_eq_of_lt (by omega)] at hs1
        omega
      · rw [Nat.mod_eq_of_lt (by omega)] at hs1
        omega
  · rw [if_neg (fun h => hq h.1), if_neg]
    rintro ⟨i1, i2, _⟩
    apply hq
    refine div_eq_of_word hbw ?_ ?_ <;> omega

/-- **Reads are exact**, disabled bytes keeping what was in the buffer. -/
theorem read_exact {bw : Nat} {g : Gp} (m : Mem) (h : InWord bw g) (hr : g.cmd = .read) :
    rbeat bw g (slaveRead bw m g.addr) = some (g.run m).2 := by
  obtain ⟨h1, h2, h3⟩ := h
  unfold rbeat offset
  dsimp only
  rw [if_pos (by omega)]
  congr 1
  have hg : (g.run m).2 = readFrom m g.addr g.sw g.be 0 g.data := by unfold Gp.run; rw [hr]
  rw [hg]
  apply List.ext_getElem?
  intro j
  rw [takeBeat_getElem? _ _ _ _ _ _ _ _ (by omega), readFrom_getElem? _ _ _ _ _ _ _ (by rw [Nat.zero_add]; exact h2)]
  rcases hj : g.data[j]? with _ | b
  · rfl
  · have hjl : j < g.len := by
      unfold Gp.len
      rcases Nat.lt_or_ge j g.data.length with h | h
      · exact h
      · rw [List.getElem?_eq_none h] at hj; cases hj
    have e : g.addr / bw * bw + (g.addr % bw + j) = g.addr + j := by
      have := Nat.div_add_mod g.addr bw
      rw [Nat.mul_comm]; omega
    simp only [Option.map_some, Nat.zero_add, slaveRead, e]
    by_cases hb : beEnabled g.be j = true
    · rw [if_pos ⟨by omega, by omega, hb⟩, if_pos hb]
    · rw [if_neg (fun h => hb h.2.2), if_neg hb]

/-! ## With the aligner -/

/-- The bridge and an AXI4-Lite memory answering OKAY, as a TLM target; `none` is a bridge that has
failed an assertion or hangs. -/
def target (aw bw : Nat) : Aligner.Target (Option Mem) := fun g s =>
  match s with
  | none => (none, g.data, .generic)
  | some m =>
    if refused bw g then (some m, g.data, .generic)
    else if g.cmd = .read then
      match rbeat bw g (slaveRead bw m (g.addr % 2 ^ aw)) with
      | none => (none, g.data, .generic)
      | some d => (some m, d, .ok)
    else
      match wbeat aw bw g with
      | none => (none, g.data, .generic)
      | some b => (some (slaveWrite bw m b), g.data, .ok)

/-- **An access of no bytes or of more bytes than the bus is wide is refused**: an error, nothing written
and the caller's buffer left alone; any other access is not refused. -/
theorem bad_length_refused (aw bw : Nat) (g : Gp) (m : Mem) :
    (g.len = 0 ∨ bw < g.len → target aw bw g (some m) = (some m, g.data, .generic)) ∧
      (0 < g.len → g.len ≤ bw → refused bw g = false) := by
  constructor
  · intro h
    have : refused bw g = true := by
      unfold refused
      rcases h with h | h <;> simp [h]
    simp [target, this]
  · intro h1 h2
    unfold refused
    simp; omega

theorem target_exact {aw bw : Nat} {g : Gp} (m : Mem) (hbw : 0 < bw) (h : InWord bw g)
    (ha : g.addr < 2 ^ aw) (hc : g.cmd ≠ .ignore) :
    target aw bw g (some m) = (some (g.run m).1, (g.run m).2, .ok) := by
  have hr : refused bw g = false := by
    unfold refused
    have := h.word; have := h.len
    simp only [Bool.or_eq_false_iff, beq_eq_false_iff_ne, decide_eq_false_iff_not]
    omega
  unfold target
  simp only [hr, Bool.false_eq_true, if_false]
  cases hcmd : g.cmd with
  | read =>
    rw [if_pos rfl, Nat.mod_eq_of_lt ha, read_exact m h hcmd]
    simp only [Gp.run, hcmd]
  | write =>
    rw [if_neg (by decide)]
    obtain ⟨b, e1, e2⟩ := write_exact m hbw h ha hcmd
    rw [e1]
    simp only [e2]
    simp only [Gp.run, hcmd]
  | ignore => exact absurd hcmd hc

/-- The pieces the aligner makes lie in one word each. -/
theorem loop_eq {aw bw : Nat} (k : Nat) (hk : bw = 2 ^ k) (g : Gp) (hfit : g.addr + g.len ≤ 2 ^ 64)
    (hfit' : g.addr + g.len ≤ 2 ^ aw) (hcmd : g.cmd ≠ .ignore) (hsw : 0 < g.sw)
    (n pos curSw : Nat) (m : Mem) (buf : List Byte) (st : Status) (hn : g.len - pos ≤ n)
    (hpos : pos ≤ g.len) (hbuf : buf.length = g.len) (hcur : pos = 0 → curSw = g.sw) :
    Aligner.loop (alignerCfg bw) (target aw bw) g (Aligner.effSw g) pos curSw (some m) buf st =
      (Aligner.loop (alignerCfg bw) Aligner.memT g (Aligner.effSw g) pos curSw m buf st).map
        fun r => (some r.1, r.2) := by
  have hbw : 0 < bw := by rw [hk]; exact Nat.two_pow_pos k
  have hok : (alignerCfg bw).Ok := ⟨hbw, (by decide : 0 < 4096), (by show 8 ≤ 8 * bw; omega)⟩
  have he : Aligner.effSw g = g.sw := by unfold Aligner.effSw; rw [if_neg (by omega)]
  rw [he]
  induction n generalizing pos curSw m buf st with
  | zero =>
    rw [Aligner.loop, Aligner.loop, if_neg (by omega), if_neg (by omega)]; rfl
  | succ n ih =>
    by_cases hp : pos < g.len
    · have hmod : pos % g.sw ≤ pos := Nat.mod_le _ _
      obtain ⟨f1, f2, f3, f4⟩ := Aligner.chunk_facts (alignerCfg bw) g.addr g.len g.sw pos curSw hsw hp
      have f3' := f3 hok.maxLen hok.boundary hok.busWidth (by omega)
      have f2' := Nat.le_trans f2 (Aligner.maxAddrRange_le (alignerCfg bw) (g.addr + pos % g.sw)).1
      have hsw2 : (Aligner.chunk (alignerCfg bw) g.addr g.len g.sw pos curSw).1 ≤
          (Aligner.chunk (alignerCfg bw) g.addr g.len g.sw pos curSw).2 := by
        unfold Aligner.chunk
        dsimp only
        by_cases c1 : pos % g.sw ≠ 0
        · rw [if_pos c1]; exact Nat.le_refl _
        · rw [if_neg c1]
          by_cases c2 : g.sw ≠ g.len
          · rw [if_pos c2]
            split
            · rename_i hv
              have hv' : validate bw (g.addr + pos % g.sw) (min (g.len - pos)
                (Aligner.maxAddrRange (alignerCfg bw) (g.addr + pos % g.sw)
                  (Aligner.naturalAlignment (g.addr + pos % g.sw)))) g.sw = true := hv
              unfold validate at hv'
              simp only [Bool.and_eq_true, Bool.not_eq_true', decide_eq_false_iff_not] at hv'
              dsimp only; omega
            · exact Nat.le_refl _
          · rw [if_neg c2]
            have : pos = 0 := by
              rcases Nat.eq_zero_or_pos pos with e | e
              · exact e
              · rw [Nat.mod_eq_of_lt (by omega)] at c1; omega
            rw [hcur this]; dsimp only; omega
      rw [Aligner.loop, Aligner.loop, if_pos hp, if_pos hp]
      dsimp only
      rw [dif_pos ⟨f3', f2'⟩, dif_pos ⟨f3', f2'⟩]
      generalize hch : Aligner.chunk (alignerCfg bw) g.addr g.len g.sw pos curSw = ch at *
      have hsl : (Aligner.subGp g g.sw buf pos ch).len = ch.1 := by
        simp [Aligner.subGp, Gp.len]; omega
      have hsub := Aligner.sub_inLimits (alignerCfg bw) hok g g.sw buf pos ch hsl f3' f2 (by omega)
      have hin : InWord bw (Aligner.subGp g g.sw buf pos ch) := by
        refine ⟨?_, by rw [hsl]; exact hsw2, by rw [hsl]; exact f3'⟩
        have hmax : (Aligner.subGp g g.sw buf pos ch).len ≤ bw := hsub.maxLen
        rcases hsub.natural rfl with e | ⟨j, e1, e2⟩
        · rw [e, Nat.zero_mod]; omega
        · generalize (Aligner.subGp g g.sw buf pos ch).addr = a at *
          rcases Nat.lt_or_ge k j with hjk | hjk
          rotate_left
          · -- a is a multiple of 2^j, and so is bw
            have hd : 2 ^ j ∣ bw := by rw [hk]; exact Nat.pow_dvd_pow 2 hjk
            have hd2 : 2 ^ j ∣ a % bw := (Nat.dvd_mod_iff hd).2 (Nat.dvd_of_mod_eq_zero e2)
            obtain ⟨u, hu⟩ := hd
            obtain ⟨v, hv⟩ := hd2
            have hlt := Nat.mod_lt a hbw
            rw [hv] at hlt ⊢
            rw [hu] at hlt ⊢
            have : v < u := Nat.lt_of_mul_lt_mul_left hlt
            have := Nat.mul_le_mul_left (2 ^ j) (show v + 1 ≤ u by omega)
            rw [Nat.mul_add] at this
            omega
          · have hd : bw ∣ 2 ^ j := by rw [hk]; exact Nat.pow_dvd_pow 2 (by omega)
            rw [Nat.mod_eq_zero_of_dvd (Nat.dvd_trans hd (Nat.dvd_of_mod_eq_zero e2))]
            omega
      have ht := target_exact (aw := aw) (g := Aligner.subGp g g.sw buf pos ch) m hbw hin
        (show g.addr + pos % g.sw < 2 ^ aw by omega) hcmd
      rw [ht]
      have hm : Aligner.memT (Aligner.subGp g g.sw buf pos ch) m =
        (((Aligner.subGp g g.sw buf pos ch).run m).1, ((Aligner.subGp g g.sw buf pos ch).run m).2, .ok) := rfl
      rw [hm]
      dsimp only
      rw [if_neg (by decide), if_neg (by decide)]
      refine ih (pos + ch.1) ch.2 _ _ _ (by omega) (by omega) ?_ (by omega)
      have hrl : ((Aligner.subGp g g.sw buf pos ch).run m).2.length = ch.1 := by
        rw [← hsl]; unfold Gp.run Gp.len
        cases (Aligner.subGp g g.sw buf pos ch).cmd <;> simp
      simp only [List.length_append, List.length_take, List.length_drop, hrl]
      omega
    · rw [Aligner.loop, Aligner.loop, if_neg hp, if_neg hp]; rfl

/-- **Any access through the aligner and the bridge** does to an AXI4-Lite memory, and to the
initiator's buffer, what it does to the reference memory. -/
theorem access_exact {aw bw k : Nat} (hk : bw = 2 ^ k) (g : Gp) (m : Mem) (st : Status)
    (hne : 0 < g.len) (hsw : 0 < g.sw) (hcmd : g.cmd ≠ .ignore)
    (hfit : g.addr + g.len ≤ 2 ^ 64) (hfit' : g.addr + g.len ≤ 2 ^ aw) :
    Aligner.transport (alignerCfg bw) (target aw bw) g (some m) st = some (some (g.run m).1, (g.run m).2, .ok) := by
  have hbw : 0 < bw := by rw [hk]; exact Nat.two_pow_pos k
  have hok : (alignerCfg bw).Ok := ⟨hbw, (by decide : 0 < 4096), (by show 8 ≤ 8 * bw; omega)⟩
  have ht := Aligner.aligner_transparent (alignerCfg bw) hok g m st hne hfit
  unfold Aligner.transport at ht ⊢
  by_cases hf : Aligner.fastPath (alignerCfg bw) g = true
  · rw [if_pos hf]
    have hf' := hf
    simp only [Aligner.fastPath, Bool.and_eq_true, beq_iff_eq, decide_eq_true_eq] at hf'
    obtain ⟨⟨⟨_, f2⟩, f3⟩, f4⟩ := hf'
    have he : Aligner.effSw g = g.sw := by unfold Aligner.effSw; rw [if_neg (by omega)]
    have f5 := (Aligner.maxAddrRange_le (alignerCfg bw) g.addr).2.2 rfl
    have hin : InWord bw g := by
      refine ⟨?_, by omega, hne⟩
      have f2' : g.len < bw := f2
      rcases Nat.eq_zero_or_pos g.addr with e | e
      · rw [e, Nat.zero_mod]; omega
      · obtain ⟨j, e1, e2⟩ := Aligner.naturalAlignment_spec g.addr e (by omega)
        have e3 : g.len ≤ 2 ^ j := by omega
        rcases Nat.lt_or_ge k j with hjk | hjk
        rotate_left
        · have hd : 2 ^ j ∣ bw := by rw [hk]; exact Nat.pow_dvd_pow 2 hjk
          have hd2 : 2 ^ j ∣ g.addr % bw := (Nat.dvd_mod_iff hd).2 (Nat.dvd_of_mod_eq_zero e2)
          obtain ⟨u, hu⟩ := hd
          obtain ⟨v, hv⟩ := hd2
          have hlt := Nat.mod_lt g.addr hbw
          rw [hv] at hlt ⊢
          rw [hu] at hlt ⊢
          have : v < u := Nat.lt_of_mul_lt_mul_left hlt
          have := Nat.mul_le_mul_left (2 ^ j) (show v + 1 ≤ u by omega)
          rw [Nat.mul_add] at this
          omega
        · have hd : bw ∣ 2 ^ j := by rw [hk]; exact Nat.pow_dvd_pow 2 (by omega)
          rw [Nat.mod_eq_zero_of_dvd (Nat.dvd_trans hd (Nat.dvd_of_mod_eq_zero e2))]
          omega
    rw [target_exact m hbw hin (by omega) hcmd]
  · rw [if_neg hf] at ht ⊢
    rw [loop_eq k hk g hfit hfit' hcmd hsw g.len 0 g.sw m g.data st (by omega) (by omega) rfl (fun _ => rfl), ht]
    rfl

/-! ## AXI4-Lite to TLM -/

theorem all_range (bw : Nat) (f : Nat → Bool) (h : ((List.range bw).map f).all id = true) (i : Nat) (hi : i < bw) :
    f i = true := by
  simp only [List.all_map, List.all_eq_true, List.mem_range] at h
  exact h i hi

/-- **A write transfer** is one TLM write that does what the transfer means, whatever was in the
bridge's buffer. -/
theorem slave_write_exact {bw : Nat} (hbw : 0 < bw) (m : Mem) (junk : Nat → Byte) (b : WBeat) :
    ((writeGp bw junk b).run m).1 = slaveWrite bw m b := by
  funext x
  have hen : ∀ i, i < bw → beEnabled (writeGp bw junk b).be i = b.strb i := by
    intro i hi
    unfold writeGp
    dsimp only
    split
    · rename_i h
      rw [all_range bw b.strb h i hi]; rfl
    · unfold beEnabled
      rw [List.length_map, List.length_range, Nat.mod_eq_of_lt hi]
      simp [hi]
  show writeFrom m (b.addr / bw * bw) bw (writeGp bw junk b).be 0
    ((List.range bw).map fun i => if b.strb i then b.data i else junk i) x = _
  rw [writeFrom_apply _ _ _ _ _ _ _ (by simp)]
  simp only [Nat.add_zero, List.length_map, List.length_range, slaveWrite]
  have hx := Nat.div_add_mod x bw
  have hxl := Nat.mod_lt x hbw
  by_cases hq : x / bw = b.addr / bw
  · rw [hq, Nat.mul_comm] at hx
    have e : x - b.addr / bw * bw = x % bw := by omega
    rw [e, hen _ hxl]
    by_cases hs : b.strb (x % bw) = true
    · rw [if_pos ⟨by omega, by omega, hs⟩, if_pos ⟨hq, hs⟩]
      simp [hxl, hs]
    · rw [if_neg (fun h => hs h.2.2), if_neg (fun h => hs h.2)]
  · rw [if_neg (c := x / bw = b.addr / bw ∧ _) (fun h => hq h.1), if_neg]
    rintro ⟨i1, i2, _⟩
    apply hq
    rw [Nat.mul_comm] at i1 i2
    exact div_eq_of_word hbw i1 i2

/-- **A read transfer** is one TLM read of the word, whose bytes are driven on their lanes. -/
theorem slave_read_exact {bw : Nat} (m : Mem) (junk : Nat → Byte) (addr l : Nat) (hl : l < bw) :
    lanes ((readGp bw junk addr).run m).2 l = slaveRead bw m addr l ∧ ((readGp bw junk addr).run m).1 = m := by
  refine ⟨?_, rfl⟩
  show (readFrom m (addr / bw * bw) bw [] 0 ((List.range bw).map junk)).getD l 0 = _
  rw [List.getD_eq_getElem?_getD, readFrom_getElem? _ _ _ _ _ _ _ (by simp)]
  simp [hl, slaveRead, beEnabled]

/-- The response codes survive the round trip for the statuses AXI can tell apart. -/
theorem status_roundtrip (s : Status) (h : s = .ok ∨ s = .generic ∨ s = .address) :
    status (AxiResp.axilite2tlmResp s) = some s := by
  rcases h with rfl | rfl | rfl <;> rfl

/-! ## Where the bridge goes wrong without the aligner -/

/-- A write that leaves its word is cut off and reported as a success: byte 4 is not written. -/
theorem crossing_write_truncated : ∃ (g : Gp) (b : WBeat), refused 4 g = false ∧ wbeat 32 4 g = some b ∧
    (g.run (fun _ => 0)).1 4 = 0x22 ∧ slaveWrite 4 (fun _ => 0) b 4 = 0 :=
  ⟨⟨.write, 3, [0x11, 0x22], [], 2⟩, _, by decide, rfl, by decide, by decide⟩

/-- A read that leaves its word never completes. -/
theorem crossing_read_hangs {bw : Nat} {g : Gp} (hbw : 0 < bw) (h : bw < g.addr % bw + g.len)
    (rdata : Nat → Byte) : rbeat bw g rdata = none := by
  have := Nat.mod_lt g.addr hbw
  unfold rbeat offset
  dsimp only
  rw [if_neg (by omega)]

/-- Not an empty statement: two bytes at address 3 on a four-byte bus. -/
example : refused 4 ⟨.read, 3, [0, 0], [], 2⟩ = false ∧ 4 < 3 % 4 + ([0, 0] : List Byte).length := by decide

/-- A streaming write shorter than its data is cut off. -/
theorem streaming_write_truncated : ∃ (g : Gp) (b : WBeat), refused 4 g = false ∧ wbeat 32 4 g = some b ∧
    (g.run (fun _ => 0)).1 0 = 0x33 ∧ slaveWrite 4 (fun _ => 0) b 0 = 0x11 :=
  ⟨⟨.write, 0, [0x11, 0x22, 0x33, 0x44], [], 2⟩, _, by decide, rfl, by decide, by decide⟩

/-- An initiator that leaves the streaming width at zero, which the aligner takes for "the length",
makes the bridge fail its assertion. -/
theorem zero_streaming_width_asserts : ∃ g : Gp, 0 < g.len ∧ g.cmd = .write ∧
    (Aligner.transport (alignerCfg 4) (target 32 4) g (some (fun _ => 0)) .incomplete).map (fun r => r.1.isNone) =
      some true :=
  ⟨⟨.write, 0, [0x11, 0x22], [], 0⟩, by decide, rfl, by decide +kernel⟩

/-- An access of eleven bytes at an odd address with byte enables and a streaming width of 6. -/
example : (Aligner.transport (alignerCfg 8) (target 32 8)
      ⟨.write, 5, [1, 2, 3, 4, 5, 6, 7, 8, 9, 10, 11], [true, true, false], 6⟩ (some (fun _ => 0)) .incomplete).map
      (fun r => (r.1.map fun m => (List.range 12).map m, r.2.2)) =
    some (some [0, 0, 0, 0, 0, 7, 8, 0, 10, 11, 0, 0], .ok) := by decide +kernel

end Verif.AxiLite
