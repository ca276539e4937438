import Verif.Wishbone.Model
/-!
C39: the Wishbone bridges move every byte to its address.

The specification is a Wishbone slave memory: on a strobe, byte lane `i` is the
byte at `base + i`, where `base` is either the address as given (`adr`) or rounded
down to the bus width; both readings of the bus agree on aligned addresses.
-/
namespace Verif.Wishbone
open Verif

/-- The slave's base address: rounded down or not. -/
def base (round : Bool) (bw adr : Nat) : Nat := if round then adr - adr % bw else adr

/-- A write strobe seen by a slave memory. -/
def slaveWrite (round : Bool) (bw : Nat) (m : Mem) (b : Beat) : Mem := fun x =>
  if base round bw b.adr ≤ x ∧ x < base round bw b.adr + bw ∧ b.sel.testBit (x - base round bw b.adr) then
    BitVec.ofNat 8 (b.dat / 256 ^ (x - base round bw b.adr))
  else m x

/-- The word a slave memory drives for a read strobe. -/
def slaveRead (round : Bool) (bw : Nat) (m : Mem) (b : Beat) : Nat :=
  leDec ((List.range bw).map fun i => m (base round bw b.adr + i))

/-- What a write should do. -/
def wrote (m : Mem) (a : Nat) (d : List Byte) : Mem := fun x =>
  if a ≤ x ∧ x < a + d.length then d.getD (x - a) 0#8 else m x

theorem leDec_lt (bs : List Byte) : leDec bs < 256 ^ bs.length := by
  induction bs with
  | nil => simp [leDec]
  | cons b bs ih =>
    simp only [leDec, List.length_cons, Nat.pow_succ]
    have := b.isLt
    omega

theorem leDec_byte : ∀ (bs : List Byte) (i : Nat) (h : i < bs.length),
    BitVec.ofNat 8 (leDec bs / 256 ^ i) = bs[i]
  | b :: bs, 0, _ => by
    apply BitVec.eq_of_toNat_eq
    have := b.isLt
    simp only [leDec, Nat.pow_zero, Nat.div_one, BitVec.toNat_ofNat, List.getElem_cons_zero]
    omega
  | b :: bs, i + 1, h => by
    have hb := b.isLt
    have e : leDec (b :: bs) / 256 ^ (i + 1) = leDec bs / 256 ^ i := by
      rw [Nat.pow_succ, Nat.mul_comm, ← Nat.div_div_eq_div_mul]
      congr 1
      simp only [leDec]
      omega
    rw [e, leDec_byte bs i (by simpa using h)]
    rfl

theorem leEnc_getElem : ∀ (n v i : Nat) (h : i < (leEnc n v).length),
    (leEnc n v)[i] = BitVec.ofNat 8 (v / 256 ^ i)
  | n + 1, v, 0, _ => by simp [leEnc]
  | n + 1, v, i + 1, h => by
    simp only [leEnc, List.getElem_cons_succ]
    rw [leEnc_getElem n (v / 256) i, Nat.pow_succ, Nat.div_div_eq_div_mul, Nat.mul_comm]

/-! ### The cycles of an aligned access -/

/-- An access the bridge handles: aligned, and either at most one bus word or
whole bus words. -/
def Whole (bw : Nat) (g : Gp) : Prop :=
  g.addr % bw = 0 ∧ (g.len ≤ bw ∨ g.len % bw = 0)

/-- The cycle for one aligned chunk. -/
def chunkBeat (aw : Nat) (g : Gp) (pos : Nat) (bs : List Byte) : Beat :=
  { adr := (g.addr + pos) % 2 ^ aw, we := decide (g.cmd ≠ .read), sel := 2 ^ bs.length - 1
    dat := if g.cmd ≠ .read then leDec bs else 0 }

theorem beatAt_aligned {aw bw : Nat} (hbw : bw ≤ 8) {g : Gp} {pos : Nat}
    (ha : (g.addr + pos) % bw = 0) (hl : pos + min bw g.len ≤ g.len) :
    beatAt aw bw g pos = some (chunkBeat aw g pos ((g.data.drop pos).take (min bw g.len))) := by
  have hlen : ((g.data.drop pos).take (min bw g.len)).length = min bw g.len := by
    rw [List.length_take, List.length_drop]
    simp only [Gp.len] at *
    omega
  unfold beatAt slice
  simp only
  rw [if_pos (show pos + min bw g.len ≤ g.data.length from hl)]
  simp only
  have hlt : leDec ((g.data.drop pos).take (min bw g.len)) < 2 ^ (8 * bw) := by
    refine Nat.lt_of_lt_of_le (leDec_lt _) ?_
    rw [hlen, show (256 : Nat) = 2 ^ 8 from rfl, ← Nat.pow_mul]
    exact Nat.pow_le_pow_right (by omega) (by omega)
  have hlt' : leDec ((g.data.drop pos).take (min bw g.len)) < 2 ^ 64 :=
    Nat.lt_of_lt_of_le hlt (Nat.pow_le_pow_right (by omega) (by omega))
  have hsel : (2 ^ min bw g.len - 1) % 2 ^ bw = 2 ^ min bw g.len - 1 := by
    apply Nat.mod_eq_of_lt
    have : (2 : Nat) ^ min bw g.len ≤ 2 ^ bw := Nat.pow_le_pow_right (by omega) (by omega)
    have := Nat.two_pow_pos (min bw g.len)
    omega
  unfold chunkBeat
  rw [ha, hlen, hsel]
  simp only [Nat.mul_zero, Nat.shiftLeft_zero, Nat.mod_eq_of_lt hlt', Nat.mod_eq_of_lt hlt,
    decide_eq_true_eq]

/-- The whole-word case: from `pos` on there are `k` more words. -/
theorem beatsFrom_words {aw bw : Nat} (hbw : bw ≤ 8) (h0 : 0 < bw) {g : Gp} (ha : g.addr % bw = 0)
    (hl : bw ≤ g.len) : ∀ (k fuel pos : Nat), 0 < k → pos + k * bw = g.len → pos % bw = 0 → k ≤ fuel →
    beatsFrom aw bw g fuel pos = some ((List.range k).map fun i =>
      chunkBeat aw g (pos + i * bw) ((g.data.drop (pos + i * bw)).take bw))
  | 0, _, _, h, _, _, _ => by omega
  | k + 1, 0, _, _, _, _, h => by omega
  | k + 1, fuel + 1, pos, _, hp, hm, hf => by
    have hmin : min bw g.len = bw := by omega
    have hk : pos + bw + k * bw = g.len := by
      rw [Nat.succ_mul] at hp; omega
    have hal : (g.addr + pos) % bw = 0 := by
      rw [Nat.add_mod, ha, hm]; simp
    rw [beatsFrom, beatAt_aligned hbw hal (by rw [hmin]; omega)]
    simp only [hmin]
    cases k with
    | zero =>
      rw [if_neg (by omega)]
      simp
    | succ k =>
      rw [if_pos (by rw [Nat.succ_mul] at hk; omega)]
      rw [beatsFrom_words hbw h0 ha hl (k + 1) fuel (pos + bw) (by omega) hk (by simp [hm]) (by omega)]
      rw [List.range_succ_eq_map (n := k + 1), List.map_cons, List.map_map]
      simp only [Option.map_some, Nat.zero_mul, Nat.add_zero]
      congr 2
      apply List.map_congr_left
      intro i _
      simp only [Function.comp]
      have : pos + bw + i * bw = pos + (i + 1) * bw := by rw [Nat.succ_mul]; omega
      rw [this]

/-- The cycles issued for a whole access: consecutive chunks of `min bw len`
bytes, each once. -/
theorem beats_whole {aw bw : Nat} (hbw : bw ≤ 8) (h0 : 0 < bw) {g : Gp} (h : Whole bw g) :
    ∃ n, beats aw bw g = some ((List.range n).map fun i =>
        chunkBeat aw g (i * bw) ((g.data.drop (i * bw)).take (min bw g.len))) ∧
      0 < n ∧ (n - 1) * bw + min bw g.len = g.len := by
  obtain ⟨ha, hl⟩ := h
  by_cases hle : g.len ≤ bw
  · refine ⟨1, ?_, by omega, by simp; omega⟩
    have hmin : min bw g.len = g.len := by omega
    unfold beats
    rw [beatsFrom, beatAt_aligned hbw (by simpa using ha) (by omega)]
    simp only
    rw [if_neg (by omega)]
    simp
  · have hm : g.len % bw = 0 := by omega
    have hmin : min bw g.len = bw := by omega
    have hd : g.len / bw * bw = g.len := Nat.div_mul_cancel (Nat.dvd_of_mod_eq_zero hm)
    have hpos : 0 < g.len / bw := Nat.div_pos (by omega) h0
    have hle2 : g.len / bw ≤ g.len := Nat.div_le_self _ _
    refine ⟨g.len / bw, ?_, hpos, ?_⟩
    · unfold beats
      rw [beatsFrom_words hbw h0 ha (by omega) (g.len / bw) (g.len + 1) 0 hpos (by omega) (by simp) (by omega),
        hmin]
      simp
    · rw [hmin]
      have : g.len / bw = (g.len / bw - 1) + 1 := by omega
      rw [this, Nat.succ_mul] at hd
      omega

/-- FINDING (exact). An access that is longer than the bus and not a whole number
of bus words leaves the caller's buffer, whatever its alignment; no other access
does. -/
theorem overrun_iff {aw bw : Nat} (h0 : 0 < bw) (g : Gp) :
    beats aw bw g = none ↔ bw < g.len ∧ g.len % bw ≠ 0 := by
  have at_none : ∀ pos, beatAt aw bw g pos = none ↔ g.len < pos + min bw g.len := by
    intro pos
    unfold beatAt slice
    simp only
    by_cases h : pos + min bw g.len ≤ g.data.length
    · rw [if_pos h]; simp only [reduceCtorEq, false_iff]; exact Nat.not_lt.2 h
    · rw [if_neg h]; simp only [true_iff]; exact Nat.not_le.1 h
  by_cases hle : g.len ≤ bw
  · have hmin : min bw g.len = g.len := by omega
    unfold beats
    rw [beatsFrom]
    have : beatAt aw bw g 0 ≠ none := fun h => by
      have := (at_none 0).1 h; omega
    cases hb : beatAt aw bw g 0 with
    | none => exact absurd hb this
    | some b =>
      simp only
      rw [if_neg (by omega)]
      simp; omega
  · have hmin : min bw g.len = bw := by omega
    have gen : ∀ (fuel pos : Nat), pos % bw = 0 → pos < g.len → g.len < pos + fuel →
        (beatsFrom aw bw g fuel pos = none ↔ g.len % bw ≠ 0) := by
      intro fuel
      induction fuel with
      | zero => intro pos _ h1 h2; omega
      | succ fuel ih =>
        intro pos hp h1 h2
        rw [beatsFrom]
        cases hb : beatAt aw bw g pos with
        | none =>
          have hb' := (at_none pos).1 hb
          rw [hmin] at hb'
          simp only [true_iff]
          intro hz
          have hdp := Nat.dvd_of_mod_eq_zero hp
          have hdl := Nat.dvd_of_mod_eq_zero hz
          have := Nat.le_of_dvd (by omega) (Nat.dvd_sub hdl hdp)
          omega
        | some b =>
          have hb' : ¬ g.len < pos + min bw g.len := fun h => by
            have := (at_none pos).2 h; rw [hb] at this; exact absurd this (by simp)
          rw [hmin] at hb'
          simp only [hmin]
          by_cases hlt : pos + bw < g.len
          · rw [if_pos hlt]
            rw [← ih (pos + bw) (by simp [hp]) hlt (by omega)]
            cases beatsFrom aw bw g fuel (pos + bw) <;> simp
          · rw [if_neg hlt]
            have e : g.len = pos + bw := by omega
            simp only [reduceCtorEq, false_iff, ne_eq, Decidable.not_not]
            rw [e]
            simp [hp]
    unfold beats
    rw [gen (g.len + 1) 0 (by simp) (by omega) (by omega)]
    omega

/-! ### Effect on a slave memory -/

theorem slaveWrite_chunk {round : Bool} {aw bw : Nat} {g : Gp} (hc : g.cmd ≠ .read) {pos : Nat} {bs : List Byte}
    (ha : (g.addr + pos) % bw = 0) (hr : g.addr + pos < 2 ^ aw) (hl : bs.length ≤ bw) (m : Mem) :
    slaveWrite round bw m (chunkBeat aw g pos bs) = wrote m (g.addr + pos) bs := by
  have hb : base round bw (chunkBeat aw g pos bs).adr = g.addr + pos := by
    unfold base chunkBeat
    simp only [Nat.mod_eq_of_lt hr, ha]
    split <;> omega
  funext x
  unfold slaveWrite wrote
  rw [hb]
  simp only [chunkBeat, if_pos hc, Nat.testBit_two_pow_sub_one, decide_eq_true_eq]
  by_cases h : g.addr + pos ≤ x ∧ x < g.addr + pos + bs.length
  · rw [if_pos (by omega), if_pos h, leDec_byte bs _ (by omega)]
    simp [show x - (g.addr + pos) < bs.length by omega]
  · rw [if_neg (by omega), if_neg h]

theorem wrote_wrote (m : Mem) (a : Nat) (d e : List Byte) :
    wrote (wrote m a d) (a + d.length) e = wrote m a (d ++ e) := by
  funext x
  unfold wrote
  by_cases h1 : a ≤ x ∧ x < a + d.length
  · rw [if_neg (by omega), if_pos h1, if_pos (by rw [List.length_append]; omega)]
    simp [List.getElem?_append_left (show x - a < d.length by omega)]
  · by_cases h2 : a + d.length ≤ x ∧ x < a + d.length + e.length
    · rw [if_pos h2, if_pos (by rw [List.length_append]; omega)]
      simp only [List.getD_eq_getElem?_getD]
      rw [List.getElem?_append_right (by omega), show x - a - d.length = x - (a + d.length) by omega]
    · rw [if_neg h2, if_neg h1, if_neg (by rw [List.length_append]; omega)]

/-- Writes: the cycles of an aligned access of at most one word, or of whole words,
store exactly its bytes at their addresses, each by one cycle, on a slave of
either kind. Missing: unaligned accesses (`unaligned_write_wrong`) and accesses
with a partial last word (`overrun_iff`). -/
theorem write_exact_partial {round : Bool} {aw bw : Nat} (hbw : bw ≤ 8) (h0 : 0 < bw) {g : Gp}
    (hc : g.cmd ≠ .read) (h : Whole bw g) (hr : g.addr + g.len ≤ 2 ^ aw) (m : Mem) :
    ∃ bs, beats aw bw g = some bs ∧ bs.foldl (slaveWrite round bw) m = wrote m g.addr g.data := by
  obtain ⟨n, e, hn, hlen⟩ := beats_whole (aw := aw) hbw h0 h
  refine ⟨_, e, ?_⟩
  have hlt := Nat.two_pow_pos aw
  have gen : ∀ k, k ≤ n → ((List.range k).map fun i =>
        chunkBeat aw g (i * bw) ((g.data.drop (i * bw)).take (min bw g.len))).foldl
          (slaveWrite round bw) m = wrote m g.addr (g.data.take (k * bw)) := by
    intro k
    induction k with
    | zero => intro _; funext x; simp [wrote]; omega
    | succ k ih =>
      intro hk
      rw [List.range_succ, List.map_append, List.foldl_append, ih (by omega)]
      simp only [List.map_cons, List.map_nil, List.foldl_cons, List.foldl_nil]
      have hkb : k * bw ≤ (n - 1) * bw := Nat.mul_le_mul_right _ (by omega)
      by_cases hz : g.len = 0
      · have hd : g.data = [] := List.length_eq_zero_iff.1 hz
        simp only [hd, List.drop_nil, List.take_nil]
        rw [hz] at hlen
        have hk0 : k * bw = 0 := by omega
        funext x
        unfold slaveWrite wrote chunkBeat
        simp
      · rw [slaveWrite_chunk hc (by
            have := h.1
            rw [Nat.add_mod, this, Nat.mul_mod_left]; simp)
          (by omega) (by rw [List.length_take]; omega)]
        have hl1 : (g.data.take (k * bw)).length = k * bw := by
          rw [List.length_take]; simp only [Gp.len] at hlen; omega
        have : g.addr + k * bw = g.addr + (g.data.take (k * bw)).length := by rw [hl1]
        rw [this, wrote_wrote]
        congr 1
        rw [Nat.succ_mul]
        by_cases hk2 : k + 1 = n
        · have hk3 : k = n - 1 := by omega
          rw [hk3]
          have : (g.data.drop ((n - 1) * bw)).take (min bw g.len) = g.data.drop ((n - 1) * bw) := by
            apply List.take_of_length_le
            rw [List.length_drop]; simp only [Gp.len] at *; omega
          rw [this, List.take_append_drop]
          rw [List.take_of_length_le]
          simp only [Gp.len] at *; omega
        · have : (k + 1) * bw ≤ (n - 1) * bw := Nat.mul_le_mul_right _ (by omega)
          rw [Nat.succ_mul] at this
          have hmin : min bw g.len = bw := by omega
          rw [hmin, List.take_add]
  have := gen n (Nat.le_refl _)
  rw [this, List.take_of_length_le]
  have e2 : n = (n - 1) + 1 := by omega
  rw [e2, Nat.succ_mul]
  simp only [Gp.len] at *
  omega

/-- Reads: the words a slave memory of either kind answers, put together as the
bridge does, are the bytes of the range. Same restriction as for writes. -/
theorem read_exact_partial {round : Bool} {aw bw : Nat} (hbw : bw ≤ 8) (h0 : 0 < bw) {g : Gp}
    (h : Whole bw g) (hr : g.addr + g.len ≤ 2 ^ aw) (hne : 0 < g.len) (m : Mem) :
    ∃ bs, beats aw bw g = some bs ∧
      (bs.map fun b => readBytes bw g (slaveRead round bw m b)).flatten =
        (List.range g.len).map fun i => m (g.addr + i) := by
  obtain ⟨n, e, hn, hlen⟩ := beats_whole (aw := aw) hbw h0 h
  refine ⟨_, e, ?_⟩
  have one : ∀ i, i < n → readBytes bw g (slaveRead round bw m
      (chunkBeat aw g (i * bw) ((g.data.drop (i * bw)).take (min bw g.len)))) =
      (List.range (min bw g.len)).map fun j => m (g.addr + (i * bw + j)) := by
    intro i hi
    have hib : i * bw ≤ (n - 1) * bw := Nat.mul_le_mul_right _ (by omega)
    have hlt : g.addr + i * bw < 2 ^ aw := by omega
    have hal : (g.addr + i * bw) % bw = 0 := by
      rw [Nat.add_mod, h.1, Nat.mul_mod_left]; simp
    have hb : base round bw (chunkBeat aw g (i * bw)
        ((g.data.drop (i * bw)).take (min bw g.len))).adr = g.addr + i * bw := by
      unfold base chunkBeat
      simp only [Nat.mod_eq_of_lt hlt, hal]
      split <;> omega
    unfold readBytes slaveRead
    rw [hb, h.1]
    simp only [Nat.mul_zero, Nat.shiftRight_zero]
    apply List.ext_getElem
    · simp
    · intro j h1 h2
      rw [leEnc_getElem]
      simp only [List.length_map, List.length_range, leEnc_length] at h1 h2
      rw [leDec_byte _ j (by simp; omega)]
      simp [Nat.add_assoc]
  have gen : ∀ k, k ≤ n → (((List.range k).map fun i =>
        chunkBeat aw g (i * bw) ((g.data.drop (i * bw)).take (min bw g.len))).map
          fun b => readBytes bw g (slaveRead round bw m b)).flatten =
        (List.range (if k = n then g.len else k * bw)).map fun i => m (g.addr + i) := by
    intro k
    induction k with
    | zero => intro _; rw [if_neg (by omega)]; simp
    | succ k ih =>
      intro hk
      have ih' := ih (by omega)
      rw [if_neg (by omega)] at ih'
      rw [List.range_succ, List.map_append, List.map_append, List.flatten_append, ih']
      simp only [List.map_cons, List.map_nil, List.flatten_cons, List.flatten_nil, List.append_nil]
      rw [one k (by omega)]
      have split_range : ∀ a b : Nat, List.range (a + b) = List.range a ++ (List.range b).map (a + ·) := by
        intro a b; exact List.range_add ..
      have : (if k + 1 = n then g.len else (k + 1) * bw) = k * bw + min bw g.len := by
        by_cases hk2 : k + 1 = n
        · rw [if_pos hk2]
          have : k = n - 1 := by omega
          rw [this]; omega
        · rw [if_neg hk2]
          have : (k + 1) * bw ≤ (n - 1) * bw := Nat.mul_le_mul_right _ (by omega)
          rw [Nat.succ_mul] at this ⊢
          omega
      rw [this, split_range, List.map_append, List.map_map]
      rfl
  have := gen n (Nat.le_refl _)
  rw [if_pos rfl] at this
  exact this

example : Whole 4 ⟨.write, 0x1000, List.replicate 12 1#8, [], 12⟩ := by unfold Whole; decide

/-! ### The handshake -/

/-- Every cycle stays on the bus, unchanged, until the edge at which it is
acknowledged; cycles are acknowledged once and in order; the words taken are those
present with the acknowledgements. -/
theorem handshake_exact : ∀ (bs : List Beat) (ss : List Sample),
    let r := handshake bs ss
    (r.1.filter fun e => e.2.ack).map (·.1) <+: bs ∧
    r.2 = (r.1.filter fun e => e.2.ack).map (fun e => e.2.dat) ∧
    (bs.length ≤ (ss.filter (·.ack)).length → (r.1.filter fun e => e.2.ack).map (·.1) = bs) ∧
    r.1.map (·.2) <+: ss
  | [], ss => by simp [handshake]
  | b :: bs, [] => by simp [handshake]
  | b :: bs, s :: ss => by
    cases hs : s.ack with
    | true =>
      have ih := handshake_exact bs ss
      simp only at ih
      obtain ⟨h1, h2, h3, h4⟩ := ih
      simp only [handshake, hs, if_true]
      rw [List.filter_cons_of_pos (by simp [hs])]
      refine ⟨by simpa using h1, by simp [h2], ?_, by simpa using h4⟩
      intro hl
      rw [List.filter_cons_of_pos (by simp [hs])] at hl
      simp only [List.length_cons, Nat.add_le_add_iff_right] at hl
      simp [h3 hl]
    | false =>
      have ih := handshake_exact (b :: bs) ss
      simp only at ih
      obtain ⟨h1, h2, h3, h4⟩ := ih
      simp only [handshake, hs, Bool.false_eq_true, if_false]
      rw [List.filter_cons_of_neg (by simp [hs])]
      refine ⟨h1, h2, ?_, by simpa using h4⟩
      intro hl
      rw [List.filter_cons_of_neg (by simp [hs])] at hl
      exact h3 hl

/-! ### The bridges back to back -/

/-- Words read and memory after serving strobes one after the other. -/
def serveAll (bw : Nat) (big : Bool) (m : Mem) : List Beat → Mem × List Nat
  | [] => (m, [])
  | b :: bs =>
    let r := serveAll bw big (serve bw big m b).1 bs
    (r.1, (serve bw big m b).2 :: r.2)

/-- Two clock edges per cycle: every cycle of the master is served exactly once and
in order by the slave bridge, and the master takes the word that belongs to it. -/
theorem link_exact {bw : Nat} {big : Bool} : ∀ (bs : List Beat) (got : List Nat) (dat : Nat) (m : Mem)
    (served : List Beat),
    ∃ dat', Link.run bw big ⟨bs, got, false, dat, m, served⟩ (2 * bs.length) =
      ⟨[], got ++ (serveAll bw big m bs).2, false, dat', (serveAll bw big m bs).1, served ++ bs⟩
  | [], got, dat, m, served => ⟨dat, by simp [Link.run, serveAll]⟩
  | b :: bs, got, dat, m, served => by
    obtain ⟨d', ih⟩ := link_exact (bw := bw) (big := big) bs (got ++ [(serve bw big m b).2])
      (serve bw big m b).2 (serve bw big m b).1 (served ++ [b])
    refine ⟨d', ?_⟩
    have : 2 * (b :: bs).length = 2 * bs.length + 1 + 1 := by simp; omega
    rw [this]
    simp only [Link.run, Link.edge, Bool.false_eq_true, if_false, if_true]
    rw [ih]
    simp [serveAll, List.append_assoc]

/-- Once all cycles are served nothing more happens, for any number of edges. -/
theorem link_idle {bw : Nat} {big : Bool} (l : Link) (h : l.left = []) : ∀ n,
    (Link.run bw big l n).served = l.served ∧ (Link.run bw big l n).mem = l.mem ∧
    (Link.run bw big l n).got = l.got
  | 0 => ⟨rfl, rfl, rfl⟩
  | n + 1 => by
    have e : l.edge bw big = { l with ack := false } := by unfold Link.edge; rw [h]
    have := link_idle (bw := bw) (big := big) { l with ack := false } h n
    rw [Link.run, e]
    exact this

/-- The slave bridge, native byte order: a full-width strobe writes, a read strobe
reads, exactly the bytes from the address given. -/
theorem serve_full {bw : Nat} (m : Mem) (b : Beat) :
    (b.we = true → (serve bw false m b).1 = wrote m b.adr (leEnc bw b.dat)) ∧
    (b.we = false → serve bw false m b = (m, slaveRead false bw m b)) := by
  have wr : ∀ (d : List Byte) (m : Mem) (a n i : Nat), i + d.length ≤ n →
      writeFrom m a n [] i d = wrote m (a + i) d := by
    intro d
    induction d with
    | nil => intro m a n i _; funext x; simp [writeFrom, wrote]; omega
    | cons c cs ih =>
      intro m a n i h
      simp only [List.length_cons] at h
      have : beEnabled [] i = true := rfl
      rw [writeFrom, this, if_pos rfl, ih _ _ _ _ (by omega), Nat.mod_eq_of_lt (by omega)]
      have w1 : m.set (a + i) c = wrote m (a + i) [c] := by
        funext x
        unfold Mem.set wrote
        by_cases hx : x = a + i
        · rw [if_pos hx, if_pos (by simp; omega)]; simp [hx]
        · rw [if_neg hx, if_neg (by simp; omega)]
      rw [w1]
      have := wrote_wrote m (a + i) [c] cs
      simpa [Nat.add_assoc] using this
  have rd : ∀ (d : List Byte) (a n i : Nat), i + d.length ≤ n →
      readFrom m a n [] i d = (List.range d.length).map fun j => m (a + (i + j)) := by
    intro d
    induction d with
    | nil => intros; rfl
    | cons c cs ih =>
      intro a n i h
      simp only [List.length_cons] at h
      have : beEnabled [] i = true := rfl
      rw [readFrom, this, if_pos rfl, ih _ _ _ (by omega), Nat.mod_eq_of_lt (by omega),
        List.length_cons, List.range_succ_eq_map, List.map_cons, List.map_map]
      congr 1
      apply List.map_congr_left
      intro j _
      simp only [Function.comp]
      congr 2
      omega
  constructor
  · intro h
    unfold serve toGp WGp.run Gp.run laneBytes
    simp only [h, if_true, Bool.false_eq_true, if_false, List.take_zero]
    rw [wr _ _ _ _ _ (by simp)]
    simp
  · intro h
    unfold serve toGp WGp.run Gp.run slaveRead base
    simp only [h, Bool.false_eq_true, if_false, List.take_zero]
    rw [rd _ _ _ _ (by simp)]
    simp

/-! ### Findings -/

/-- FINDING. An unaligned write goes wrong on slaves of both kinds: the data is
shifted to the addressed lane, the select bits are not. One byte, 0xAA, written
to address 5 of a 4-byte bus: a slave that takes the address as given stores 0 at
address 5; one that rounds it down stores 0 at address 4. -/
theorem unaligned_write_wrong :
    ∃ b, beats 32 4 ⟨.write, 5, [0xAA#8], [], 1⟩ = some [b] ∧
      slaveWrite false 4 (fun _ => 0xFF#8) b 5 = 0x00#8 ∧
      slaveWrite true 4 (fun _ => 0xFF#8) b 5 = 0xFF#8 ∧
      slaveWrite true 4 (fun _ => 0xFF#8) b 4 = 0x00#8 :=
  ⟨_, rfl, by decide +kernel, by decide +kernel, by decide +kernel⟩

/-- FINDING. An unaligned read through both bridges returns the wrong bytes: the
slave bridge answers with the byte at the address on lane 0, the master takes
lane 1. -/
theorem unaligned_read_wrong :
    ∃ b, beats 32 4 ⟨.read, 5, [0#8], [], 1⟩ = some [b] ∧
      readBytes 4 ⟨.read, 5, [0#8], [], 1⟩ (slaveRead false 4 (fun a => BitVec.ofNat 8 a) b) = [6#8] :=
  ⟨_, rfl, by decide +kernel⟩

/-- FINDING. A read that crosses a bus word on a slave that rounds the address
down gets zeros for the bytes of the second word. -/
theorem crossing_read_wrong :
    ∃ b, beats 32 4 ⟨.read, 6, [0#8, 0#8, 0#8, 0#8], [], 4⟩ = some [b] ∧
      readBytes 4 ⟨.read, 6, [0#8, 0#8, 0#8, 0#8], [], 4⟩
        (slaveRead true 4 (fun a => BitVec.ofNat 8 a) b) = [6#8, 7#8, 0#8, 0#8] :=
  ⟨_, rfl, by decide +kernel⟩

/-- FINDING. Byte enables and streaming width of the access are ignored. -/
theorem attributes_ignored (aw bw : Nat) (g : Gp) (be : List Bool) (sw : Nat) :
    beats aw bw { g with be := be, sw := sw } = beats aw bw g := by
  have h1 : ∀ pos, beatAt aw bw { g with be := be, sw := sw } pos = beatAt aw bw g pos := fun _ => rfl
  have h2 : ∀ fuel pos, beatsFrom aw bw { g with be := be, sw := sw } fuel pos = beatsFrom aw bw g fuel pos := by
    intro fuel
    induction fuel with
    | zero => intro _; rfl
    | succ n ih =>
      intro pos
      rw [beatsFrom, beatsFrom, h1]
      simp only [ih]
      rfl
  exact h2 _ _

/-- FINDING. The slave bridge hands byte enables to the target with a length of 0;
a memory that goes by the length writes all lanes, selected or not. -/
theorem partial_select_writes_all :
    (toGp 4 false [] ⟨0x10, true, 0x1, 0x44332211⟩).be = [true, false, false, false] ∧
    (toGp 4 false [] ⟨0x10, true, 0x1, 0x44332211⟩).beLen = 0 ∧
    (serve 4 false (fun _ => 0xFF#8) ⟨0x10, true, 0x1, 0x44332211⟩).1 0x13 = 0x44#8 := by
  decide +kernel

/-- FINDING. On a big-endian slave bridge data lanes are swapped but select bits are
not: the byte enabled is not the byte selected. -/
theorem big_endian_select_mismatch :
    (toGp 4 true [] ⟨0x10, true, 0x1, 0x44332211⟩).be = [true, false, false, false] ∧
    (toGp 4 true [] ⟨0x10, true, 0x1, 0x44332211⟩).data = [0x44#8, 0x33#8, 0x22#8, 0x11#8] := by
  decide +kernel

end Verif.Wishbone
