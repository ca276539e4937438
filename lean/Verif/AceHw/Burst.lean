import Verif.AceHw.Access

/-! # C65: bursts of the hardware's slave as TLM accesses -/

namespace Verif.AceHw
open Verif Verif.Axi
open Verif.HwSlave (writes applyWrites)

/-- The burst code on the bus. -/
def busCode : Burst → BitVec 2
  | .fixed => 0
  | .incr => 1
  | .wrap => 2

/-- The bursts the slave side gets right: full-width beats, `FIXED`, or `INCR` from a
bus-aligned address, or (reads only) `WRAP` from the boundary it wraps to. -/
structure Plain (db : Nat) (a : Ax) : Prop where
  wide : a.nb = db
  beats : 0 < a.beats
  start : a.burst = .fixed ∨ (a.burst = .incr ∧ a.addr % db = 0) ∨ (a.burst = .wrap ∧ a.addr % (db * a.beats) = 0)

theorem getF_burst (attr : BitVec 32) (i : Nat) (hi : i < 2) : attr.getLsbD i = (attr.extractLsb' 0 2).getLsbD i := by
  rw [BitVec.getLsbD_extractLsb', Nat.zero_add, decide_eq_true hi, Bool.true_and]

theorem getF3 (attr : BitVec 32) (b : Burst) (h : attr.extractLsb' 0 2 = busCode b) :
    (getAttr arBurstMask attr).burst = burstCode b := by
  apply BitVec.eq_of_getLsbD_eq
  intro i hi
  have e : (getAttr arBurstMask attr).burst = getF 0 (2 ^ 2 - 1) attr := rfl
  rw [e, getLsbD_getF _ _ _ _ hi, Nat.zero_add]
  by_cases h2 : i < 2
  · rw [getF_burst _ _ h2, h]
    have : i = 0 ∨ i = 1 := by omega
    rcases this with rfl | rfl <;> cases b <;> rfl
  · rw [decide_eq_false h2, Bool.false_and]
    have : i = 2 ∨ i = 3 ∨ i = 4 ∨ i = 5 ∨ i = 6 ∨ i = 7 := by omega
    rcases this with rfl | rfl | rfl | rfl | rfl | rfl <;> cases b <;> rfl

theorem getF1 (attr : BitVec 32) (b : Burst) (h : attr.extractLsb' 0 2 = busCode b) (hb : b ≠ .wrap) :
    (getAttr awBurstMask attr).burst = burstCode b := by
  apply BitVec.eq_of_getLsbD_eq
  intro i hi
  have e : (getAttr awBurstMask attr).burst = getF 0 (2 ^ 1 - 1) attr := rfl
  rw [e, getLsbD_getF _ _ _ _ hi, Nat.zero_add]
  by_cases h2 : i < 1
  · rw [getF_burst _ _ (by omega), h]
    have : i = 0 := by omega
    subst this
    cases b <;> first | rfl | exact absurd rfl hb
  · rw [decide_eq_false h2, Bool.false_and]
    have : i = 1 ∨ i = 2 ∨ i = 3 ∨ i = 4 ∨ i = 5 ∨ i = 6 ∨ i = 7 := by omega
    rcases this with rfl | rfl | rfl | rfl | rfl | rfl | rfl <;> cases b <;> first | rfl | exact absurd rfl hb

theorem geo_fixed (c : Cfg) (x n : Nat) : gpAddr c (burstCode .fixed) x = x / c.db * c.db ∧ gpSw c (burstCode .fixed) n = c.db := by
  simp [gpAddr, gpSw, burstCode]
theorem geo_incr (c : Cfg) (x n : Nat) : gpAddr c (burstCode .incr) x = x ∧ gpSw c (burstCode .incr) n = n := by
  simp [gpAddr, gpSw, burstCode]
theorem geo_wrap (c : Cfg) (x n : Nat) : gpAddr c (burstCode .wrap) x = x ∧ gpSw c (burstCode .wrap) n = n := by
  simp [gpAddr, gpSw, burstCode]

/-- Where the bytes go. -/
theorem walk (db : Nat) (a : Ax) (h : Plain db a) (n l : Nat) (hn : n < a.beats) (hl : l < db) :
    gpAddr ⟨db⟩ (burstCode a.burst) a.addr + (n * db + l) % gpSw ⟨db⟩ (burstCode a.burst) (a.beats * db) = a.laneAddr db n l := by
  have hlt : n * db + l < a.beats * db := by
    have : (n + 1) * db ≤ a.beats * db := Nat.mul_le_mul_right _ hn
    rw [Nat.succ_mul] at this
    omega
  have hdm := Nat.div_add_mod a.addr db
  rw [Nat.mul_comm] at hdm
  have hal : ∀ x k, x % db = 0 → (x + k * db) / db * db = x + k * db := by
    intro x k hx
    have := Nat.div_add_mod (x + k * db) db
    rw [Nat.add_mul_mod_self_right, hx, Nat.mul_comm] at this
    omega
  unfold Ax.laneAddr Ax.beatAddr
  rcases h.start with hb | ⟨hb, ha⟩ | ⟨hb, ha⟩
  · rw [hb]
    rw [(geo_fixed _ _ 0).1, (geo_fixed _ 0 _).2]
    show a.addr / db * db + (n * db + l) % db = a.addr / db * db + l
    rw [Nat.add_comm (n * db), Nat.add_mul_mod_self_right, Nat.mod_eq_of_lt hl]
  · rw [hb]
    rw [(geo_incr _ _ 0).1, (geo_incr _ 0 _).2, Nat.mod_eq_of_lt hlt, h.wide]
    have e : (if n = 0 then a.addr else a.addr / db * db + n * db) = a.addr + n * db := by
      by_cases h0 : n = 0
      · rw [if_pos h0, h0]; omega
      · rw [if_neg h0]; omega
    rw [e, hal _ _ ha]
    omega
  · rw [hb]
    rw [(geo_wrap _ _ 0).1, (geo_wrap _ 0 _).2, Nat.mod_eq_of_lt hlt, h.wide]
    have ha' : a.addr % db = 0 := by
      have := Nat.mod_mod_of_dvd a.addr (Nat.dvd_mul_right db a.beats)
      rw [ha, Nat.zero_mod] at this
      exact this.symm
    have hlo : a.addr / (db * a.beats) * (db * a.beats) = a.addr := by
      have := Nat.div_add_mod a.addr (db * a.beats)
      rw [ha, Nat.mul_comm] at this
      omega
    have hx : a.addr / db * db = a.addr := by omega
    simp only []
    rw [hlo, hx, if_pos (by rw [Nat.mul_comm db]; omega), hal _ _ ha']
    omega

theorem lane_wide (db : Nat) (a : Ax) (hp : 0 < db) (n l : Nat) : a.laneOk db n l → a.nb = db → l < db := by
  intro h hw
  have := h.2
  unfold Ax.upper at this
  rw [hw] at this
  omega

/-- **C65, ACE to TLM, writes.** A write burst the slave side can take, received into
any rows of the write memories, does to the target's memory what the burst means
(`bs` are its beats, checked by the protocol).  Missing: narrow beats, unaligned `INCR`
and all `WRAP` bursts. -/
theorem write_delivered_partial (db : Nat) (hbus : Bus db) (x : Nat) (a : Ax) (h : Plain db a) (hnw : a.burst ≠ .wrap)
    (hx : 2 ^ x = a.nb) (attr : BitVec 32) (hattr : attr.extractLsb' 0 2 = busCode a.burst) (r : Nat)
    (od os : Nat → Byte) (bs : List WBeat) (m m' : Mem) (hm : (a.slaveWrite db bs).map (applyWrites m) = some m') :
    ∃ g, writeGp ⟨db⟩ (slvDesc db x a attr) (slvData db r bs od) (slvStrb db r bs os) (r * db) = some g ∧ (g.run m).1 = m' := by
  have hp : 0 < db := by rcases hbus with h | h | h <;> omega
  have hx0 : 0 < x := by
    have : x ≠ 0 := by
      intro e
      rw [e, h.wide] at hx
      rcases hbus with h | h | h <;> omega
    omega
  have hsz : 0 < a.beats * db := Nat.mul_pos h.beats hp
  refine ⟨{ cmd := .write, addr := gpAddr ⟨db⟩ (burstCode a.burst) a.addr, data := popBytes (slvData db r bs od) (r * db) (a.beats * db),
            be := (popBytes (slvStrb db r bs os) (r * db) (a.beats * db)).map fun b => decide (b = 0xFF),
            sw := gpSw ⟨db⟩ (burstCode a.burst) (a.beats * db) }, ?_, ?_⟩
  · unfold writeGp accepted slvDesc
    simp only [decide_eq_true hx0, decide_eq_true hsz, Bool.and_true, if_true, getF1 attr _ hattr hnw]
  · cases hs : a.slaveWrite db bs with
    | none => rw [hs] at hm; cases hm
    | some ws =>
      rw [hs, Option.map_some] at hm
      injection hm with hm
      subst hm
      have hlen := HwSlave.slave_short db a bs 0 ws hs
      rw [Nat.zero_add] at hlen
      unfold Gp.run
      simp only [popBytes_eq _ _ _ (Or.inl hsz)]
      let cell : Nat → HwSlave.Cell := fun i => (slvData db r bs od (r * db + i), decide (slvStrb db r bs os (r * db + i) = 0xFF))
      have hG : HwSlave.Geo db a (fun n => n * db) (fun _ => db) (fun _ => 0)
          (fun i => gpAddr ⟨db⟩ (burstCode a.burst) a.addr + i % gpSw ⟨db⟩ (burstCode a.burst) (a.beats * db)) := by
        refine ⟨Nat.zero_mul _, fun n _ => Nat.succ_mul _ _, fun n _ => by omega, fun n _ l hl _ => ⟨Nat.zero_le _, by omega⟩, ?_⟩
        intro n hn j hj _
        rw [Nat.zero_add]
        exact walk db a h n j hn hj
      have hcell : ∀ k w, bs[k]? = some w → ∀ j, j < db → cell (k * db + j) = (w.data j, w.strb j) := by
        intro k w hk j hj
        have e1 : (r * db + (k * db + j) - r * db) / db = k := by
          rw [show r * db + (k * db + j) - r * db = j + k * db by omega, Nat.add_mul_div_right _ _ hp, Nat.div_eq_of_lt hj, Nat.zero_add]
        have e2 : (r * db + (k * db + j)) % db = j := by
          rw [show r * db + (k * db + j) = j + k * db + r * db by omega, Nat.add_mul_mod_self_right, Nat.add_mul_mod_self_right,
            Nat.mod_eq_of_lt hj]
        have d1 : slvData db r bs od (r * db + (k * db + j)) = w.data j := by
          unfold slvData
          rw [if_pos (by omega), e1, e2, hk]
        have d2 : slvStrb db r bs os (r * db + (k * db + j)) = if w.strb j then 0xFF else 0 := by
          unfold slvStrb
          rw [if_pos (by omega), e1, e2, hk]
        simp only [cell]
        rw [d1]
        simp only [d2]
        cases w.strb j <;> simp
      have hS := HwSlave.slave_writes hG cell bs 0 ws hs (by
        intro k w hk j hj
        simp only [Nat.zero_add]
        exact hcell k w hk j hj)
      simp only [Nat.zero_mul, Nat.sub_zero] at hS
      rw [← hS]
      have hW := HwSlave.writeFrom_writes
        (fun i => gpAddr ⟨db⟩ (burstCode a.burst) a.addr + i % gpSw ⟨db⟩ (burstCode a.burst) (a.beats * db)) cell
        (gpAddr ⟨db⟩ (burstCode a.burst) a.addr) (gpSw ⟨db⟩ (burstCode a.burst) (a.beats * db))
        (((List.range (a.beats * db)).map fun i => slvStrb db r bs os (r * db + i)).map fun b => decide (b = 0xFF))
        ((List.range (a.beats * db)).map fun i => slvData db r bs od (r * db + i)) m 0 (by
          intro j hj
          rw [List.length_map, List.length_range] at hj
          refine ⟨?_, fun _ => ⟨?_, rfl⟩⟩
          · rw [← HwMaster.beEnabled_getD _ (by
              intro e
              have := congrArg List.length e
              rw [List.length_map, List.length_map, List.length_range, List.length_nil] at this
              omega)]
            simp only [List.length_map, List.length_range, Nat.zero_add, Nat.mod_eq_of_lt hj]
            rw [List.getD_eq_getElem?_getD, List.getElem?_map, List.getElem?_map, List.getElem?_range hj]
            rfl
          · rw [List.getD_eq_getElem?_getD, List.getElem?_map, List.getElem?_range hj, Nat.zero_add]
            rfl)
      rw [List.length_map, List.length_range] at hW
      exact hW

/-- **C65, ACE to TLM, reads.** The data the target reads for a burst the slave side
can take is on the right lanes of every beat. -/
theorem read_served_partial (db : Nat) (hbus : Bus db) (x : Nat) (a : Ax) (h : Plain db a) (hx : 2 ^ x = a.nb)
    (attr : BitVec 32) (hattr : attr.extractLsb' 0 2 = busCode a.burst) (junk : List Byte) (hj : junk.length = a.beats * db)
    (ram : Nat → Byte) (m : Mem) :
    ∃ g f, readGp ⟨db⟩ (slvDesc db x a attr) junk = some g ∧ readReply false ram (g.run m).2 = some f ∧
      ∀ n, n < a.beats → a.readBeatOk db m n fun l => f (n * db + l) := by
  have hp : 0 < db := by rcases hbus with h | h | h <;> omega
  have hx0 : 0 < x := by
    have : x ≠ 0 := by
      intro e
      rw [e, h.wide] at hx
      rcases hbus with h | h | h <;> omega
    omega
  have hsz : 0 < a.beats * db := Nat.mul_pos h.beats hp
  refine ⟨{ cmd := .read, addr := gpAddr ⟨db⟩ (burstCode a.burst) a.addr, data := junk, sw := gpSw ⟨db⟩ (burstCode a.burst) (a.beats * db) }, _, ?_, rfl, ?_⟩
  · unfold readGp accepted slvDesc
    simp only [decide_eq_true hx0, decide_eq_true hsz, Bool.and_true, if_true, getF3 attr _ hattr]
  · intro n hn l hl _
    have hlt : n * db + l < a.beats * db := by
      have : (n + 1) * db ≤ a.beats * db := Nat.mul_le_mul_right _ hn
      rw [Nat.succ_mul] at this
      omega
    simp only [Gp.run]
    rw [readFrom_all _ _ _ _ _ _ (fun j _ _ => HwMaster.beEnabled_nil j), pushBytes_get _ _ _ _ _ (Nat.le_refl _)]
    rw [if_pos (by rw [List.length_map, List.length_range', hj]; omega), Nat.sub_zero, List.getD_eq_getElem?_getD, List.getElem?_map,
      List.getElem?_range' (by omega), ← walk db a h n l hn hl]
    simp

/-- **C65, responses.** A decode error, a slave error or none; `EXOKAY` only for an
exclusive access that was handled. -/
theorem response_right (st : Status) (ex hd : Bool) :
    (respOf st ex hd = .decerr ↔ st = .address) ∧ (respOf st ex hd = .slverr ↔ st = .generic) ∧
    (respOf st ex hd = .exokay ↔ st ≠ .address ∧ st ≠ .generic ∧ ex = true ∧ hd = true) := by
  cases st <;> cases ex <;> cases hd <;> decide

example : Plain 8 { addr := 0x40, nb := 8, beats := 3, burst := .incr } ∧ Plain 4 { addr := 0x42, nb := 4, beats := 2, burst := .fixed } ∧
    Plain 16 { addr := 0x40, nb := 16, beats := 4, burst := .wrap } := by
  refine ⟨⟨rfl, by decide, by decide⟩, ⟨rfl, by decide, by decide⟩, ⟨rfl, by decide, by decide⟩⟩

/-- A write that meets every hypothesis, with a concrete effect. -/
example : let bs : List WBeat := [⟨fun l => BitVec.ofNat 8 (0x10 + l), fun l => decide (l ≠ 1), false⟩, ⟨fun l => BitVec.ofNat 8 (0x20 + l), fun _ => true, true⟩]
    (writeGp ⟨4⟩ (slvDesc 4 2 { addr := 8, nb := 4, beats := 2, burst := .incr } 1) (slvData 4 3 bs fun _ => 0) (slvStrb 4 3 bs fun _ => 0) 12).map
      (fun g => (g.addr, g.data, g.be, ((g.run fun _ => 0xEE).1 8, (g.run fun _ => 0xEE).1 9, (g.run fun _ => 0xEE).1 15))) =
    some (8, [0x10, 0x11, 0x12, 0x13, 0x20, 0x21, 0x22, 0x23], [true, false, true, true, true, true, true, true], (0x10, 0xEE, 0x23)) := by
  decide +kernel

/-! ## What the slave side gets wrong -/

/-- The size code of the burst is taken for its number of bytes: a legal burst of
one-byte beats has code 0 and the bridge's assertion fails, for reads and writes. -/
theorem byte_burst_asserts (db : Nat) (a : Ax) (h : a.nb = 1) (x : Nat) (hx : 2 ^ x = a.nb) (attr : BitVec 32)
    (wd ws : Nat → Byte) (off : Nat) (junk : List Byte) :
    writeGp ⟨db⟩ (slvDesc db x a attr) wd ws off = none ∧ readGp ⟨db⟩ (slvDesc db x a attr) junk = none := by
  have hx0 : x = 0 := by
    rw [h] at hx
    cases x with
    | zero => rfl
    | succ k => rw [Nat.pow_succ] at hx; omega
  subst hx0
  exact ⟨rfl, rfl⟩

/-- An unaligned incrementing write: the target's bytes move up by the offset of the
address within the bus word. -/
theorem unaligned_write_shifted :
    ∃ (a : Ax) (bs : List WBeat) (g : Gp), HwSlave.Legal 4 a ∧ a.slaveWrite 4 bs = some [(0x42, 7), (0x43, 8)] ∧
      writeGp ⟨4⟩ (slvDesc 4 2 a 1) (slvData 4 0 bs fun _ => 0) (slvStrb 4 0 bs fun _ => 0) 0 = some g ∧
      (g.run fun _ => 0).1 0x44 = 7 ∧ (g.run fun _ => 0).1 0x45 = 8 ∧ (g.run fun _ => 0).1 0x42 = 0 := by
  refine ⟨{ addr := 0x42, nb := 4, beats := 1, burst := .incr }, [⟨fun l => BitVec.ofNat 8 (5 + l), fun l => decide (2 ≤ l), true⟩],
    { cmd := .write, addr := 0x42, data := [5, 6, 7, 8], be := [false, false, true, true], sw := 4 }, ?_, ?_, ?_, ?_, ?_, ?_⟩
  · exact ⟨⟨2, rfl⟩, ⟨1, rfl⟩, by decide, by decide, by decide, by decide⟩
  all_goals decide +kernel

/-- A narrow write: two beats of 4 bytes on an 8-byte bus become 16 bytes; the second
beat lands 8 bytes too far. -/
theorem narrow_write_spread :
    ∃ (a : Ax) (bs : List WBeat) (g : Gp), HwSlave.Legal 8 a ∧
      a.slaveWrite 8 bs = some [(0x40, 0), (0x41, 1), (0x42, 2), (0x43, 3), (0x44, 4), (0x45, 5), (0x46, 6), (0x47, 7)] ∧
      writeGp ⟨8⟩ (slvDesc 8 2 a 1) (slvData 8 0 bs fun _ => 0) (slvStrb 8 0 bs fun _ => 0) 0 = some g ∧
      (g.run fun _ => 0).1 0x44 = 0 ∧ (g.run fun _ => 0).1 0x4C = 4 := by
  refine ⟨{ addr := 0x40, nb := 4, beats := 2, burst := .incr },
    [⟨fun l => BitVec.ofNat 8 l, fun l => decide (l < 4), false⟩, ⟨fun l => BitVec.ofNat 8 l, fun l => decide (4 ≤ l), true⟩],
    { cmd := .write, addr := 0x40, data := [0, 1, 2, 3, 4, 5, 6, 7, 0, 1, 2, 3, 4, 5, 6, 7],
      be := [true, true, true, true, false, false, false, false, false, false, false, false, true, true, true, true], sw := 16 }, ?_, ?_, ?_, ?_, ?_⟩
  · exact ⟨⟨2, rfl⟩, ⟨2, rfl⟩, by decide, by decide, by decide, by decide⟩
  all_goals decide +kernel

/-- A wrapping write, even from its boundary: taken for `FIXED`, the second beat
overwrites the first. -/
theorem wrap_write_lost :
    ∃ (a : Ax) (bs : List WBeat) (g : Gp), HwSlave.Legal 4 a ∧ a.burst = .wrap ∧
      a.slaveWrite 4 bs = some [(0x40, 1), (0x41, 1), (0x42, 1), (0x43, 1), (0x44, 2), (0x45, 2), (0x46, 2), (0x47, 2)] ∧
      writeGp ⟨4⟩ (slvDesc 4 2 a 2) (slvData 4 0 bs fun _ => 0) (slvStrb 4 0 bs fun _ => 0) 0 = some g ∧
      (g.run fun _ => 0).1 0x40 = 2 ∧ (g.run fun _ => 0).1 0x44 = 0 := by
  refine ⟨{ addr := 0x40, nb := 4, beats := 2, burst := .wrap }, [⟨fun _ => 1, fun _ => true, false⟩, ⟨fun _ => 2, fun _ => true, true⟩],
    { cmd := .write, addr := 0x40, data := [1, 1, 1, 1, 2, 2, 2, 2], be := List.replicate 8 true, sw := 4 }, ?_, rfl, ?_, ?_, ?_, ?_⟩
  · exact ⟨⟨2, rfl⟩, ⟨1, rfl⟩, by decide, by decide, by decide, by decide⟩
  all_goals decide +kernel

/-- A wrapping read not from its boundary: the second beat is taken from behind the
wrap. -/
theorem wrap_read_wrong :
    ∃ (a : Ax) (m : Mem) (g : Gp) (f : Nat → Byte), HwSlave.Legal 4 a ∧ a.burst = .wrap ∧
      readGp ⟨4⟩ (slvDesc 4 2 a 2) (List.replicate 8 0) = some g ∧ readReply false (fun _ => 0) (g.run m).2 = some f ∧
      ¬ a.readBeatOk 4 m 1 fun l => f (4 + l) := by
  refine ⟨{ addr := 0x44, nb := 4, beats := 2, burst := .wrap }, fun a => BitVec.ofNat 8 a,
    { cmd := .read, addr := 0x44, data := List.replicate 8 0, sw := 8 }, _, ?_, rfl, ?_, rfl, ?_⟩
  · exact ⟨⟨2, rfl⟩, ⟨1, rfl⟩, by decide, by decide, by decide, by decide⟩
  · decide +kernel
  · intro h
    have := h 0 (by decide) (by decide)
    revert this
    decide +kernel

/-- Commands answered with a single beat: the bridge sends 16 bytes whatever the size
of the buffer it allocated for the burst; one beat on a 4- or 8-byte bus reads behind
it. -/
theorem single_beat_overrun (ram : Nat → Byte) (db : Nat) (h : db = 4 ∨ db = 8) (d : List Byte) (hd : d.length = db) :
    readReply true ram d = none := by
  unfold readReply
  rw [if_pos rfl, if_neg (by omega)]

end Verif.AceHw
