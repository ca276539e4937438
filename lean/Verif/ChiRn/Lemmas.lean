import Verif.ChiRn.Model
import Verif.ChiSn.One

namespace Verif.ChiRn
open Verif.ChiSn

theorem writeFrom_get (be : List Bool) : ∀ (d : List Byte) (m : Mem) (a sw i x : Nat), i + d.length ≤ sw →
    writeFrom m a sw be i d x =
      if a + i ≤ x ∧ x < a + i + d.length ∧ beEnabled be (x - a) = true then d.getD (x - a - i) 0 else m x
  | [], m, a, sw, i, x, _ => by
    rw [if_neg (by simp only [List.length_nil]; omega)]; rfl
  | c :: cs, m, a, sw, i, x, h => by
    simp only [List.length_cons] at h ⊢
    rw [writeFrom, writeFrom_get be cs _ a sw (i + 1) x (by omega), Nat.mod_eq_of_lt (by omega)]
    by_cases hx : x = a + i
    · subst hx
      rw [if_neg (by omega), show a + i - a = i by omega]
      by_cases hb : beEnabled be i = true
      · rw [if_pos hb, if_pos ⟨by omega, by omega, hb⟩]
        simp [Mem.set]
      · rw [if_neg hb, if_neg (fun h => hb h.2.2)]
    · have hm : (if beEnabled be i = true then m.set (a + i) c else m) x = m x := by
        by_cases hb : beEnabled be i = true
        · rw [if_pos hb]; exact if_neg hx
        · rw [if_neg hb]
      rw [hm]
      by_cases hc : a + i ≤ x ∧ x < a + i + (cs.length + 1) ∧ beEnabled be (x - a) = true
      · rw [if_pos hc, if_pos ⟨by omega, by omega, hc.2.2⟩]
        rw [show x - a - i = (x - a - (i + 1)) + 1 by omega]
        simp
      · rw [if_neg hc, if_neg (fun h => hc ⟨by omega, by omega, h.2.2⟩)]

theorem readFrom_get (be : List Bool) : ∀ (d : List Byte) (m : Mem) (a sw i : Nat), i + d.length ≤ sw →
    readFrom m a sw be i d = (List.range d.length).map fun k =>
      if beEnabled be (i + k) = true then m (a + i + k) else d.getD k 0
  | [], m, a, sw, i, _ => rfl
  | c :: cs, m, a, sw, i, h => by
    simp only [List.length_cons] at h ⊢
    rw [readFrom, readFrom_get be cs m a sw (i + 1) (by omega), Nat.mod_eq_of_lt (by omega),
      List.range_succ_eq_map, List.map_cons, List.map_map]
    congr 1
    apply List.map_congr_left
    intro k _
    simp only [Function.comp, Nat.succ_eq_add_one]
    rw [show i + 1 + k = i + (k + 1) by omega, show a + (i + 1) + k = a + i + (k + 1) by omega]
    simp

theorem beEnabled_map (en : Nat → Bool) {i : Nat} (hi : i < 64) :
    beEnabled ((List.range lineSz).map en) i = en i := by
  unfold beEnabled
  have : ((List.range lineSz).map en).length = 64 := by simp
  rw [this, Nat.mod_eq_of_lt hi, List.getElem?_map, List.getElem?_range hi]
  rfl

theorem getD_map (f : Nat → Byte) {i : Nat} (hi : i < 64) : ((List.range lineSz).map f).getD i 0 = f i := by
  rw [List.getD_eq_getElem?_getD, List.getElem?_map, List.getElem?_range hi]; rfl

/-- What the slave node holds after a line has travelled to it. -/
def landed (r : Req) (l junk : Line) : Txn :=
  ⟨r, fun i => if i < 64 ∧ l.en i = true then l.buf i else junk.buf i,
    fun i => if i < 64 then l.en i else junk.en i, 64⟩

theorem withData_eq (r : Req) (l junk : Line) (m : Mem) : withData r l junk m = perform (landed r l junk) m := by
  have e : copyData ⟨r, junk.buf, junk.en, 0⟩ (homeCopy l).msg = some (landed r l junk) := by
    unfold copyData
    have hl : (homeCopy l).msg.data.length = 64 := by simp [Line.msg]
    have h0 : (homeCopy l).msg.did = 0 := rfl
    simp only [hl, h0, Nat.zero_mul, Nat.sub_zero, Nat.min_self, Nat.zero_add, Nat.zero_le, true_and, if_true]
    unfold landed
    congr 2
    · funext i
      by_cases hi : i < 64
      · have hb : beEnabled (homeCopy l).msg.be i = l.en i := beEnabled_map _ hi
        have hd : (homeCopy l).msg.data.getD i 0 = if l.en i = true then l.buf i else 0 := getD_map _ hi
        rw [hb, hd]
        by_cases he : l.en i = true
        · simp only [hi, he, and_self, if_true]
        · rw [if_neg (fun h => he h.2), if_neg (fun h => he h.2)]
      · rw [if_neg (fun h => hi h.1), if_neg (fun h => hi h.1)]
    · funext i
      by_cases hi : i < 64
      · have hb : beEnabled (homeCopy l).msg.be i = l.en i := beEnabled_map _ hi
        rw [if_pos hi, if_pos hi, hb]
      · rw [if_neg hi, if_neg hi]
  unfold withData
  rw [e]; rfl

/-! ### Writes -/

theorem writeOne_eq (g : Gp) (addr pos tag : Nat) (junk : Line) (m : Mem) :
    writeOne g addr pos tag junk m = some (fun x =>
      if addr ≤ x ∧ x < addr + min (g.len - pos) (64 - addr % 64) ∧ beEnabled g.be (pos + (x - addr)) = true
      then g.data.getD (pos + (x - addr)) 0 else m x) := by
  have hp : ∀ (t : Txn), t.req = snWrite (addr / lineSz * lineSz) tag → perform t m = some (specMem t m, none) := by
    intro t ht
    have hw : t.req.isWrite = true := by rw [ht]; rfl
    rw [← writeDo_eq t m hw (by rw [ht]; exact Nat.dvd_refl 64)]
    unfold perform
    rw [ht]; rfl
  unfold writeOne
  rw [withData_eq, hp _ rfl]
  simp only [Option.map_some]
  congr 1
  funext x
  have hw : (landed (snWrite (addr / lineSz * lineSz) tag) (copyNonCached g pos (addr % lineSz)) junk).req.isWrite
    = true := rfl
  unfold specMem
  simp only [hw, if_true]
  simp only [landed, snWrite, copyNonCached, lineSz]
  have hx : x % 64 < 64 := Nat.mod_lt _ (by decide)
  simp only [hx, if_true, true_and]
  by_cases hb : addr / 64 * 64 ≤ x ∧ x / 64 = addr / 64 * 64 / 64
  · obtain ⟨b1, b2⟩ := hb
    have b3 : x / 64 = addr / 64 := by omega
    by_cases ha : addr ≤ x
    · have e1 : x % 64 - addr % 64 = x - addr := by omega
      have e2 : addr % 64 ≤ x % 64 := by omega
      have e3 : (x % 64 < addr % 64 + min (g.len - pos) (64 - addr % 64)) ↔
          (x < addr + min (g.len - pos) (64 - addr % 64)) := by omega
      simp only [e1, e2, e3, b1, b2, ha, true_and, decide_true, Bool.true_and, Bool.and_eq_true,
        decide_eq_true_eq]
      by_cases hc : x < addr + min (g.len - pos) (64 - addr % 64) ∧ beEnabled g.be (pos + (x - addr)) = true
      · simp only [hc, if_true, and_self]
      · rw [if_neg hc, if_neg hc]
    · have e2 : ¬ addr % 64 ≤ x % 64 := by omega
      simp [e2, ha]
  · rw [if_neg (fun h => hb ⟨h.1, h.2.1⟩), if_neg]
    rintro ⟨h1, h2, _⟩
    apply hb
    omega

theorem writeLoop_eq (g : Gp) (tag : Nat) (junk : Line) : ∀ (fuel pos : Nat) (m : Mem),
    g.len - pos ≤ fuel → (pos % 64 = 0 ∨ g.len ≤ pos) →
    writeLoop g tag junk fuel (g.addr + pos) pos m = some (fun x =>
      if g.addr + pos ≤ x ∧ x < g.addr + g.len ∧ beEnabled g.be (x - g.addr) = true ∧
        (x - g.addr) % 64 + g.addr % 64 < 64
      then g.data.getD (x - g.addr) 0 else m x)
  | 0, pos, m, hf, _ => by
    unfold writeLoop
    congr 1
    funext x
    rw [if_neg (by omega)]
  | fuel + 1, pos, m, hf, hp => by
    unfold writeLoop
    by_cases h : pos < g.len
    · rw [if_pos h, writeOne_eq]
      simp only [Option.bind_some]
      rw [Nat.add_assoc, writeLoop_eq g tag junk fuel _ _ (by simp only [lineSz]; omega) (by simp only [lineSz]; omega)]
      congr 1
      funext x
      simp only [lineSz]
      have ho : (g.addr + pos) % 64 = g.addr % 64 := by omega
      rw [ho]
      by_cases hx : g.addr + pos ≤ x ∧ x < g.addr + pos + min (g.len - pos) 64
      · have e : pos + (x - (g.addr + pos)) = x - g.addr := by omega
        rw [if_neg (by omega), e]
        refine ite_cong ?_ ?_ (fun _ => rfl)
        · rintro ⟨a, b, c⟩; exact ⟨a, by omega, c, by omega⟩
        · rintro ⟨a, b, c, d⟩; exact ⟨a, by omega, c⟩
      · have e : (if g.addr + pos ≤ x ∧ x < g.addr + pos + min (g.len - pos) (64 - g.addr % 64) ∧
            beEnabled g.be (pos + (x - (g.addr + pos))) = true then
            g.data.getD (pos + (x - (g.addr + pos))) 0 else m x) = m x := if_neg (by omega)
        rw [e]
        refine ite_cong ?_ ?_ (fun _ => rfl)
        · rintro ⟨a, b⟩; exact ⟨by omega, b⟩
        · rintro ⟨a, b⟩; exact ⟨by omega, b⟩
    · rw [if_neg h]
      congr 1
      funext x
      rw [if_neg (by omega)]

/-! ### Reads -/

theorem readOne_eq (g : Gp) (addr pos tag : Nat) (junk : Line) (m : Mem) (buf : List Byte) :
    readOne true g addr pos tag junk m buf = some ((List.range buf.length).map fun i =>
      if pos ≤ i ∧ i < pos + min (g.len - pos) (64 - addr % 64) ∧ beEnabled g.be i = true
      then m (addr + (i - pos)) else buf.getD i 0) := by
  unfold readOne
  have hp : perform ⟨⟨0x04, addr / lineSz * lineSz, lineSz, false, 0, false, tag⟩, junk.buf, junk.en, 0⟩ m =
      some (m, some ⟨tag, m.range (addr / 64 * 64) 64, none, false, true⟩) := by
    have := readDo_eq ⟨⟨0x04, addr / lineSz * lineSz, lineSz, false, 0, false, tag⟩, junk.buf, junk.en, 0⟩ m rfl
    have e : addr / 64 * 64 / 64 * 64 = addr / 64 * 64 := by omega
    simp only [lineSz, e] at this
    exact this
  rw [hp]
  simp only [Option.bind_some, arrive, if_true]
  have hr : readCopy ⟨0, m.range (addr / 64 * 64) 64, List.replicate (m.range (addr / 64 * 64) 64).length true⟩ =
      some (fun i => if i < 64 then m (addr / 64 * 64 + i) else 0) := by
    unfold readCopy
    simp only [Mem.range_length, List.length_replicate, Nat.zero_mul, Nat.sub_zero, Nat.zero_add, Nat.zero_le,
      true_and]
    rw [if_neg (by simp)]
    congr 1
    funext i
    by_cases hi : i < 64
    · rw [if_pos (by simpa using hi), if_pos hi]
      unfold Mem.range
      rw [List.getD_eq_getElem?_getD, List.getElem?_map, List.getElem?_range hi]; rfl
    · rw [if_neg (by simpa using hi), if_neg hi]
  rw [hr]
  simp only [Option.map_some, fetch, lineSz]
  congr 1
  apply List.map_congr_left
  intro i _
  by_cases h : pos ≤ i ∧ i < pos + min (g.len - pos) (64 - addr % 64) ∧ beEnabled g.be i = true
  · rw [if_pos h, if_pos h, if_pos (by omega)]
    congr 1
    omega
  · rw [if_neg h, if_neg h]

theorem readLoop_eq (g : Gp) (tag : Nat) (junk : Line) (m : Mem) : ∀ (fuel pos : Nat) (buf : List Byte),
    g.len - pos ≤ fuel → buf.length = g.len →
    readLoop true g tag junk m fuel (g.addr + pos) pos buf = some ((List.range g.len).map fun i =>
      if pos ≤ i ∧ beEnabled g.be i = true then m (g.addr + i) else buf.getD i 0)
  | 0, pos, buf, hf, hb => by
    unfold readLoop
    congr 1
    apply List.ext_getElem
    · simp [hb]
    intro i h1 h2
    simp only [List.getElem_map, List.getElem_range]
    rw [if_neg (by omega)]
    simp [h1]
  | fuel + 1, pos, buf, hf, hb => by
    unfold readLoop
    by_cases h : pos < g.len
    · rw [if_pos h, readOne_eq]
      simp only [Option.bind_some]
      rw [Nat.add_assoc, readLoop_eq g tag junk m fuel _ _ (by simp only [lineSz]; omega) (by simp [hb])]
      congr 1
      apply List.map_congr_left
      intro i hi
      have hi := List.mem_range.1 hi
      simp only [lineSz, hb]
      rw [List.getD_eq_getElem?_getD, List.getElem?_map, List.getElem?_range hi]
      simp only [Option.map_some, Option.getD_some]
      by_cases hi2 : pos + min (g.len - pos) (64 - (g.addr + pos) % 64) ≤ i
      · have e : (if pos ≤ i ∧ i < pos + min (g.len - pos) (64 - (g.addr + pos) % 64) ∧
            beEnabled g.be i = true then m (g.addr + pos + (i - pos)) else buf.getD i 0) = buf.getD i 0 :=
          if_neg (by omega)
        rw [e]
        refine ite_cong ?_ ?_ (fun _ => rfl)
        · rintro ⟨_, b⟩; exact ⟨by omega, b⟩
        · rintro ⟨_, b⟩; exact ⟨hi2, b⟩
      · rw [if_neg (fun h => hi2 h.1)]
        refine ite_cong ?_ ?_ (fun _ => by congr 1; omega)
        · rintro ⟨a, _, b⟩; exact ⟨a, b⟩
        · rintro ⟨a, b⟩; exact ⟨a, by omega, b⟩
    · rw [if_neg h]
      congr 1
      apply List.ext_getElem
      · simp [hb]
      intro i h1 h2
      simp only [List.getElem_map, List.getElem_range]
      rw [if_neg (by omega)]
      simp [h1]

end Verif.ChiRn
