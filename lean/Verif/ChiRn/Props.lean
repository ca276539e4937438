import Verif.ChiRn.Lemmas
import Verif.ChiRn.Spec

namespace Verif.ChiRn
open Verif.ChiSn

/-! ### Non-shareable regions -/

/-- A read in a non-shareable region returns the bytes of memory at any address, of any length and
with any byte enables, over links. -/
theorem read_right (g : Gp) (tag : Nat) (junk : Line) (m : Mem) :
    readNoSnp true g tag junk m = some (Gp.run ⟨.read, g.addr, g.data, g.be, g.len⟩ m).2 := by
  unfold readNoSnp
  have := readLoop_eq g tag junk m g.len 0 g.data (by omega) rfl
  simp only [Nat.add_zero] at this
  rw [this]
  simp only [Gp.run]
  rw [readFrom_get _ _ _ _ _ _ (by unfold Gp.len; omega)]
  congr 1
  apply List.map_congr_left
  intro i _
  simp

/-- What a write in a non-shareable region (or a store issued as WriteUnique) does to memory: the
enabled bytes arrive, except those of each group of 64 that lie beyond the line in which
the group starts. -/
theorem write_exact (g : Gp) (tag : Nat) (junk : Line) (m : Mem) :
    writeNoSnp g tag junk m = some (fun x =>
      if g.addr ≤ x ∧ x < g.addr + g.len ∧ beEnabled g.be (x - g.addr) = true ∧
        (x - g.addr) % 64 + g.addr % 64 < 64
      then g.data.getD (x - g.addr) 0 else m x) := by
  have := writeLoop_eq g tag junk g.len 0 m (by omega) (.inl rfl)
  simp only [Nat.add_zero] at this
  exact this

/-- A write that starts on a line or stays within one puts just the enabled bytes into memory.
Missing from the full statement: writes that cross a line from an unaligned address, for
which it is false (`write_tail_lost`). -/
theorem write_right_partial (g : Gp) (tag : Nat) (junk : Line) (m : Mem)
    (h : g.addr % 64 = 0 ∨ g.addr % 64 + g.len ≤ 64) :
    writeNoSnp g tag junk m = some (Gp.run ⟨.write, g.addr, g.data, g.be, g.len⟩ m).1 := by
  rw [write_exact]
  simp only [Gp.run]
  congr 1
  funext x
  rw [writeFrom_get _ _ _ _ _ _ _ (by unfold Gp.len; omega)]
  refine ite_cong (fun ⟨a, b, c, d⟩ => ?_) (fun ⟨a, b, c⟩ => ?_) (fun _ => by simp)
  · exact ⟨by omega, by unfold Gp.len at b; omega, c⟩
  · unfold Gp.len at h ⊢
    refine ⟨by omega, by omega, c, ?_⟩
    have := Nat.mod_le (x - g.addr) 64
    have := Nat.mod_lt (x - g.addr) (show 64 > 0 by decide)
    omega

/-- Every write that crosses a line from an unaligned address, all bytes enabled, loses bytes: the
first byte of the second line is not written. -/
theorem write_tail_lost (g : Gp) (tag : Nat) (junk : Line) (m : Mem) (hb : g.be = [])
    (h0 : g.addr % 64 ≠ 0) (h1 : 64 < g.addr % 64 + g.len) :
    ∃ m' i, i < g.len ∧ writeNoSnp g tag junk m = some m' ∧ m' (g.addr + i) = m (g.addr + i) ∧
      (Gp.run ⟨.write, g.addr, g.data, g.be, g.len⟩ m).1 (g.addr + i) = g.data.getD i 0 := by
  refine ⟨_, 64 - g.addr % 64, by omega, write_exact g tag junk m, if_neg ?_, ?_⟩
  · rintro ⟨_, _, _, h⟩
    omega
  · simp only [Gp.run]
    rw [writeFrom_get _ _ _ _ _ _ _ (by unfold Gp.len; omega), if_pos ?_]
    · congr 1
      omega
    · unfold Gp.len at h1
      exact ⟨by omega, by omega, by rw [hb]; rfl⟩

/-- On a connection without links a read fails an assertion. -/
theorem direct_read_asserts (g : Gp) (tag : Nat) (junk : Line) (m : Mem) (h : 0 < g.len) :
    readNoSnp false g tag junk m = none := by
  unfold readNoSnp
  obtain ⟨k, hk⟩ : ∃ k, g.len = k + 1 := ⟨g.len - 1, by omega⟩
  rw [hk]
  unfold readLoop
  rw [if_pos h]
  have : ∀ addr pos buf, readOne false g addr pos tag junk m buf = none := by
    intro addr pos buf
    unfold readOne
    have hp := readDo_eq ⟨⟨0x04, addr / lineSz * lineSz, lineSz, false, 0, false, tag⟩, junk.buf, junk.en, 0⟩ m rfl
    have e : perform ⟨⟨0x04, addr / lineSz * lineSz, lineSz, false, 0, false, tag⟩, junk.buf, junk.en, 0⟩ m =
      some (m, some ⟨tag, m.range (addr / lineSz * lineSz / 64 * 64) 64, none, false, true⟩) := hp
    rw [e]
    simp only [Option.bind_some, arrive]
    unfold readCopy
    rw [if_pos (.inl (by simp))]
    rfl
  rw [this]
  rfl

/-! ### Atomics -/

theorem take_len {d : List Byte} {n : Nat} (h : n ≤ d.length) : (d.take n).length = n := by
  rw [List.length_take]; omega

theorem at_of {t : Txn} {a n : Nat} {d : List Byte} (hd : d.length = n)
    (h : ∀ i, i < n → t.buf ((a + i) % 64) = d.getD i 0) : t.at a n = d := by
  unfold Txn.at
  apply List.ext_getElem
  · simp [hd]
  intro i h1 h2
  simp only [List.length_map, List.length_range] at h1
  simp only [List.getElem_map, List.getElem_range]
  rw [h i h1]
  simp [h2]

theorem put_at {l junk : Line} {r : Req} {a : Nat} {d : List Byte} (hf : a % 64 + d.length ≤ 64) :
    (landed r (l.put (a % 64) d) junk).at a d.length = d := by
  apply at_of rfl
  intro i hi
  have e : (a + i) % 64 = a % 64 + i := by omega
  simp only [landed, Line.put, e]
  have h1 : a % 64 ≤ a % 64 + i := by omega
  have h2 : a % 64 + i < a % 64 + d.length := by omega
  have h3 : a % 64 + i < 64 := by omega
  simp only [h1, h2, h3, decide_true, Bool.and_self, Bool.true_or, and_self, if_true]
  congr 1
  omega

/-- Putting other bytes elsewhere does not disturb. -/
theorem put_put_at {l junk : Line} {r : Req} {a b : Nat} {d e : List Byte} (hf : a % 64 + d.length ≤ 64)
    (hn : a % 64 + d.length ≤ b ∨ b + e.length ≤ a % 64) :
    (landed r ((l.put (a % 64) d).put b e) junk).at a d.length = d := by
  apply at_of rfl
  intro i hi
  have h0 : (a + i) % 64 = a % 64 + i := by omega
  simp only [landed, Line.put, h0]
  have h1 : a % 64 ≤ a % 64 + i := by omega
  have h2 : a % 64 + i < a % 64 + d.length := by omega
  have h3 : a % 64 + i < 64 := by omega
  have h4 : ¬ (b ≤ a % 64 + i ∧ a % 64 + i < b + e.length) := by omega
  simp only [h1, h2, h3, h4, decide_true, Bool.and_self, Bool.true_or, Bool.or_true, and_self, if_true, if_false]
  congr 1
  omega

theorem filter_window (off n : Nat) : ∀ k, off + n ≤ k →
    ((List.range k).filter fun i => decide (off ≤ i ∧ i < off + n)).length = n
  | 0, h => by simp; omega
  | k + 1, h => by
    rw [List.range_succ, List.filter_append, List.length_append]
    by_cases hk : off + n ≤ k
    · rw [filter_window off n k hk]
      have : decide (off ≤ k ∧ k < off + n) = false := by simp; omega
      simp only [List.filter_cons, this, List.filter_nil]
      rfl
    · have e : off + n = k + 1 := by omega
      cases n with
      | zero =>
        have : ((List.range k).filter fun i => decide (off ≤ i ∧ i < off + 0)) = [] := by
          rw [List.filter_eq_nil_iff]; intro i _; simp
        rw [this]
        have : decide (off ≤ k ∧ k < off + 0) = false := by simp
        simp only [List.filter_cons, this, List.filter_nil]
        rfl
      | succ n =>
        have : ((List.range k).filter fun i => decide (off ≤ i ∧ i < off + (n + 1))) =
            (List.range k).filter fun i => decide (off ≤ i ∧ i < off + n) := by
          apply List.filter_congr
          intro i hi
          have := List.mem_range.1 hi
          rw [decide_eq_decide]
          omega
        rw [this, filter_window off n k (by omega)]
        have : decide (off ≤ k ∧ k < off + (n + 1)) = true := by simp; omega
        simp only [List.filter_cons, this, List.filter_nil, if_true]
        rfl

/-- What the cache makes of the slave node's answer to an atomic. -/
theorem answer_read {link : Bool} {g : Gp} {l : Line} {m : Mem} {o : Out}
    (hc : CarriesBytes m g.addr g.len o) (hf : g.addr % 64 + g.len ≤ 64) :
    ∃ c, atomicCopy l (arrive link o) = some c ∧ c.2 = g.len ∧
      fetch g c.1 0 (g.addr % 64) g.data = (Gp.run ⟨.read, g.addr, g.data, g.be, g.len⟩ m).2 := by
  obtain ⟨h1, be, h2, h3, h4⟩ := hc
  have hb : ∀ i, i < 64 → beEnabled be i = be.getD i false := by
    intro i hi
    unfold beEnabled
    rw [h3, Nat.mod_eq_of_lt hi, List.getD_eq_getElem?_getD, List.getElem?_eq_getElem (by omega)]
    rfl
  have ha : arrive link o = ⟨0, o.data, be⟩ := by unfold arrive; rw [h2]
  refine ⟨(fun i => if i < 64 ∧ beEnabled be i = true then o.data.getD i 0 else l.buf i,
    ((List.range 64).filter fun i => beEnabled be i).length), ?_, ?_, ?_⟩
  · rw [ha]
    unfold atomicCopy
    simp only [h1, h3, Nat.zero_mul, Nat.sub_zero, lineSz, Nat.min_self]
    rw [if_neg (by simp)]
  · show ((List.range 64).filter fun i => beEnabled be i).length = g.len
    rw [← filter_window (g.addr % 64) g.len 64 hf]
    congr 1
    apply List.filter_congr
    intro i hi
    have hi := List.mem_range.1 hi
    rw [hb i hi]
    have := (h4 i hi).1
    rw [Bool.eq_iff_iff, this, decide_eq_true_eq]
    omega
  · simp only [Gp.run]
    rw [readFrom_get _ _ _ _ _ _ (by unfold Gp.len; omega)]
    unfold fetch
    apply List.map_congr_left
    intro i hi
    have hi := List.mem_range.1 hi
    have hl : g.len = g.data.length := rfl
    have hi2 : g.addr % 64 + (i - 0) < 64 := by omega
    have e1 : (beEnabled be (g.addr % 64 + (i - 0)) = true) := by
      rw [hb _ hi2, (h4 _ hi2).1]; omega
    have e2 : o.data.getD (g.addr % 64 + (i - 0)) 0 = m (g.addr + i) := by
      rw [(h4 _ hi2).2 (by rw [← hb _ hi2]; exact e1)]
      congr 1
      omega
    simp only [hi2, e1, e2, true_and, if_true, Nat.zero_add, Nat.add_zero]
    refine ite_cong (fun h => h.2.2) (fun h => ⟨by omega, by simp only [lineSz]; omega, h⟩) (fun _ => rfl)

theorem kind_cases {op : Nat} {k : Kind} (h : Kind.ofOpcode op = some k) :
    (0x28 ≤ op ∧ op < 0x30 ∧ k = .store (.ofCode (op % 8))) ∨
    (0x30 ≤ op ∧ op < 0x38 ∧ k = .load (.ofCode (op % 8))) ∨
    (op = 0x38 ∧ k = .swap) ∨ (op = 0x39 ∧ k = .cmp) := by
  unfold Kind.ofOpcode at h
  by_cases h1 : op / 8 = 5
  · rw [if_pos h1] at h; cases h; exact .inl ⟨by omega, by omega, rfl⟩
  rw [if_neg h1] at h
  by_cases h2 : op / 8 = 6
  · rw [if_pos h2] at h; cases h; exact .inr (.inl ⟨by omega, by omega, rfl⟩)
  rw [if_neg h2] at h
  by_cases h3 : op = 0x38
  · rw [if_pos h3] at h; cases h; exact .inr (.inr (.inl ⟨h3, rfl⟩))
  rw [if_neg h3] at h
  by_cases h4 : op = 0x39
  · rw [if_pos h4] at h; cases h; exact .inr (.inr (.inr ⟨h4, rfl⟩))
  rw [if_neg h4] at h; cases h

theorem sub_lt_two {o : Nat} (h : AOp.ofCode (o % 8) = .add ∨ AOp.ofCode (o % 8) = .clr) : o % 8 < 2 := by
  have hl : o % 8 < 8 := Nat.mod_lt _ (by decide)
  generalize o % 8 = x at *
  have : ∀ x, x < 8 → (AOp.ofCode x = .add ∨ AOp.ofCode x = .clr) → x < 2 := by decide
  exact this x hl h

theorem fits {a n : Nat} (hn : n = 1 ∨ n = 2 ∨ n = 4 ∨ n = 8 ∨ n = 16) (ha : a % n = 0) : a % 64 + n ≤ 64 := by
  rcases hn with rfl | rfl | rfl | rfl | rfl <;> omega

theorem swapAt_eq {a n : Nat} (hn : n = 1 ∨ n = 2 ∨ n = 4 ∨ n = 8 ∨ n = 16) (ha : a % n = 0) :
    ∃ so, swapAt (a % 64) n = some so ∧ so + n ≤ 64 ∧ (a % 64 + n ≤ so ∨ so + n ≤ a % 64) ∧
      so = (if a % (n * 2) = 0 then a + n else a - n) % 64 ∧
      (if a % (n * 2) = 0 then a + n else a - n) % n = 0 := by
  unfold swapAt
  have h0 : ¬ n = 0 := by rcases hn with rfl | rfl | rfl | rfl | rfl <;> decide
  rw [if_neg h0]
  have hm : a % 64 % (n * 2) = a % (n * 2) := by
    apply Nat.mod_mod_of_dvd
    rcases hn with rfl | rfl | rfl | rfl | rfl <;> decide
  rw [hm]
  by_cases h : a % (n * 2) = 0
  · rw [if_neg (by simpa using h), if_pos h]
    refine ⟨_, rfl, ?_, .inl (Nat.le_refl _), ?_, ?_⟩ <;> rcases hn with rfl | rfl | rfl | rfl | rfl <;> omega
  · have hle : n ≤ a % 64 := by rcases hn with rfl | rfl | rfl | rfl | rfl <;> omega
    rw [if_pos h, if_pos hle, if_neg h]
    refine ⟨_, rfl, ?_, .inr (by omega), ?_, ?_⟩ <;> rcases hn with rfl | rfl | rfl | rfl | rfl <;> omega

theorem atStore_iff (r : Req) : r.isAtStore = true ↔ 0x28 ≤ r.opcode ∧ r.opcode < 0x30 := by
  simp [Req.isAtStore]
theorem atLoad_iff (r : Req) : r.isAtLoad = true ↔ 0x30 ≤ r.opcode ∧ r.opcode < 0x38 := by
  simp [Req.isAtLoad]

/-- The requests that reach the slave node for well-formed atomics are legal. -/
theorem legal_atomic {g : Gp} {a : Attr} {tag : Nat} {k : Kind} (hk : Kind.ofOpcode a.opcode = some k)
    (hs : k.sized g.addr g.len) : Legal (snAtomic g a tag) := by
  obtain ⟨hn, ha⟩ := hs
  have hop : (snAtomic g a tag).opcode = a.opcode := rfl
  have had : (snAtomic g a tag).addr = g.addr := rfl
  unfold Legal
  simp only [Req.isRead, Req.isReadSep, Req.isWrite, Req.isAtSwap, Req.isAtCmp, atStore_iff, atLoad_iff,
    hop, had, beq_iff_eq, Bool.or_eq_true]
  have hlen : (snAtomic g a tag).len = if a.opcode = 0x39 then g.len * 2 else g.len := rfl
  rcases kind_cases hk with ⟨h1, h2, rfl⟩ | ⟨h1, h2, rfl⟩ | ⟨h1, rfl⟩ | ⟨h1, rfl⟩
  · rw [hlen, if_neg (by omega)]
    have hn : g.len = 1 ∨ g.len = 2 ∨ g.len = 4 ∨ g.len = 8 := by simpa using hn
    exact ⟨by omega, by omega, fun _ => ⟨hn, ha⟩, by omega⟩
  · rw [hlen, if_neg (by omega)]
    have hn : g.len = 1 ∨ g.len = 2 ∨ g.len = 4 ∨ g.len = 8 := by simpa using hn
    exact ⟨by omega, by omega, fun _ => ⟨hn, ha⟩, by omega⟩
  · rw [hlen, if_neg (by omega)]
    have hn : g.len = 1 ∨ g.len = 2 ∨ g.len = 4 ∨ g.len = 8 := by simpa using hn
    exact ⟨by omega, by omega, fun _ => ⟨hn, ha⟩, by omega⟩
  · rw [hlen, if_pos h1]
    have hn : g.len = 1 ∨ g.len = 2 ∨ g.len = 4 ∨ g.len = 8 ∨ g.len = 16 := by simpa using hn
    refine ⟨by omega, by omega, by omega, fun _ => ⟨by omega, ?_⟩⟩
    rw [Nat.mul_div_cancel _ (by decide)]
    exact ha

theorem addClr_atomic {g : Gp} {a : Attr} {tag : Nat} {k : Kind} (hk : Kind.ofOpcode a.opcode = some k)
    (ho : k.addClr) : AddClr (snAtomic g a tag) := by
  unfold AddClr
  simp only [atStore_iff, atLoad_iff]
  show _ → a.opcode % 8 < 2
  intro h
  have h : (0x28 ≤ a.opcode ∧ a.opcode < 0x30) ∨ (0x30 ≤ a.opcode ∧ a.opcode < 0x38) := h
  rcases kind_cases hk with ⟨h1, h2, rfl⟩ | ⟨h1, h2, rfl⟩ | ⟨h1, rfl⟩ | ⟨h1, rfl⟩
  · exact sub_lt_two ho
  · exact sub_lt_two ho
  · omega
  · omega

theorem specMem_at {g : Gp} {a : Attr} {tag : Nat} {k : Kind} {l junk : Line} {m : Mem} {x y : List Byte}
    (hk : Kind.ofOpcode a.opcode = some k)
    (hx : (landed (snAtomic g a tag) l junk).at g.addr g.len = x)
    (hy : k = .cmp → (landed (snAtomic g a tag) l junk).at
      (if g.addr % (g.len * 2) = 0 then g.addr + g.len else g.addr - g.len) g.len = y) :
    specMem (landed (snAtomic g a tag) l junk) m = k.after false g.addr g.len x y m := by
  have hr : (landed (snAtomic g a tag) l junk).req = snAtomic g a tag := rfl
  have hop : (snAtomic g a tag).opcode = a.opcode := rfl
  have had : (snAtomic g a tag).addr = g.addr := rfl
  have hbig : (snAtomic g a tag).big = false := rfl
  have hlen : (snAtomic g a tag).len = if a.opcode = 0x39 then g.len * 2 else g.len := rfl
  unfold specMem
  simp only [hr, Req.isWrite, Req.isAtStore, Req.isAtLoad, Req.isAtSwap, Req.isAtCmp, hop, had, hbig, hlen]
  rcases kind_cases hk with ⟨h1, h2, rfl⟩ | ⟨h1, h2, rfl⟩ | ⟨h1, rfl⟩ | ⟨h1, rfl⟩
  · rw [if_neg (by simp; omega), if_pos (by simp; omega), if_neg (by omega), hx]
    have hl : (landed (snAtomic g a tag) l junk).req.len = g.len := by rw [hr, hlen, if_neg (by omega)]
    rw [hl]; rfl
  · rw [if_neg (by simp; omega), if_pos (by simp; omega), if_neg (by omega), hx]
    have hl : (landed (snAtomic g a tag) l junk).req.len = g.len := by rw [hr, hlen, if_neg (by omega)]
    rw [hl]; rfl
  · rw [if_neg (by simp; omega), if_neg (by simp; omega), if_pos (by simp; omega), if_neg (by omega), hx]; rfl
  · rw [if_neg (by simp; omega), if_neg (by simp; omega), if_neg (by simp; omega), if_pos (by simp; omega)]
    simp only [h1, if_true, Nat.mul_div_cancel _ (show 0 < 2 by decide)]
    rw [hx, hy rfl]; rfl

/-- The line an atomic carries: operand in its place, swap data in the other half. -/
theorem atomicLine_eq {g : Gp} {a : Attr} {tag : Nat} {k : Kind} {junk : Line}
    (hk : Kind.ofOpcode a.opcode = some k) (hs : k.sized g.addr g.len) (hd : a.data.length = 32) :
    ∃ l, atomicLine g a = some l ∧
      (landed (snAtomic g a tag) l junk).at g.addr g.len = a.data.take g.len ∧
      (k = .cmp → (landed (snAtomic g a tag) l junk).at
        (if g.addr % (g.len * 2) = 0 then g.addr + g.len else g.addr - g.len) g.len =
          (a.data.drop g.len).take g.len) := by
  obtain ⟨hn, ha⟩ := hs
  have hn' : g.len = 1 ∨ g.len = 2 ∨ g.len = 4 ∨ g.len = 8 ∨ g.len = 16 := by omega
  have hf := fits hn' ha
  have hl : (a.data.take g.len).length = g.len := take_len (by omega)
  have hl2 : ((a.data.drop g.len).take g.len).length = g.len := take_len (by rw [List.length_drop]; omega)
  by_cases hc : a.opcode = 0x39
  · obtain ⟨so, s1, s2, s3, s4, s5⟩ := swapAt_eq hn' ha
    refine ⟨(Line.empty.put (g.addr % 64) (a.data.take g.len)).put so ((a.data.drop g.len).take g.len), ?_, ?_, ?_⟩
    · unfold atomicLine
      simp only [if_pos hc, lineSz, s1, Option.bind_some]
      rw [if_pos ⟨hf, s2, by omega⟩]
    · have := put_put_at (l := Line.empty) (junk := junk) (r := snAtomic g a tag) (a := g.addr) (b := so)
        (d := a.data.take g.len) (e := (a.data.drop g.len).take g.len) (by rw [hl]; exact hf)
        (by rw [hl, hl2]; exact s3)
      rw [hl] at this
      exact this
    · intro _
      have := put_at (l := Line.empty.put (g.addr % 64) (a.data.take g.len)) (junk := junk)
        (r := snAtomic g a tag) (a := if g.addr % (g.len * 2) = 0 then g.addr + g.len else g.addr - g.len)
        (d := (a.data.drop g.len).take g.len) (by rw [hl2, ← s4]; exact s2)
      rw [hl2, ← s4] at this
      exact this
  · refine ⟨Line.empty.put (g.addr % 64) (a.data.take g.len), ?_, ?_, ?_⟩
    · unfold atomicLine
      simp only [if_neg hc, lineSz]
      rw [if_pos ⟨hf, by omega⟩]
    · have := put_at (l := Line.empty) (junk := junk) (r := snAtomic g a tag) (a := g.addr)
        (d := a.data.take g.len) (by rw [hl]; exact hf)
      rw [hl] at this
      exact this
    · rintro rfl
      rcases kind_cases hk with ⟨_, _, h⟩ | ⟨_, _, h⟩ | ⟨_, h⟩ | ⟨h, _⟩
      · cases h
      · cases h
      · cases h
      · exact absurd h hc

/-- An atomic load, swap or compare changes just the addressed bytes, as the operation says, and
returns what they held. Missing from the full statement: the operations other than add and clear
(`ChiSn.other_ops_do_nothing`) and big-endian operands (`endian_ignored`). -/
theorem atomic_right_partial (link : Bool) (g : Gp) (a : Attr) (tag : Nat) (junk : Line) (m : Mem) (k : Kind)
    (hk : Kind.ofOpcode a.opcode = some k) (hns : 0x30 ≤ a.opcode) (hs : k.sized g.addr g.len)
    (hd : a.data.length = 32) (ho : k.addClr) (hb : a.big = false) :
    atomicNonStore link g a tag junk m = some
      (k.after a.big g.addr g.len (a.data.take g.len) ((a.data.drop g.len).take g.len) m,
       (Gp.run ⟨.read, g.addr, g.data, g.be, g.len⟩ m).2) := by
  obtain ⟨l, e1, e2, e3⟩ := atomicLine_eq (tag := tag) (junk := junk) hk hs hd
  obtain ⟨o, p1, p2⟩ := perform_ok (landed (snAtomic g a tag) l junk) m (legal_atomic hk hs) (addClr_atomic hk ho)
  have hop : (snAtomic g a tag).opcode = a.opcode := rfl
  have hat : (snAtomic g a tag).isAtomic = true := by
    simp only [Req.isAtomic, hop]
    rcases kind_cases hk with ⟨h1, h2, _⟩ | ⟨h1, h2, _⟩ | ⟨h1, _⟩ | ⟨h1, _⟩ <;> simp <;> omega
  have hnst : ¬ (snAtomic g a tag).isAtStore = true := by rw [atStore_iff, hop]; omega
  have hf : g.addr % 64 + g.len ≤ 64 := fits (by have := hs.1; omega) hs.2
  have hlen : (if (snAtomic g a tag).isAtCmp = true then (snAtomic g a tag).len / 2 else (snAtomic g a tag).len)
      = g.len := by
    have hl : (snAtomic g a tag).len = if a.opcode = 0x39 then g.len * 2 else g.len := rfl
    have hc : (snAtomic g a tag).isAtCmp = true ↔ a.opcode = 0x39 := by simp [Req.isAtCmp, hop]
    by_cases h : a.opcode = 0x39
    · rw [if_pos (hc.2 h), hl, if_pos h]; omega
    · rw [if_neg (fun x => h (hc.1 x)), hl, if_neg h]
  have hcb : ∃ o', o = some o' ∧ CarriesBytes m g.addr g.len o' := by
    cases o with
    | none => exact absurd ⟨hat, hnst⟩ p2.2
    | some o' =>
      refine ⟨o', rfl, ?_⟩
      obtain ⟨_, ⟨hr, _⟩ | ⟨_, _, hc⟩⟩ := p2
      · have := atomic_kinds _ hat
        rcases hr with h | h
        · exact absurd (this.1.symm.trans h) (by decide)
        · exact absurd (this.2.1.symm.trans h) (by decide)
      · have hc : CarriesBytes m g.addr
          (if (snAtomic g a tag).isAtCmp = true then (snAtomic g a tag).len / 2 else (snAtomic g a tag).len) o' := hc
        rw [hlen] at hc
        exact hc
  obtain ⟨o', rfl, hcb⟩ := hcb
  obtain ⟨c, c1, c2, c3⟩ := answer_read (link := link) (l := l) hcb hf
  unfold atomicNonStore
  rw [e1]
  simp only [Option.bind_some]
  rw [withData_eq, p1]
  simp only [Option.bind_some]
  rw [c1]
  simp only [Option.bind_some]
  rw [if_pos c2, c3, specMem_at hk e2 e3, hb]

/-- An atomic store (all bytes of its operand, the payload's data, enabled). Missing as above. -/
theorem atomic_store_right_partial (g : Gp) (a : Attr) (tag : Nat) (junk : Line) (m : Mem) (k : Kind)
    (hk : Kind.ofOpcode a.opcode = some k) (hst : a.opcode < 0x30) (hs : k.sized g.addr g.len)
    (he : g.be = []) (ho : k.addClr) (hb : a.big = false) :
    atomicStore g a tag junk m = some (k.after a.big g.addr g.len g.data [] m) := by
  obtain ⟨o, p1, _⟩ := perform_ok (landed (snAtomic g a tag) (copyNonCached g 0 (g.addr % lineSz)) junk) m
    (legal_atomic hk hs) (addClr_atomic hk ho)
  have hf : g.addr % 64 + g.len ≤ 64 := fits (by have := hs.1; omega) hs.2
  unfold atomicStore
  rw [withData_eq, p1]
  simp only [Option.map_some]
  rw [specMem_at hk (x := g.data) (y := []) ?_ ?_, hb]
  · apply at_of rfl
    intro i hi
    have hi : i < g.len := hi
    have e : (g.addr + i) % 64 = g.addr % 64 + i := by omega
    have h3 : g.addr % 64 + i < 64 := by omega
    have h4 : g.addr % 64 ≤ g.addr % 64 + i := by omega
    have h5 : g.addr % 64 + i < g.addr % 64 + min g.len (64 - g.addr % 64) := by omega
    have h6 : beEnabled g.be (g.addr % 64 + i - g.addr % 64) = true := by rw [he]; rfl
    simp only [landed, copyNonCached, lineSz, e, h3, h4, h5, h6, Nat.sub_zero, Nat.zero_add, decide_true,
      Bool.and_self, and_self, if_true]
    congr 1
    omega
  · rintro rfl
    rcases kind_cases hk with ⟨_, _, h⟩ | ⟨_, _, h⟩ | ⟨_, h⟩ | ⟨h, _⟩
    · cases h
    · cases h
    · cases h
    · omega

/-! ### The access as the processor sees it -/

/-- The first address lies in one of the regions. -/
def Inside (rs : List (Nat × Nat)) (a : Nat) : Prop := ∃ r ∈ rs, r.1 ≤ a ∧ a < r.1 + r.2

theorem inRegion_iff (rs : List (Nat × Nat)) (a : Nat) : inRegion rs a = true ↔ Inside rs a := by
  simp [inRegion, Inside]

theorem region_read (rs : List (Nat × Nat)) (g : Gp) (a : Option Attr) (tag : Nat) (junk : Line) (m : Mem)
    (h : Inside rs g.addr) (hc : g.cmd = .read) :
    cpu true rs g a tag junk m = .read (Gp.run ⟨.read, g.addr, g.data, g.be, g.len⟩ m).2 := by
  unfold cpu
  rw [if_pos ((inRegion_iff _ _).2 h), hc]
  simp only [read_right]

theorem region_write_partial (rs : List (Nat × Nat)) (g : Gp) (a : Option Attr) (tag : Nat) (junk : Line) (m : Mem)
    (h : Inside rs g.addr) (hc : g.cmd = .write) (hl : g.addr % 64 = 0 ∨ g.addr % 64 + g.len ≤ 64) :
    cpu true rs g a tag junk m = .wrote (Gp.run ⟨.write, g.addr, g.data, g.be, g.len⟩ m).1 := by
  unfold cpu
  rw [if_pos ((inRegion_iff _ _).2 h), hc]
  simp only [write_right_partial g tag junk m hl]

/-- Every well-formed little-endian atomic (add, clear, swap, compare) outside the regions. The
operand is the payload's data for a store and the attribute's otherwise; a store leaves the
payload alone. -/
theorem cpu_atomic_partial (link : Bool) (rs : List (Nat × Nat)) (g : Gp) (a : Attr) (tag : Nat) (junk : Line)
    (m : Mem) (k : Kind) (h : ¬ Inside rs g.addr) (hk : Kind.ofOpcode a.opcode = some k)
    (hs : k.sized g.addr g.len) (hd : a.data.length = 32) (hbe : (∃ o, k = .store o) → g.be = [])
    (ho : k.addClr) (hb : a.big = false) :
    cpu link rs g (some a) tag junk m =
      match k with
      | .store o => .atomic ((Kind.store o).after a.big g.addr g.len g.data [] m) g.data
      | k => .atomic (k.after a.big g.addr g.len (a.data.take g.len) ((a.data.drop g.len).take g.len) m)
          (Gp.run ⟨.read, g.addr, g.data, g.be, g.len⟩ m).2 := by
  have hr : 0x28 ≤ a.opcode ∧ a.opcode ≤ 0x39 := by
    rcases kind_cases hk with ⟨_, _, _⟩ | ⟨_, _, _⟩ | ⟨_, _⟩ | ⟨_, _⟩ <;> omega
  have e : cpu link rs g (some a) tag junk m = (if a.opcode < 0x30 then
        match atomicStore g a tag junk m with
        | some m' => .atomic m' g.data
        | none => .bad
      else match atomicNonStore link g a tag junk m with
        | some (m', b) => .atomic m' b
        | none => .bad) := by
    unfold cpu
    rw [if_neg (fun x => h ((inRegion_iff _ _).1 x))]
    simp only
    rw [if_pos hr]
    rfl
  rw [e]
  by_cases hst : a.opcode < 0x30
  · have hk2 : k = .store (.ofCode (a.opcode % 8)) := by
      rcases kind_cases hk with ⟨_, _, h⟩ | ⟨_, _, _⟩ | ⟨_, _⟩ | ⟨_, _⟩
      · exact h
      all_goals omega
    rw [if_pos hst, atomic_store_right_partial g a tag junk m k hk hst hs (hbe ⟨_, hk2⟩) ho hb]
    subst hk2
    rfl
  · rw [if_neg hst, atomic_right_partial link g a tag junk m k hk (by omega) hs hd ho hb]
    rcases kind_cases hk with ⟨_, _, _⟩ | ⟨_, _, rfl⟩ | ⟨_, rfl⟩ | ⟨_, rfl⟩
    · omega
    all_goals rfl

/-- Everything else goes to the cache. -/
theorem cpu_cached (link : Bool) (rs : List (Nat × Nat)) (g : Gp) (a : Option Attr) (tag : Nat) (junk : Line)
    (m : Mem) (h : ¬ Inside rs g.addr) (ha : ∀ x, a = some x → Kind.ofOpcode x.opcode = none) :
    cpu link rs g a tag junk m = .cached := by
  unfold cpu
  rw [if_neg (fun x => h ((inRegion_iff _ _).1 x))]
  cases a with
  | none => rfl
  | some x =>
    simp only
    rw [if_neg]
    rintro ⟨h1, h2⟩
    have := ha x rfl
    unfold Kind.ofOpcode at this
    by_cases c1 : x.opcode / 8 = 5
    · rw [if_pos c1] at this; cases this
    rw [if_neg c1] at this
    by_cases c2 : x.opcode / 8 = 6
    · rw [if_pos c2] at this; cases this
    rw [if_neg c2] at this
    by_cases c3 : x.opcode = 0x38
    · rw [if_pos c3] at this; cases this
    rw [if_neg c3] at this
    by_cases c4 : x.opcode = 0x39
    · rw [if_pos c4] at this; cases this
    omega

/-! ### What goes wrong -/

/-- The endianness asked for makes no difference, whatever the operation. -/
theorem endian_ignored (link : Bool) (rs : List (Nat × Nat)) (g : Gp) (a : Attr) (tag : Nat) (junk : Line) (m : Mem) :
    cpu link rs g (some a) tag junk m = cpu link rs g (some { a with big := !a.big }) tag junk m := rfl

theorem witness {o : Option (Mem × List Byte)} {a : Mem} {b b' : List Byte} {P : Mem → Prop} (h : o = some (a, b))
    (hb : b = b') (hp : P a) : ∃ m', o = some (m', b') ∧ P m' := ⟨a, by rw [h, hb], hp⟩

/-- Adding 1 to the big-endian number `00 FF` leaves `00 00` in memory, not `01 00`. -/
theorem big_endian_add_wrong : ∃ m', atomicNonStore true ⟨.ignore, 0, [0, 0], [], 2⟩
      ⟨0x30, [0, 1] ++ List.replicate 30 0, true⟩ 0 Line.empty (Mem.store (fun _ => 0) 0 [0, 0xFF]) = some (m', [0, 0xFF]) ∧
    m'.range 0 2 = [0, 0] ∧
    ((Kind.load .add).after true 0 2 [0, 1] [] (Mem.store (fun _ => 0) 0 [0, 0xFF])).range 0 2 = [1, 0] := by
  have h := atomic_right_partial true ⟨.ignore, 0, [0, 0], [], 2⟩ ⟨0x30, [0, 1] ++ List.replicate 30 0, false⟩ 0
    Line.empty (Mem.store (fun _ => 0) 0 [0, 0xFF]) (.load .add) (by decide) (by decide)
    ⟨by decide, by decide⟩ (by decide) (.inl rfl) rfl
  exact witness (P := fun m' => m'.range 0 2 = [0, 0] ∧
    ((Kind.load .add).after true 0 2 [0, 1] [] (Mem.store (fun _ => 0) 0 [0, 0xFF])).range 0 2 = [1, 0])
    h (by decide +kernel) (by decide +kernel)

/-- An atomic in a non-shareable region is not an atomic: it is carried out as the read or
write its payload command says, or not at all. -/
theorem region_atomic_lost (link : Bool) (rs : List (Nat × Nat)) (g : Gp) (a : Attr) (tag : Nat) (junk : Line)
    (m : Mem) (h : inRegion rs g.addr = true) :
    cpu link rs g (some a) tag junk m = cpu link rs g none tag junk m ∧
    (g.cmd = .ignore → cpu link rs g (some a) tag junk m = .nothing) := by
  unfold cpu
  rw [if_pos h, if_pos h]
  refine ⟨rfl, ?_⟩
  intro hc
  rw [hc]

/-- For atomic stores and loads other than add the home node does not ask the other caches, so
a dirty copy of the line elsewhere is neither used nor invalidated. -/
theorem atomics_not_snooped : ∀ op, op < 0x40 → (∃ k, Kind.ofOpcode op = some k) →
    (homeSnoops op = true ↔ op = 0x28 ∨ op = 0x30 ∨ op = 0x38 ∨ op = 0x39) := by
  intro op h hk
  have : ∀ op, op < 0x40 → (Kind.ofOpcode op).isSome = true →
      (homeSnoops op = true ↔ op = 0x28 ∨ op = 0x30 ∨ op = 0x38 ∨ op = 0x39) := by decide
  obtain ⟨k, hk⟩ := hk
  exact this op h (by rw [hk]; rfl)

/-! ### The hypotheses are met -/

/-- Compare-and-swap of 8 bytes in the upper half of its window. -/
example : ∃ m', atomicNonStore false ⟨.ignore, 72, List.replicate 8 0, [], 8⟩
      ⟨0x39, List.replicate 8 5 ++ List.replicate 8 9 ++ List.replicate 16 0, false⟩ 3 ⟨fun _ => 0xAA, fun _ => true⟩
      (fun _ => 5) = some (m', List.replicate 8 5) ∧ m'.range 70 12 = [5, 5, 9, 9, 9, 9, 9, 9, 9, 9, 5, 5] := by
  have h := atomic_right_partial false ⟨.ignore, 72, List.replicate 8 0, [], 8⟩
    ⟨0x39, List.replicate 8 5 ++ List.replicate 8 9 ++ List.replicate 16 0, false⟩ 3 ⟨fun _ => 0xAA, fun _ => true⟩
    (fun _ => 5) .cmp (by decide) (by decide) ⟨by decide, by decide⟩ (by decide) trivial rfl
  exact witness (P := fun m' => m'.range 70 12 = [5, 5, 9, 9, 9, 9, 9, 9, 9, 9, 5, 5]) h (by decide +kernel)
    (by decide +kernel)

/-- A clear-bits store of four bytes. -/
example : ∃ m', atomicStore ⟨.write, 68, [0xF0, 0, 0, 0xFF], [], 4⟩ ⟨0x29, [], false⟩ 3 ⟨fun _ => 0xAA, fun _ => true⟩
      (fun _ => 0x77) = some m' ∧ m'.range 67 6 = [0x77, 0x07, 0x77, 0x77, 0, 0x77] := by
  have h := atomic_store_right_partial ⟨.write, 68, [0xF0, 0, 0, 0xFF], [], 4⟩ ⟨0x29, [], false⟩ 3
    ⟨fun _ => 0xAA, fun _ => true⟩ (fun _ => 0x77) (.store .clr) (by decide) (by decide) ⟨by decide, by decide⟩
    rfl (.inr rfl) rfl
  exact ⟨_, h, by decide +kernel⟩

/-- A write that crosses a line from an unaligned address. -/
example : (60 : Nat) % 64 ≠ 0 ∧ 64 < 60 % 64 + (⟨.write, 60, List.replicate 8 1, [], 8⟩ : Gp).len := by decide

end Verif.ChiRn
