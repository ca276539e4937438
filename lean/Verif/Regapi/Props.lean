import Verif.Regapi.Model
import Verif.Bitops.Props

/-! # C17: register access semantics -/

namespace Verif.Regapi
open Verif

/-! ## Specification -/

/-- What one bit of a register becomes when `v` is written to it. -/
def specWriteBit (ro w1c old v : Bool) : Bool :=
  if ro then old else if w1c then old && !v else v

/-- A description is well formed: as many entries as fit, aligned addresses inside
the array, no two alike. -/
structure Ok {n : Nat} (b : Block n) : Prop where
  pos : 0 < n
  fits : b.info.length ≤ b.regs.length
  aligned : ∀ i ∈ b.info, i.addr % n = 0 ∧ i.addr / n < b.regs.length
  distinct : b.info.Pairwise (fun i j => i.addr ≠ j.addr)

/-! ## Helpers -/

theorem find_mem {n : Nat} {b : Block n} {a : Nat} {i : Info n} (h : find b a = some i) :
    i ∈ b.info ∧ i.addr = a := by
  have h1 := List.mem_of_find?_eq_some h
  have h2 := List.find?_some h
  exact ⟨List.mem_of_mem_take h1, by simpa using (beq_iff_eq.mp h2).symm⟩

theorem find_of_mem {n : Nat} {b : Block n} (hb : Ok b) {i : Info n} (h : i ∈ b.info) : find b i.addr = some i := by
  unfold find
  rw [List.take_of_length_le hb.fits]
  have hd := hb.distinct
  generalize b.info = l at h hd
  clear hb
  induction l with
  | nil => simp at h
  | cons x xs ih =>
    rw [List.pairwise_cons] at hd
    rcases List.mem_cons.mp h with h | h
    · subst h; simp
    · rw [List.find?_cons, show (i.addr == x.addr) = false by
        have := hd.1 i h; simp; exact fun e => this e.symm]
      exact ih h hd.2

theorem access_found {n : Nat} {b : Block n} (hb : Ok b) {i : Info n} (h : i ∈ b.info) (isRead : Bool) (val : BitVec (8 * n)) :
    ∃ old, b.regs[i.addr / n]? = some old ∧
      access b isRead i.addr val = some ({ b with regs := b.regs.set (i.addr / n) (update i isRead val old) }, .ok, update i isRead val old) := by
  obtain ⟨_, hlt⟩ := hb.aligned i h
  refine ⟨b.regs[i.addr / n], List.getElem?_eq_getElem hlt, ?_⟩
  unfold access
  rw [find_of_mem hb h]
  simp only [List.getElem?_eq_getElem hlt]

theorem getLsbD_zero' {w i : Nat} : (0 : BitVec w).getLsbD i = false := BitVec.getLsbD_zero

theorem update_write_bit {n : Nat} (i : Info n) (val old : BitVec (8 * n)) (j : Nat) (hj : j < 8 * n) :
    (update i false val old).getLsbD j =
      ((if i.ro.getLsbD j then old.getLsbD j else val.getLsbD j) && !i.w1c.getLsbD j) := by
  unfold update
  simp only [Bool.false_eq_true, if_false]
  rw [BitVec.getLsbD_and, BitVec.getLsbD_not]
  by_cases h : i.ro = 0
  · simp only [h, ne_eq, not_true_eq_false, if_false, getLsbD_zero', Bool.false_eq_true]
    simp [hj]
  · simp only [h, ne_eq, not_false_eq_true, if_true]
    rw [BitVec.getLsbD_or, BitVec.getLsbD_and, BitVec.getLsbD_and, BitVec.getLsbD_not]
    cases i.ro.getLsbD j <;> simp [hj]

theorem update_read_bit {n : Nat} (i : Info n) (val old : BitVec (8 * n)) (j : Nat) (hj : j < 8 * n) :
    (update i true val old).getLsbD j = (old.getLsbD j && !i.cor.getLsbD j) := by
  unfold update
  simp only [if_true]
  rw [BitVec.getLsbD_and, BitVec.getLsbD_not]
  simp [hj]

/-! ## Single accesses -/

/-- **C17 (write).** For every well-formed block, every described register and
every written value: the access succeeds, all other registers keep their value,
and bit `j` of the register follows the specification, provided write-one-to-clear
bits are not also read-only and each of them is written with a one or was zero
(the case left out is `any_write_clears`). -/
theorem write_semantics_partial {n : Nat} (b : Block n) (hb : Ok b) (i : Info n) (hi : i ∈ b.info) (g : Gp)
    (hcmd : g.cmd = .write) (haddr : g.addr = i.addr) (hlen : g.len = n)
    (old : BitVec (8 * n)) (hold : b.regs[i.addr / n]? = some old)
    (hro : ∀ j, i.w1c.getLsbD j → i.ro.getLsbD j = false)
    (hw1c : ∀ j, i.w1c.getLsbD j → old.getLsbD j → (leDec g.data).testBit j) :
    ∃ new, bTransport b g = some ({ b with regs := b.regs.set (i.addr / n) new }, .ok, g.data) ∧
      ∀ j, j < 8 * n → new.getLsbD j =
        specWriteBit (i.ro.getLsbD j) (i.w1c.getLsbD j) (old.getLsbD j) ((leDec g.data).testBit j) := by
  obtain ⟨o, ho, ha⟩ := access_found hb hi false (BitVec.ofNat (8 * n) (leDec g.data))
  rw [hold] at ho; cases ho
  refine ⟨update i false (BitVec.ofNat (8 * n) (leDec g.data)) old, ?_, ?_⟩
  · unfold bTransport
    rw [if_neg (by simp [hlen])]
    simp only [hcmd, haddr, reduceCtorEq, if_false, decide_false, ha, Option.map_some]
  · intro j hj
    rw [update_write_bit _ _ _ _ hj, BitVec.getLsbD_ofNat]
    have h1 := hro j
    have h2 := hw1c j
    unfold specWriteBit
    revert h1 h2
    simp only [hj, decide_true, Bool.true_and]
    cases i.ro.getLsbD j <;> cases i.w1c.getLsbD j <;> cases old.getLsbD j <;> cases (leDec g.data).testBit j <;> simp

/-- **C17 (violation).** *Any* write to a register clears all its
write-one-to-clear bits, also where a zero is written. -/
theorem any_write_clears {n : Nat} (i : Info n) (val old : BitVec (8 * n)) (j : Nat) (hj : j < 8 * n)
    (h : i.w1c.getLsbD j = true) : (update i false val old).getLsbD j = false := by
  rw [update_write_bit _ _ _ _ hj, h]; simp

/-- The same end to end: writing zero to a one-byte write-one-to-clear register
holding `0x81` clears it; the specification keeps `0x81`. -/
theorem write_zero_clears :
    let i : Info 1 := { ro := 0, w1c := 0xff, reset := 0, cor := 0, addr := 0 }
    let b : Block 1 := { info := [i], regs := [0x81] }
    bTransport b { cmd := .write, addr := 0, data := [0], sw := 1 } =
        some ({ b with regs := [0] }, .ok, [0]) ∧
      (∀ j, j < 8 → specWriteBit (i.ro.getLsbD j) (i.w1c.getLsbD j) ((0x81 : BitVec 8).getLsbD j) false = (0x81 : BitVec 8).getLsbD j) := by
  refine ⟨rfl, ?_⟩
  intro j _
  have : ∀ j : Fin 8, specWriteBit ((0 : BitVec 8).getLsbD j) ((0xff : BitVec 8).getLsbD j) ((0x81 : BitVec 8).getLsbD j) false = (0x81 : BitVec 8).getLsbD j := by
    unfold specWriteBit; decide
  exact this ⟨j, by omega⟩

/-- **C17 (read).** A read of a described register succeeds and returns the
register's value, provided none of its set bits is clear-on-read; the register's
clear-on-read bits become zero and nothing else changes. -/
theorem read_semantics_partial {n : Nat} (b : Block n) (hb : Ok b) (i : Info n) (hi : i ∈ b.info) (g : Gp)
    (hcmd : g.cmd = .read) (haddr : g.addr = i.addr) (hlen : g.len = n)
    (old : BitVec (8 * n)) (hold : b.regs[i.addr / n]? = some old)
    (hcor : ∀ j, j < 8 * n → i.cor.getLsbD j → old.getLsbD j = false) :
    ∃ new, bTransport b g = some ({ b with regs := b.regs.set (i.addr / n) new }, .ok, leEnc n old.toNat) ∧
      ∀ j, j < 8 * n → new.getLsbD j = (old.getLsbD j && !i.cor.getLsbD j) := by
  obtain ⟨o, ho, ha⟩ := access_found hb hi true 0
  rw [hold] at ho; cases ho
  have hnew : update i true 0 old = old := by
    apply BitVec.eq_of_getLsbD_eq
    intro j hj
    rw [update_read_bit _ _ _ _ hj]
    have := hcor j hj
    revert this
    cases i.cor.getLsbD j <;> simp
  refine ⟨update i true 0 old, ?_, fun j hj => update_read_bit _ _ _ _ hj⟩
  unfold bTransport
  rw [if_neg (by simp [hlen])]
  simp only [hcmd, haddr, if_true, decide_true, ha, Option.map_some, hnew]

/-- **C17 (violation).** A read returns the value *after* clearing: no read ever
returns a one in a clear-on-read bit. -/
theorem clear_on_read_never_seen {n : Nat} (b : Block n) (hb : Ok b) (i : Info n) (hi : i ∈ b.info) (g : Gp)
    (hcmd : g.cmd = .read) (haddr : g.addr = i.addr) (hlen : g.len = n)
    (r : Block n × Status × List Byte) (hr : bTransport b g = some r) (j : Nat) (hj : j < 8 * n) (hc : i.cor.getLsbD j = true) :
    (leDec r.2.2).testBit j = false := by
  obtain ⟨o, ho, ha⟩ := access_found hb hi true 0
  unfold bTransport at hr
  rw [if_neg (by simp [hlen])] at hr
  simp only [hcmd, haddr, if_true, decide_true, ha, Option.map_some, Option.some.injEq] at hr
  subst hr
  simp only []
  rw [leDec_leEnc, Nat.mod_eq_of_lt]
  · rw [show (update i true 0 o).toNat.testBit j = (update i true 0 o).getLsbD j from rfl, update_read_bit _ _ _ _ hj, hc]
    simp
  · have := (update i true 0 o).isLt
    rwa [show (256 : Nat) = 2 ^ 8 from rfl, ← Nat.pow_mul]

/-- **C17 (undefined address).** -/
theorem undefined_address {n : Nat} (b : Block n) (g : Gp) (hlen : g.len = n)
    (h : ∀ i ∈ b.info, i.addr ≠ g.addr) :
    bTransport b g = some (b, .address, if g.cmd = .read then leEnc n 0 else g.data) := by
  have hf : find b g.addr = none := by
    unfold find
    rw [List.find?_eq_none]
    intro i hi
    simpa using fun e => h i (List.mem_of_mem_take hi) e.symm
  unfold bTransport
  rw [if_neg (by simp [hlen])]
  simp only [access, hf, Option.map_some, Option.some.injEq, Prod.mk.injEq, true_and]
  simp

/-- **C17 (wrong size).** -/
theorem wrong_size {n : Nat} (b : Block n) (g : Gp) (hlen : g.len ≠ n) : bTransport b g = some (b, .generic, g.data) := by
  unfold bTransport; rw [if_pos hlen]

/-- **C17.** No access to a well-formed block reads or writes outside the array,
and accesses keep it well formed. -/
theorem access_safe {n : Nat} (b : Block n) (hb : Ok b) (g : Gp) :
    ∃ r, bTransport b g = some r ∧ Ok r.1 ∧ r.1.info = b.info := by
  by_cases hl : g.len = n
  · by_cases h : ∃ i ∈ b.info, i.addr = g.addr
    · obtain ⟨i, hi, ha⟩ := h
      obtain ⟨o, _, hacc⟩ := access_found hb hi (g.cmd = .read) (if g.cmd = .read then 0 else BitVec.ofNat (8 * n) (leDec g.data))
      have e : ∃ x d, bTransport b g = some ({ b with regs := b.regs.set (i.addr / n) x }, .ok, d) := by
        unfold bTransport; rw [if_neg (by simp [hl])]; simp only [← ha, hacc, Option.map_some]
        exact ⟨_, _, rfl⟩
      obtain ⟨x, d, e⟩ := e
      refine ⟨_, e, ?_, rfl⟩
      exact ⟨hb.pos, by simpa using hb.fits, by simpa using hb.aligned, hb.distinct⟩
    · exact ⟨_, undefined_address b g hl (fun i hi e => h ⟨i, hi, e⟩), hb, rfl⟩
  · exact ⟨_, wrong_size b g hl, hb, rfl⟩

/-! ## Reset and histories -/

theorem resetOne_some {n : Nat} {regs : List (BitVec (8 * n))} {i : Info n} (h : i.addr / n < regs.length) :
    resetOne regs i = some (regs.set (i.addr / n) i.reset) := by
  unfold resetOne; rw [if_pos h]

theorem foldlM_reset {n : Nat} (l : List (Info n)) (regs : List (BitVec (8 * n)))
    (ha : ∀ i ∈ l, i.addr % n = 0 ∧ i.addr / n < regs.length) (hd : l.Pairwise (fun i j => i.addr ≠ j.addr)) :
    ∃ r, l.foldlM resetOne regs = some r ∧ r.length = regs.length ∧
      (∀ i ∈ l, r[i.addr / n]? = some i.reset) ∧
      (∀ k, (∀ i ∈ l, i.addr / n ≠ k) → r[k]? = regs[k]?) := by
  induction l generalizing regs with
  | nil => exact ⟨regs, rfl, rfl, by simp, fun _ _ => rfl⟩
  | cons x xs ih =>
    rw [List.pairwise_cons] at hd
    have hx := ha x (by simp)
    obtain ⟨r, h1, h2, h3, h4⟩ := ih (regs.set (x.addr / n) x.reset)
      (fun i hi => by simpa using ha i (by simp [hi])) hd.2
    have hne : ∀ i ∈ xs, i.addr / n ≠ x.addr / n := by
      intro i hi e
      apply hd.1 i hi
      have e1 := Nat.div_add_mod x.addr n
      have e2 := Nat.div_add_mod i.addr n
      rw [(ha i (by simp [hi])).1] at e2
      rw [hx.1] at e1
      rw [← e1, ← e2, e]
    refine ⟨r, by rw [List.foldlM_cons, resetOne_some hx.2]; exact h1, by simpa using h2, ?_, ?_⟩
    · intro i hi
      rcases List.mem_cons.mp hi with hi | hi
      · subst hi
        rw [h4 _ (fun j hj => hne j hj)]
        rw [List.getElem?_set_self hx.2]
      · exact h3 i hi
    · intro k hk
      rw [h4 k (fun i hi => hk i (by simp [hi])), List.getElem?_set_ne (hk x (by simp))]

/-- **C17 (reset).** Reset restores every described register's reset value and
touches nothing else, from any state. -/
theorem reset_restores {n : Nat} (b : Block n) (hb : Ok b) :
    ∃ b', resetAll b = some b' ∧ Ok b' ∧ b'.info = b.info ∧
      (∀ i ∈ b.info, b'.regs[i.addr / n]? = some i.reset) ∧
      (∀ k, (∀ i ∈ b.info, i.addr / n ≠ k) → b'.regs[k]? = b.regs[k]?) := by
  obtain ⟨r, h1, h2, h3, h4⟩ := foldlM_reset b.info b.regs hb.aligned hb.distinct
  refine ⟨{ b with regs := r }, ?_, ⟨hb.pos, by rw [h2]; exact hb.fits, by rw [h2]; exact hb.aligned, hb.distinct⟩, rfl, h3, h4⟩
  unfold resetAll
  rw [List.take_of_length_le hb.fits, h1]
  rfl

/-- A history of accesses. -/
def runAll {n : Nat} (b : Block n) : List Gp → Option (Block n)
  | [] => some b
  | g :: gs => (bTransport b g).bind fun r => runAll r.1 gs

theorem step_ro {n : Nat} (b : Block n) (hb : Ok b) (g : Gp) (i : Info n) (hi : i ∈ b.info)
    (r : Block n × Status × List Byte) (hr : bTransport b g = some r)
    (j : Nat) (hj : j < 8 * n) (hro : i.ro.getLsbD j) (hw : i.w1c.getLsbD j = false) (hc : i.cor.getLsbD j = false) :
    (r.1.regs[i.addr / n]?).map (·.getLsbD j) = (b.regs[i.addr / n]?).map (·.getLsbD j) := by
  by_cases hl : g.len = n
  · by_cases h : ∃ k ∈ b.info, k.addr = g.addr
    · obtain ⟨k, hk, ha⟩ := h
      obtain ⟨o, ho, hacc⟩ := access_found hb hk (g.cmd = .read) (if g.cmd = .read then 0 else BitVec.ofNat (8 * n) (leDec g.data))
      unfold bTransport at hr
      rw [if_neg (by simp [hl])] at hr
      simp only [← ha, hacc, Option.map_some, Option.some.injEq] at hr
      subst hr
      simp only []
      by_cases he : k.addr = i.addr
      · have hki : k = i := by
          have h1 := find_of_mem hb hk
          have h2 := find_of_mem hb hi
          rw [he] at h1; rw [h1] at h2; exact Option.some.inj h2
        subst hki
        rw [List.getElem?_set_self (hb.aligned k hk).2, ho]
        simp only [Option.map_some, Option.some.injEq]
        by_cases hcmd : g.cmd = .read
        · simp only [hcmd, decide_true]
          rw [update_read_bit _ _ _ _ hj, hc]; simp
        · simp only [hcmd, decide_false, if_false]
          rw [update_write_bit _ _ _ _ hj, hw]; simp [hro]
      · rw [List.getElem?_set_ne]
        intro e
        apply he
        have e1 := Nat.div_add_mod k.addr n
        have e2 := Nat.div_add_mod i.addr n
        rw [(hb.aligned k hk).1] at e1
        rw [(hb.aligned i hi).1] at e2
        rw [← e1, ← e2, e]
    · rw [undefined_address b g hl (fun i hi e => h ⟨i, hi, e⟩)] at hr
      cases hr; rfl
  · rw [wrong_size b g hl] at hr
    cases hr; rfl

/-- **C17 (histories).** After a reset and any sequence of accesses of any kind,
size and address, every read-only bit (that is not also marked
clear-on-read or write-one-to-clear) still has its reset value, and no access of
the sequence went outside the register array. -/
theorem read_only_bits_constant {n : Nat} (b : Block n) (hb : Ok b) (gs : List Gp) :
    ∃ b', (resetAll b).bind (runAll · gs) = some b' ∧
      ∀ i ∈ b.info, ∀ j, j < 8 * n → i.ro.getLsbD j → i.w1c.getLsbD j = false → i.cor.getLsbD j = false →
        (b'.regs[i.addr / n]?).map (·.getLsbD j) = some (i.reset.getLsbD j) := by
  obtain ⟨b0, h0, hok, hinfo, hreset, _⟩ := reset_restores b hb
  rw [h0, Option.bind_some]
  have key : ∀ (gs : List Gp) (b0 : Block n), Ok b0 → b0.info = b.info →
      (∀ i ∈ b.info, ∀ j, j < 8 * n → i.ro.getLsbD j → i.w1c.getLsbD j = false → i.cor.getLsbD j = false →
        (b0.regs[i.addr / n]?).map (·.getLsbD j) = some (i.reset.getLsbD j)) →
      ∃ b', runAll b0 gs = some b' ∧
      ∀ i ∈ b.info, ∀ j, j < 8 * n → i.ro.getLsbD j → i.w1c.getLsbD j = false → i.cor.getLsbD j = false →
        (b'.regs[i.addr / n]?).map (·.getLsbD j) = some (i.reset.getLsbD j) := by
    intro gs
    induction gs with
    | nil => intro b0 _ _ h; exact ⟨b0, rfl, h⟩
    | cons g gs ih =>
      intro b0 hok hinfo h
      obtain ⟨r, hr, hok', hi'⟩ := access_safe b0 hok g
      obtain ⟨b', hb', hfin⟩ := ih r.1 hok' (hi'.trans hinfo) (by
        intro i hi j hj h1 h2 h3
        rw [step_ro b0 hok g i (by rw [hinfo]; exact hi) r hr j hj h1 h2 h3]
        exact h i hi j hj h1 h2 h3)
      exact ⟨b', by simp only [runAll, hr, Option.bind_some]; exact hb', hfin⟩
  apply key gs b0 hok hinfo
  intro i hi j _ _ _ _
  rw [hreset i hi]; rfl

/-! ## Field deposit -/

/-- **C17 (fields).** Depositing a value that fits into a field sets exactly that
field. -/
theorem deposit_field_partial {n : Nat} (hn : 8 * n ≤ 64) (dst val : BitVec (8 * n)) (shift len : Nat)
    (hval : val.toNat < 2 ^ len) (j : Nat) (hj : j < 8 * n) :
    (deposit dst shift len val).getLsbD j =
      if shift ≤ j ∧ j < shift + len then val.getLsbD (j - shift) else dst.getLsbD j := by
  unfold deposit
  simp only []
  rw [BitVec.getLsbD_or, BitVec.getLsbD_and, BitVec.getLsbD_not, BitVec.getLsbD_setWidth,
    Bitops.mask64_bits _ _ _ (by omega), BitVec.getLsbD_shiftLeft]
  by_cases h : shift ≤ j ∧ j < shift + len
  · rw [if_pos h]
    simp [hj, h]
  · rw [if_neg h]
    by_cases hs : j < shift
    · simp [hj, hs, show ¬ shift ≤ j by omega]
    · have hz : val.getLsbD (j - shift) = false := by
        have : 2 ^ len ≤ 2 ^ (j - shift) := Nat.pow_le_pow_right (by omega) (by omega)
        exact Nat.testBit_lt_two_pow (by omega)
      simp [hj, hs, hz, show ¬ j < shift + len by omega]

/-- A value that does not fit spills into the neighbouring bits. -/
theorem deposit_spills : deposit (n := 4) 0 4 4 0xff = 0xff0 := by decide

/-! ## Non-vacuity -/

def exInfo : List (Info 4) :=
  [{ ro := 0xff000000, w1c := 0xff, reset := 0x12000000, cor := 0, addr := 0 },
   { ro := 0xffff, w1c := 0, reset := 0x77, cor := 0xffff0000, addr := 8 }]
def exBlock : Block 4 := { info := exInfo, regs := [0, 0, 0] }

theorem exBlock_ok : Ok exBlock :=
  ⟨by decide, by decide, by
    intro i hi
    simp only [exBlock, exInfo, List.mem_cons, List.not_mem_nil, or_false] at hi
    rcases hi with h | h <;> subst h <;> decide, by
    simp [exBlock, exInfo]⟩

example : ((resetAll exBlock).bind (bTransport · { cmd := .write, addr := 0, data := [1, 2, 3, 4], sw := 4 })).map (·.1.regs) =
    some [0x12030200, 0, 0x77] := by decide +kernel

example : ∃ b', (resetAll exBlock).bind (runAll · [{ cmd := .write, addr := 8, data := [1, 2, 3, 4], sw := 4 }]) = some b' ∧
    b'.regs[2]? = some 0x04030077 := by
  refine ⟨_, rfl, by decide +kernel⟩

end Verif.Regapi
