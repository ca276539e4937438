import Verif.Hsc.Gaps
import Verif.Crc32.Props

/-! # C57: the register interface and the key store of the crypto block -/

namespace Verif.Hsc
open Verif

/-! ### Helpers -/

/-- The TLM access of a driver's word access. -/
def Word.acc : Word → Acc
  | .read a => { cmd := .read, addr := a, data := [0, 0, 0, 0] }
  | .write a v => { cmd := .write, addr := a, data := leEnc 4 v.toNat }

/-- The outcome the specification prescribes for it. -/
def Word.outcome (w : Word) (r : Option (BitVec 32)) : UOut :=
  match w, r with
  | .write _ v, _ => .ok (leEnc 4 v.toNat)
  | .read _, some v => .ok (leEnc 4 v.toNat)
  | .read _, none => .err

theorem word_leEnc (v : BitVec 32) : word (leEnc 4 v.toNat) = v := by
  unfold word
  rw [leDec_leEnc, Nat.mod_eq_of_lt (by have := v.isLt; omega)]
  simp

theorem and_even (v : BitVec 32) : v &&& 0xFFFFFFFE = BitVec.ofNat 32 (v.toNat / 2 * 2) := by
  have e1 : BitVec.ofNat 32 (v.toNat / 2 * 2) = (v >>> 1) <<< 1 := by
    apply BitVec.eq_of_toNat_eq
    simp [BitVec.toNat_shiftLeft, BitVec.toNat_ushiftRight, Nat.shiftRight_eq_div_pow, Nat.shiftLeft_eq]
  rw [e1]
  apply BitVec.eq_of_getLsbD_eq
  intro i hi
  have hb : ∀ i, i < 32 → (0xFFFFFFFE : BitVec 32).getLsbD i = decide (1 ≤ i) := by decide
  rw [BitVec.getLsbD_and, hb i hi, BitVec.getLsbD_shiftLeft, BitVec.getLsbD_ushiftRight]
  by_cases h : 1 ≤ i
  · simp [h, hi, show ¬ i < 1 by omega, show 1 + (i - 1) = i by omega]
  · simp [h, show i < 1 by omega]

theorem ena_iff (v : BitVec 32) : ena v = decide (v.toNat % 2 = 1) := by
  unfold ena; rw [BitVec.getLsbD, Nat.testBit_zero]

theorem wr_iff (v : BitVec 32) : wr v = decide (v.toNat / 2 % 2 = 1) := by
  unfold wr; rw [BitVec.getLsbD, Nat.testBit_succ, Nat.testBit_zero]

theorem grp_eq (v : BitVec 32) : grp v = v.toNat / 4 % 4 := by
  unfold grp; rw [BitVec.extractLsb'_toNat, Nat.shiftRight_eq_div_pow]

theorem num_eq (v : BitVec 32) : num v = v.toNat / 256 % 1024 := by
  unfold num; rw [BitVec.extractLsb'_toNat, Nat.shiftRight_eq_div_pow]

theorem readOnly_eq (i : Nat) : readOnly i = fixedReg (4 * i) := by
  unfold readOnly fixedReg rdataReg
  rw [Bool.eq_iff_iff]
  simp only [Bool.or_eq_true, Bool.and_eq_true, decide_eq_true_eq, if_true, Bool.false_eq_true, if_false]
  omega

/-- Registers agree with the abstract file, and the named keys with the table. -/
def Rel (K : Bool → List Nat) (s : St) (t : Abs) : Prop :=
  (∀ i, i < maxRegs → s.regs i = t.file (4 * i)) ∧
    ∀ tx, ∀ n ∈ K tx, (s.keys tx).range (4 * n) 32 = t.key tx n

theorem window_eq (regs : Nat → BitVec 32) (t : Abs) (tx : Bool)
    (h : ∀ i, i < maxRegs → regs i = t.file (4 * i)) : regBytes regs (wdataReg tx 0) 8 = t.window tx := by
  have hw : ∀ n, n < 8 → regs (wdataReg tx 0 + n) = t.file (wdataAddr tx + 4 * n) := by
    intro n hn
    rw [h _ (by cases tx <;> simp [wdataReg, maxRegs] <;> omega)]
    congr 1
    cases tx <;> simp [wdataReg, wdataAddr] <;> omega
  have h0 := hw 0 (by omega); have h1 := hw 1 (by omega); have h2 := hw 2 (by omega); have h3 := hw 3 (by omega)
  have h4 := hw 4 (by omega); have h5 := hw 5 (by omega); have h6 := hw 6 (by omega); have h7 := hw 7 (by omega)
  simp only [Nat.add_zero] at h0
  simp only [regBytes, Abs.window, Nat.add_assoc, Nat.reduceAdd]
  rw [h0, h1, h2, h3, h4, h5, h6, h7]
  rfl

theorem window_length (t : Abs) (tx : Bool) : (t.window tx).length = 32 := by
  have : List.range 8 = [0, 1, 2, 3, 4, 5, 6, 7] := rfl
  simp [Abs.window, this]

theorem digest_eq (k : List Byte) : Crc32.crc32 0 k = digestOf k := by
  rw [Crc32.crc32_bit_serial]; rfl

/-- A plain register store on both sides. -/
theorem Rel.set {K : Bool → List Nat} {s : St} {t : Abs} (h : Rel K s t) (i : Nat) (v : BitVec 32) :
    Rel K { s with regs := setReg s.regs i v } { t with file := fun b => if b = 4 * i then v else t.file b } := by
  refine ⟨?_, h.2⟩
  intro j hj
  show setReg s.regs i v j = if 4 * j = 4 * i then v else t.file (4 * j)
  unfold setReg
  by_cases x : j = i
  · rw [if_pos x, if_pos (by omega)]
  · rw [if_neg x, if_neg (by omega)]; exact h.1 j hj

theorem keys_setKeys (s : St) (tx d : Bool) (m : Mem) :
    (s.setKeys tx m).keys d = if d = tx then m else s.keys d := by
  cases tx <;> cases d <;> rfl

theorem regs_setKeys (s : St) (tx : Bool) (m : Mem) : (s.setKeys tx m).regs = s.regs := by
  cases tx <;> rfl

theorem setReg_same (f : Nat → BitVec 32) (i : Nat) (v : BitVec 32) : setReg f i v i = v := if_pos rfl

theorem setReg_setReg (f : Nat → BitVec 32) (i : Nat) (v w : BitVec 32) :
    setReg (setReg f i v) i w = setReg f i w := by
  funext j; unfold setReg; by_cases h : j = i <;> simp [h]

/-- A control write on both sides. -/
theorem Rel.control {K : Bool → List Nat} {s : St} {t : Abs} (h : Rel K s t) (hK : ∀ tx, Spaced (K tx))
    (tx : Bool) (v : BitVec 32)
    (hn : ∀ n, (command v = .store n ∨ command v = .digest n) → n ∈ K tx) :
    Rel K (indirect { s with regs := setReg s.regs (ctrlReg tx) v } tx) (t.control tx v) := by
  have hc : ctrlAddr tx = 4 * ctrlReg tx := by cases tx <;> rfl
  have hset := h.set (ctrlReg tx) (v &&& 0xFFFFFFFE)
  rw [and_even, ← hc] at hset
  unfold indirect Abs.control
  simp only [setReg_same, setReg_setReg]
  by_cases he : v.toNat % 2 = 0
  · have h0 : ena v = false := by rw [ena_iff]; simp [he]
    have hcmd : command v = .none := by unfold command; rw [if_pos he]
    rw [if_pos h0, hcmd]
    have hv : BitVec.ofNat 32 (v.toNat / 2 * 2) = v := by
      rw [show v.toNat / 2 * 2 = v.toNat by omega]; simp
    have := h.set (ctrlReg tx) v
    rw [← hc] at this
    rw [hv]; exact this
  · have h1 : ena v = true := by rw [ena_iff]; simp; omega
    rw [if_neg (by rw [h1]; decide), and_even]
    by_cases hg : v.toNat / 4 % 4 = 0
    · rw [if_pos (by rw [grp_eq]; exact hg)]
      by_cases hw : v.toNat / 2 % 2 = 1
      · have hcmd : command v = .store (v.toNat / 256 % 1024) := by
          unfold command; rw [if_neg he, if_neg (by omega), if_pos hw]
        have hmem := hn _ (Or.inl hcmd)
        rw [if_pos (by rw [wr_iff]; simpa using hw), hcmd]
        refine ⟨?_, ?_⟩
        · intro i hi; rw [regs_setKeys]; exact hset.1 i hi
        · intro d n hnK
          rw [keys_setKeys]
          have hwin := window_eq _ _ tx hset.1
          by_cases hd : d = tx
          · subst hd
            rw [if_pos rfl, num_eq, keyAddr]
            simp only [true_and]
            rw [show regBytes (setReg s.regs (ctrlReg d) (BitVec.ofNat 32 (v.toNat / 2 * 2))) (wdataReg d 0) 8 = _
              from hwin]
            by_cases hnn : n = v.toNat / 256 % 1024
            · rw [if_pos hnn, hnn]
              have := Mem.range_store (s.keys d) (4 * (v.toNat / 256 % 1024)) (Abs.window
                { t with file := fun a => if a = ctrlAddr d then BitVec.ofNat 32 (v.toNat / 2 * 2) else t.file a } d)
              rw [window_length] at this
              exact this
            · rw [if_neg hnn]
              have hs := hK d n hnK _ hmem
              refine (Mem.range_store_of_disjoint _ _ _ _ _ ?_).trans (hset.2 d n hnK)
              rw [window_length]
              omega
          · rw [if_neg hd]
            simp only [hd, false_and, if_false]
            exact hset.2 d n hnK
      · have hcmd : command v = .digest (v.toNat / 256 % 1024) := by
          unfold command; rw [if_neg he, if_neg (by omega), if_neg hw]
        have hmem := hn _ (Or.inr hcmd)
        rw [if_neg (by rw [wr_iff]; simpa using hw), hcmd]
        refine ⟨?_, hset.2⟩
        intro i hi
        have hr : rdataAddr tx = 4 * rdataReg tx 0 := by cases tx <;> rfl
        show setReg (clearRegs _ _ 8) _ _ i = _
        have hk : Crc32.crc32 0 ((s.keys tx).range (keyAddr (num v)) 32) = digestOf (t.key tx (v.toNat / 256 % 1024)) := by
          rw [digest_eq, num_eq, keyAddr]
          congr 1
          exact h.2 tx _ hmem
        unfold setReg clearRegs
        simp only [hr]
        by_cases hi0 : i = rdataReg tx 0
        · rw [if_pos hi0, if_pos (by omega)]; exact hk
        · rw [if_neg hi0, if_neg (c := 4 * i = 4 * rdataReg tx 0) (by omega)]
          by_cases hi1 : rdataReg tx 0 ≤ i ∧ i < rdataReg tx 0 + 8
          · rw [if_pos hi1, if_pos (c := 4 * rdataReg tx 0 < 4 * i ∧ 4 * i < 4 * rdataReg tx 0 + 32) (by omega)]
          · rw [if_neg hi1, if_neg (c := 4 * rdataReg tx 0 < 4 * i ∧ 4 * i < 4 * rdataReg tx 0 + 32) (by omega)]
            exact hset.1 i hi
    · rw [if_neg (by rw [grp_eq]; exact hg)]
      have hcmd : command v = .none := by unfold command; rw [if_neg he, if_pos hg]
      rw [hcmd]
      exact hset

theorem names_mem_control {K : Bool → List Nat} {tx : Bool} {a : Nat} {v : BitVec 32} {ws : List Word}
    (h : ∀ d, ∀ n ∈ names d (.write a v :: ws), n ∈ K d) (ha : a = ctrlAddr tx) :
    ∀ n, (command v = .store n ∨ command v = .digest n) → n ∈ K tx := by
  intro n hn
  apply h tx n
  rcases hn with hn | hn <;> simp [names, ha, hn]

/-- One access on both sides. -/
theorem Rel.step {K : Bool → List Nat} {s : St} {t : Abs} (h : Rel K s t) (hK : ∀ tx, Spaced (K tx))
    (w : Word) (ws : List Word) (hm : w.inMap) (hn : ∀ d, ∀ n ∈ names d (w :: ws), n ∈ K d) :
    (userIf s w.acc).2 = w.outcome (t.step w).2 ∧ Rel K (userIf s w.acc).1 (t.step w).1 := by
  obtain ⟨hal, hlt⟩ := hm
  cases w with
  | read a =>
    have hal : a % 4 = 0 := hal
    have hlt : a < 0x7D00 := hlt
    have ha : a = 4 * (a / 4) := by omega
    have hi : a / 4 < maxRegs := by unfold maxRegs; omega
    have hr : (userIf s (Word.read a).acc) =
        (s, .ok ((leEnc 4 ((if a / 4 = 0 then 1 else s.regs (a / 4)) : BitVec 32).toNat).take 4)) := by
      unfold userIf Word.acc
      rw [if_neg (by simp)]
      simp only [List.length_cons, List.length_nil]
      rw [if_neg (by omega), if_neg (by omega)]
    rw [hr]
    refine ⟨?_, h⟩
    show UOut.ok _ = UOut.ok (leEnc 4 (if a = 0 then (1 : BitVec 32) else t.file a).toNat)
    rw [List.take_of_length_le (by simp)]
    congr 3
    by_cases h0 : a = 0
    · rw [if_pos h0, if_pos (by omega)]
    · rw [if_neg h0, if_neg (by omega), h.1 _ hi]
      congr 1; omega
  | write a v =>
    have hal : a % 4 = 0 := hal
    have hlt : a < 0x7D00 := hlt
    have ha : 4 * (a / 4) = a := by omega
    have hi : a / 4 < maxRegs := by unfold maxRegs; omega
    have hct : ∀ tx, (a / 4 = ctrlReg tx ↔ a = ctrlAddr tx) := by
      intro tx; cases tx <;> simp [ctrlReg, ctrlAddr] <;> omega
    have hr : (userIf s (Word.write a v).acc) =
        if readOnly (a / 4) then (s, .ok (leEnc 4 v.toNat))
        else if a / 4 = ctrlReg true then
          (indirect { s with regs := setReg s.regs (a / 4) v } true, .ok (leEnc 4 v.toNat))
        else if a / 4 = ctrlReg false then
          (indirect { s with regs := setReg s.regs (a / 4) v } false, .ok (leEnc 4 v.toNat))
        else ({ s with regs := setReg s.regs (a / 4) v }, .ok (leEnc 4 v.toNat)) := by
      unfold userIf Word.acc
      rw [if_neg (by simp)]
      simp only [word_leEnc]
      rw [if_neg (by omega), if_neg (c := a / 4 = maxRegs) (by omega)]
    rw [hr]
    unfold Abs.step
    simp only [readOnly_eq, ha, hct]
    by_cases h1 : fixedReg a
    · simp only [h1, if_true]; exact ⟨rfl, h⟩
    simp only [h1]
    by_cases h2 : a = ctrlAddr true
    · simp only [h2, if_true]
      refine ⟨rfl, ?_⟩
      have e : ctrlAddr true / 4 = ctrlReg true := rfl
      rw [e]
      exact h.control hK true v (names_mem_control hn h2)
    by_cases h3 : a = ctrlAddr false
    · simp only [h3, if_true]
      refine ⟨rfl, ?_⟩
      have e : ctrlAddr false / 4 = ctrlReg false := rfl
      have e' : ¬ ctrlAddr false = ctrlAddr true := by decide
      rw [e]
      simp only [e', if_false]
      exact h.control hK false v (names_mem_control hn h3)
    simp only [h2, h3, if_false]
    refine ⟨rfl, ?_⟩
    have := h.set (a / 4) v
    rw [ha] at this
    exact this

theorem names_cons (d : Bool) (w : Word) (ws : List Word) (n : Nat) (h : n ∈ names d ws) : n ∈ names d (w :: ws) := by
  cases w with
  | read a => exact h
  | write a v => simp only [names]; exact List.mem_append.mpr (Or.inr h)

theorem Rel.run {K : Bool → List Nat} (hK : ∀ tx, Spaced (K tx)) : ∀ (ws : List Word) (s : St) (t : Abs),
    Rel K s t → (∀ w ∈ ws, w.inMap) → (∀ d, ∀ n ∈ names d ws, n ∈ K d) →
    (userRun s (ws.map Word.acc)).2 = List.zipWith Word.outcome ws (t.run ws).2 ∧
      Rel K (userRun s (ws.map Word.acc)).1 (t.run ws).1 := by
  intro ws
  induction ws with
  | nil => intro s t h _ _; exact ⟨rfl, h⟩
  | cons w ws ih =>
    intro s t h hm hn
    have h1 := h.step hK w ws (hm w List.mem_cons_self) hn
    have h2 := ih _ _ h1.2 (fun x hx => hm x (List.mem_cons_of_mem _ hx)) (fun d n hx => hn d n (names_cons d w ws n hx))
    simp only [List.map_cons, userRun, Abs.run, List.zipWith_cons_cons]
    exact ⟨by rw [h1.1, h2.1], h2.2⟩

/-- The documented state right after a reset: registers kept, all keys zero. -/
def afterReset (s : St) : Abs := { file := fun a => s.regs (a / 4), key := fun _ _ => List.replicate 32 0 }

theorem rel_reset (K : Bool → List Nat) (s : St) : Rel K (reset s) (afterReset s) := by
  refine ⟨?_, ?_⟩
  · intro i _
    show s.regs i = s.regs (4 * i / 4)
    congr 1; omega
  · intro tx n _
    cases tx <;> (show (List.range 32).map (fun _ => (0 : Byte)) = List.replicate 32 0; rfl)

/-! ### The properties -/

/-- **C57 (register interface, part).** After a reset, for every sequence of word
accesses to registers of the map whose key numbers are pairwise equal or at least
eight apart, every access gets the answer of the documented interface: registers keep
what is written, the revision reads 1, the read windows cannot be written, and a
digest command puts the CRC-32 of the named key into the read window.  Missing:
neighbouring key numbers (`neighbour_keys_overlap`). -/
theorem interface_right_partial (s : St) (ws : List Word) (hm : ∀ w ∈ ws, w.inMap)
    (hs : ∀ tx, Spaced (names tx ws)) :
    (userRun (reset s) (ws.map Word.acc)).2 = List.zipWith Word.outcome ws ((afterReset s).run ws).2 :=
  (Rel.run (K := fun tx => names tx ws) hs ws _ _ (rel_reset _ s) hm (fun _ _ h => h)).1

/-- **C57 (keys in use, part).** Under the same condition, a key that the sequence named
is held for the streams exactly as the documented table has it. -/
theorem keys_held_partial (s : St) (ws : List Word) (hm : ∀ w ∈ ws, w.inMap)
    (hs : ∀ tx, Spaced (names tx ws)) (tx : Bool) (n : Nat) (hn : n ∈ names tx ws) :
    storedKey (userRun (reset s) (ws.map Word.acc)).1 tx n = ((afterReset s).run ws).1.key tx n :=
  (Rel.run (K := fun tx => names tx ws) hs ws _ _ (rel_reset _ s) hm (fun _ _ h => h)).2.2 tx n hn

/-- The driver's sequence that stores a key given as eight words. -/
def storeKey (tx : Bool) (n : Nat) (k : List (BitVec 32)) : List Word :=
  (List.range 8).map (fun i => .write (wdataAddr tx + 4 * i) (k.getD i 0)) ++
    [.write (ctrlAddr tx) (BitVec.ofNat 32 (256 * n + 3))]

/-- The driver's sequence that reads a digest. -/
def readDigest (tx : Bool) (n : Nat) : List Word :=
  [.write (ctrlAddr tx) (BitVec.ofNat 32 (256 * n + 1)), .read (rdataAddr tx)]

/-- Two keys eight apart, stored and digested. -/
def demoTrace : List Word :=
  storeKey true 3 [1, 2, 3, 4, 5, 6, 7, 8] ++ storeKey true 11 [9, 8, 7, 6, 5, 4, 3, 2] ++ readDigest true 3

example : (∀ w ∈ demoTrace, w.inMap) ∧ (∀ tx, Spaced (names tx demoTrace)) ∧ 3 ∈ names true demoTrace := by
  refine ⟨?_, ?_, by decide⟩
  · simp only [Word.inMap]; decide
  · intro tx; unfold Spaced; cases tx <;> decide

/-- **C57 (gap, neighbouring keys).** Storing key 0 and then key 1 changes key 0: keys
are laid out one word apart although each is eight words long. -/
theorem neighbour_keys_overlap : ∃ s : St, ∃ ws : List Word, (∀ w ∈ ws, w.inMap) ∧
    (userRun (reset s) (ws.map Word.acc)).2 ≠ List.zipWith Word.outcome ws ((afterReset s).run ws).2 := by
  refine ⟨demo, storeKey true 0 [1, 2, 3, 4, 5, 6, 7, 8] ++ storeKey true 1 [9, 9, 9, 9, 9, 9, 9, 9] ++
    readDigest true 0, ?_, ?_⟩
  · simp only [Word.inMap]; decide
  · decide +kernel

/-- **C57 (gap, one past the map).** The access at 0x7D00 passes the range check and
indexes the register array one past its end (where the encoder keys follow). -/
theorem past_the_map_ub (s : St) (d : List Byte) (h : d.length ≤ 4) :
    (userIf s { cmd := .read, addr := 0x7D00, data := d }).2 = .ub ∧
    (userIf s { cmd := .write, addr := 0x7D00, data := d }).2 = .ub := by
  constructor <;>
  · unfold userIf
    rw [if_neg (by simp; omega)]
    simp only []
    rw [if_neg (by decide)]
    first
      | rw [if_pos (by decide)]
      | rw [if_neg (by decide), if_neg (by decide), if_neg (by decide), if_pos (by decide)]

/-- **C57 (range).** Accesses further out, with byte enables, longer than a word or
streaming are refused, and change nothing. -/
theorem refused (s : St) (a : Acc)
    (h : 0x7D04 ≤ a.addr ∨ a.be = true ∨ 4 < a.data.length ∨ a.sw < a.data.length) : userIf s a = (s, .err) := by
  unfold userIf
  by_cases h1 : a.be ∨ 4 < a.data.length ∨ a.sw < a.data.length
  · rw [if_pos h1]
  · rw [if_neg h1]
    have : maxRegs < a.addr / 4 := by
      rcases h with h | h | h
      · unfold maxRegs; omega
      · exact absurd (Or.inl h) h1
      · exact absurd (Or.inr h) h1
    simp only [this, if_true]

/-- **C57 (gap, sub-word accesses).** The byte at offset 1 of a register written with
0x04030201 reads as the byte at offset 0, and writing one byte clears the other
three. -/
theorem subword_wrong : ∃ s : St,
    (userIf s { cmd := .read, addr := 0x0FC + 1, data := [0], sw := 1 }).2 = .ok [1] ∧
    s.regs (0xFC / 4) = 0x04030201 ∧
    (userIf s { cmd := .write, addr := 0x0FC + 1, data := [7], sw := 1 }).1.regs (0xFC / 4) = 7 := by
  refine ⟨{ demo with regs := fun _ => 0x04030201 }, ?_, rfl, ?_⟩ <;> decide +kernel

/-- Is this access a digest command? -/
def Acc.digest (a : Acc) : Bool :=
  decide (a.cmd = .write) &&
    (decide (a.addr / 4 = ctrlReg true) || decide (a.addr / 4 = ctrlReg false)) &&
    match command (word a.data) with
    | .digest _ => true
    | _ => false

theorem indirect_regs (s s' : St) (tx : Bool) (hr : s.regs = s'.regs)
    (hd : ∀ n, command (s.regs (ctrlReg tx)) ≠ .digest n) : (indirect s tx).regs = (indirect s' tx).regs := by
  unfold indirect
  rw [← hr]
  generalize hv : s.regs (ctrlReg tx) = v at hd
  by_cases he : ena v = false
  · simp only [he, if_true]; exact hr
  · simp only [if_neg he]
    by_cases hg : grp v = 0
    · simp only [hg, if_true]
      by_cases hw : wr v
      · simp only [hw, if_true]
        rw [regs_setKeys, regs_setKeys]
      · exfalso
        refine hd (v.toNat / 256 % 1024) ?_
        rw [ena_iff] at he
        rw [wr_iff] at hw
        rw [grp_eq] at hg
        simp at he hw
        unfold command
        rw [if_neg (by omega), if_neg (by omega), if_neg (by omega)]
    · simp only [hg, if_false]

theorem userIf_blind (s s' : St) (a : Acc) (hr : s.regs = s'.regs) (hd : a.digest = false) :
    (userIf s a).2 = (userIf s' a).2 ∧ (userIf s a).1.regs = (userIf s' a).1.regs := by
  unfold userIf
  by_cases h1 : a.be ∨ 4 < a.data.length ∨ a.sw < a.data.length
  · rw [if_pos h1, if_pos h1]; exact ⟨rfl, hr⟩
  rw [if_neg h1, if_neg h1]
  by_cases h2 : maxRegs < a.addr / 4
  · simp only [h2, if_true]; exact ⟨trivial, hr⟩
  simp only [h2, if_false]
  cases hc : a.cmd with
  | read =>
    by_cases h3 : a.addr / 4 = maxRegs
    · simp only [h3, if_true]; exact ⟨trivial, hr⟩
    · simp only [h3, if_false, hr]; exact ⟨trivial, trivial⟩
  | ignore => exact ⟨rfl, hr⟩
  | write =>
    simp only
    by_cases h3 : readOnly (a.addr / 4)
    · rw [if_pos h3, if_pos h3]; exact ⟨rfl, hr⟩
    rw [if_neg h3, if_neg h3]
    have hnd : ∀ tx, a.addr / 4 = ctrlReg tx → ∀ n, command (word a.data) ≠ .digest n := by
      intro tx h4 n hcmd
      have : a.digest = true := by
        unfold Acc.digest
        rw [hcmd, hc]
        cases tx <;> simp [h4]
      rw [this] at hd; cases hd
    by_cases h4 : a.addr / 4 = ctrlReg true
    · rw [if_pos h4, if_pos h4]
      refine ⟨rfl, indirect_regs _ _ true (by simp only [hr]) ?_⟩
      intro n
      show command (setReg s.regs (a.addr / 4) (word a.data) (ctrlReg true)) ≠ _
      rw [← h4, setReg_same]; exact hnd true h4 n
    rw [if_neg h4, if_neg h4]
    by_cases h5 : a.addr / 4 = ctrlReg false
    · rw [if_pos h5, if_pos h5]
      refine ⟨rfl, indirect_regs _ _ false (by simp only [hr]) ?_⟩
      intro n
      show command (setReg s.regs (a.addr / 4) (word a.data) (ctrlReg false)) ≠ _
      rw [← h5, setReg_same]; exact hnd false h5 n
    rw [if_neg h5, if_neg h5]
    by_cases h6 : a.addr / 4 = maxRegs
    · rw [if_pos h6, if_pos h6]; exact ⟨rfl, hr⟩
    · rw [if_neg h6, if_neg h6]; exact ⟨rfl, by simp only [hr]⟩

/-- **C57 (keys are not readable).** Two blocks that differ only in their keys answer
every sequence of register accesses of any kind alike, as long as it contains no
digest command. -/
theorem keys_not_readable (s s' : St) (as : List Acc) (hr : s.regs = s'.regs) (hd : ∀ a ∈ as, a.digest = false) :
    (userRun s as).2 = (userRun s' as).2 := by
  induction as generalizing s s' with
  | nil => rfl
  | cons a as ih =>
    have h := userIf_blind s s' a hr (hd a List.mem_cons_self)
    simp only [userRun]
    rw [h.1, ih _ _ h.2 (fun x hx => hd x (List.mem_cons_of_mem _ hx))]

example : ∃ s s' : St, s.regs = s'.regs ∧ s.enc ≠ s'.enc :=
  ⟨demo, { demo with enc := fun _ => 0 }, rfl, fun h => by
    have := congrFun h 0
    revert this; decide⟩

/-- **C57 (reset).** A reset clears every key. -/
theorem reset_clears (s : St) (tx : Bool) (n : Nat) : storedKey (reset s) tx n = List.replicate 32 0 := by
  cases tx <;> rfl

/-- **C57 (gap, write window).** The words of the last stored key stay readable in the
write window, even after a reset. -/
theorem window_survives_reset (s : St) (tx : Bool) (i : Nat) (hi : i < 8) :
    (userIf (reset s) { cmd := .read, addr := wdataAddr tx + 4 * i, data := [0, 0, 0, 0] }).2 =
      .ok (leEnc 4 (s.regs (wdataReg tx i)).toNat) := by
  have e : (wdataAddr tx + 4 * i) / 4 = wdataReg tx i := by
    cases tx <;> simp [wdataAddr, wdataReg] <;> omega
  have h1 : wdataReg tx i < maxRegs ∧ 0 < wdataReg tx i := by
    cases tx <;> simp [wdataReg, maxRegs] <;> omega
  unfold userIf
  rw [if_neg (by simp)]
  simp only [e, List.length_cons, List.length_nil]
  rw [if_neg (by omega), if_neg (by omega), if_neg (by omega), List.take_of_length_le (by simp)]
  rfl

end Verif.Hsc
