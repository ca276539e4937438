import Verif.ChiSn.Spec

/-! # Lemmas: byte order, windows, the single request -/

namespace Verif.ChiSn

theorem leDec_append (a b : List Byte) : leDec (a ++ b) = leDec a + 256 ^ a.length * leDec b := by
  induction a with
  | nil => simp [leDec]
  | cons x xs ih =>
    simp only [List.cons_append, leDec, ih, List.length_cons, Nat.pow_succ]
    rw [Nat.mul_add, Nat.mul_comm (256 ^ xs.length) 256, Nat.mul_assoc]
    omega

theorem leDec_reverse (b : List Byte) : leDec b.reverse = beDec b := by
  induction b with
  | nil => rfl
  | cons x xs ih =>
    simp only [List.reverse_cons, leDec_append, ih, List.length_reverse, beDec, leDec]
    rw [Nat.mul_comm, Nat.mul_zero, Nat.add_zero]; omega

theorem leEnc_snoc (n v : Nat) : leEnc (n + 1) v = leEnc n v ++ [BitVec.ofNat 8 (v / 256 ^ n)] := by
  induction n generalizing v with
  | zero => simp [leEnc]
  | succ n ih =>
    rw [leEnc, ih, leEnc]
    simp only [List.cons_append, Nat.div_div_eq_div_mul, Nat.pow_succ]
    rw [Nat.mul_comm]

theorem leEnc_reverse (n v : Nat) : (leEnc n v).reverse = beEnc n v := by
  induction n with
  | zero => rfl
  | succ n ih => rw [leEnc_snoc, List.reverse_append, ih]; rfl

theorem val_order (big : Bool) (b : List Byte) : leDec (order big b) = val big b := by
  cases big
  · rfl
  · exact leDec_reverse b

theorem enc_order (big : Bool) (n v : Nat) : order big (leEnc n v) = enc big n v := by
  cases big
  · rfl
  · exact leEnc_reverse n v

theorem leDec_lt (b : List Byte) : leDec b < 256 ^ b.length := by
  induction b with
  | nil => simp [leDec]
  | cons x xs ih =>
    have := x.isLt
    simp only [leDec, List.length_cons, Nat.pow_succ]
    omega

theorem val_lt (big : Bool) (b : List Byte) : val big b < 256 ^ b.length := by
  cases big
  · exact leDec_lt b
  · exact beDec_lt b

theorem pow256 (n : Nat) : 256 ^ n = 2 ^ (8 * n) := by
  rw [Nat.pow_mul]

@[simp] theorem bytes_length (t : Txn) (o n : Nat) : (t.bytes o n).length = n := by simp [Txn.bytes]
@[simp] theorem at_length (t : Txn) (o n : Nat) : (t.at o n).length = n := by simp [Txn.at]

theorem bytes_at (t : Txn) {a n : Nat} (h : a % 64 + n ≤ 64) : t.bytes (lineOff a) n = t.at a n := by
  unfold Txn.bytes Txn.at lineOff
  apply List.map_congr_left
  intro i hi
  have : i < n := List.mem_range.1 hi
  have : a % lineSz + i = (a + i) % 64 := by show a % 64 + i = _; omega
  rw [this]

theorem opAdd_eval (n a b : Nat) :
    opAdd n a b = (AOp.add.eval (BitVec.ofNat (8 * n) a) (BitVec.ofNat (8 * n) b)).toNat := by
  simp [AOp.eval, opAdd, pow256]

theorem opClr_eval {n a b : Nat} (ha : a < 256 ^ n) (hb : b < 256 ^ n) :
    opClr n a b = (AOp.clr.eval (BitVec.ofNat (8 * n) a) (BitVec.ofNat (8 * n) b)).toNat := by
  rw [pow256] at ha hb
  simp only [AOp.eval, opClr, pow256, BitVec.toNat_and, BitVec.toNat_not, BitVec.toNat_ofNat,
    Nat.mod_eq_of_lt ha, Nat.mod_eq_of_lt hb]

/-- A naturally aligned block of `n ∣ 64` bytes stays within its line. -/
theorem fits {a n : Nat} (hd : n ∣ 64) (h : a % n = 0) : a % 64 + n ≤ 64 := by
  obtain ⟨k, hk⟩ := hd
  have hn : 0 < n := by
    rcases Nat.eq_zero_or_pos n with h0 | h0
    · subst h0; omega
    · exact h0
  have h1 : a % 64 % n = 0 := by rw [hk, Nat.mod_mul_right_mod]; exact h
  obtain ⟨q, hq⟩ := Nat.dvd_of_mod_eq_zero h1
  have h2 : a % 64 < 64 := Nat.mod_lt _ (by omega)
  rw [hq] at h2 ⊢
  have h3 : q < k := by
    rw [hk] at h2
    exact Nat.lt_of_mul_lt_mul_left h2
  calc n * q + n = n * (q + 1) := by rw [Nat.mul_succ]
    _ ≤ n * k := Nat.mul_le_mul_left _ h3
    _ = 64 := hk.symm

theorem dvd_small {n : Nat} (h : n = 1 ∨ n = 2 ∨ n = 4 ∨ n = 8 ∨ n = 16 ∨ n = 32) : n ∣ 64 := by
  rcases h with h | h | h | h | h | h <;> subst h <;> decide

theorem range_eq_map (m : Mem) (a n : Nat) : m.range a n = (List.range n).map fun i => m (a + i) := rfl

theorem same_block {a x n : Nat} (hn : 0 < n) :
    x / n = a / n ↔ a / n * n ≤ x ∧ x < a / n * n + n := by
  have e : (a / n + 1) * n = a / n * n + n := by rw [Nat.add_mul, Nat.one_mul]
  constructor
  · intro h
    rw [← h]
    have := Nat.div_add_mod x n
    have h2 := Nat.mod_lt x hn
    rw [Nat.mul_comm] at this
    omega
  · intro ⟨h1, h2⟩
    have l1 : a / n ≤ x / n := (Nat.le_div_iff_mul_le hn).2 h1
    have l2 : x / n < a / n + 1 := (Nat.div_lt_iff_lt_mul hn).2 (by rw [e]; exact h2)
    omega

theorem pos_of_dvd {n : Nat} (h : n ∣ 64) : 0 < n := Nat.pos_of_dvd_of_pos h (by omega)

/-- The line offset of a byte of the block that holds `a`. -/
theorem block_off {a n : Nat} (hd : n ∣ 64) :
    a / n * n ≤ a ∧ a < a / n * n + n ∧ a / n * n % 64 + n ≤ 64 := by
  have hn := pos_of_dvd hd
  have := Nat.div_add_mod a n
  have h2 := Nat.mod_lt a hn
  rw [Nat.mul_comm] at this
  refine ⟨by omega, by omega, fits hd ?_⟩
  rw [Nat.mul_mod_left]

theorem ite_cong {α : Type} {P Q : Prop} [Decidable P] [Decidable Q] {a b c : α} (h1 : P → Q)
    (h2 : Q → P) (e : P → a = b) : (if P then a else c) = (if Q then b else c) := by
  by_cases h : P
  · rw [if_pos h, if_pos (h1 h), e h]
  · rw [if_neg h, if_neg (fun q => h (h2 q))]

theorem writeDo_eq (t : Txn) (m : Mem) (hw : t.req.isWrite = true) (hd : t.req.len ∣ 64) :
    writeDo t m = some (specMem t m, none) := by
  have hn := pos_of_dvd hd
  obtain ⟨b1, b2, b3⟩ := block_off (a := t.req.addr) hd
  unfold writeDo specMem
  simp only [hw, if_true]
  rw [if_neg (by omega), if_neg (by simp only [lineOff, alignTo, lineSz]; omega)]
  simp only [lineOff, alignTo, lineSz]
  congr 2
  funext x
  simp only [same_block hn]
  refine ite_cong (fun ⟨a, b, c⟩ => ?_) (fun ⟨a, b, c⟩ => ?_) (fun ⟨a, b, _⟩ => ?_)
  · have e : t.req.addr % 64 + (x - t.req.addr) = x % 64 := by omega
    exact ⟨a, by omega, by rw [← e]; exact c⟩
  · have e : t.req.addr % 64 + (x - t.req.addr) = x % 64 := by omega
    exact ⟨a, by omega, by rw [e]; exact c⟩
  · exact congrArg t.buf (show t.req.addr % 64 + (x - t.req.addr) = x % 64 by omega)

theorem readDo_eq (t : Txn) (m : Mem) (hl : t.req.len = 64) :
    readDo t m = some (m, some ⟨t.req.tag, m.range (t.req.addr / 64 * 64) 64, none,
      t.req.isReadSep, true⟩) := by
  unfold readDo
  simp only [hl, lineSz, alignTo, lineOff]
  rw [if_neg (by omega), if_neg (by omega)]
  simp only [Mem.range]
  refine congrArg (fun d => some (m, some (Out.mk t.req.tag d none t.req.isReadSep true))) ?_
  apply List.map_congr_left
  intro i hi
  rw [if_pos (List.mem_range.1 hi)]

theorem rmw_add_clr {op : Nat} (hop : op % 8 < 2) (big : Bool) (old x : List Byte)
    (hl : old.length = 1 ∨ old.length = 2 ∨ old.length = 4 ∨ old.length = 8)
    (hx : x.length = old.length) :
    rmw op big old x = some (enc big old.length ((AOp.ofCode (op % 8)).eval
      (BitVec.ofNat (8 * old.length) (val big old)) (BitVec.ofNat (8 * old.length) (val big x))).toNat) := by
  unfold rmw opcodeOp
  rw [if_neg (fun h => h hl), val_order, val_order]
  have ho := val_lt big old
  have hv := val_lt big x
  rw [hx] at hv
  by_cases h0 : op % 8 = 0
  · rw [if_pos h0, h0, opAdd_eval]
    simp only [bind, Option.bind, pure, enc_order]; rfl
  · have h1 : op % 8 = 1 := by omega
    rw [if_neg h0, if_pos h1, h1, opClr_eval ho hv]
    simp only [bind, Option.bind, pure, enc_order]; rfl

theorem rmw_other {op : Nat} (hop : 2 ≤ op % 8) (big : Bool) (old x : List Byte) :
    ∃ b, rmw op big old x = some (order big (leEnc old.length (leDec (order big old)))) ∧
      b = order big old := by
  refine ⟨_, ?_, rfl⟩
  have hlt : op % 8 < 8 := Nat.mod_lt _ (by omega)
  unfold rmw opcodeOp
  by_cases hs : ¬ (old.length = 1 ∨ old.length = 2 ∨ old.length = 4 ∨ old.length = 8)
  · rw [if_pos hs]; rfl
  · rw [if_neg hs, if_neg (by omega), if_neg (by omega), if_neg (by omega), if_neg (by omega),
      if_neg (by omega), if_neg (by omega), if_neg (by omega), if_neg (by omega)]
    rfl

theorem leEnc_leDec (b : List Byte) : leEnc b.length (leDec b) = b := by
  induction b with
  | nil => rfl
  | cons x xs ih =>
    have h := x.isLt
    simp only [List.length_cons, leEnc, leDec]
    have e : (x.toNat + 256 * leDec xs) / 256 = leDec xs := by omega
    rw [e, ih]
    congr 1
    apply BitVec.eq_of_toNat_eq
    rw [BitVec.toNat_ofNat]
    omega

theorem order_order (big : Bool) (b : List Byte) : order big (order big b) = b := by
  cases big
  · rfl
  · exact List.reverse_reverse b

@[simp] theorem order_length (big : Bool) (b : List Byte) : (order big b).length = b.length := by
  cases big
  · rfl
  · exact List.length_reverse

theorem rmw_id {op : Nat} (hop : 2 ≤ op % 8) (big : Bool) (old x : List Byte) :
    rmw op big old x = some old := by
  obtain ⟨_, h, _⟩ := rmw_other hop big old x
  rw [h, ← order_length big old, leEnc_leDec, order_order]

theorem store_range_self (m : Mem) (a n : Nat) : m.store a (m.range a n) = m := by
  funext x
  unfold Mem.store
  by_cases h : a ≤ x ∧ x < a + (m.range a n).length
  · rw [if_pos h]
    rw [Mem.range_length] at h
    simp only [Mem.range, List.getD_eq_getElem?_getD, List.getElem?_map]
    rw [List.getElem?_range (by omega)]
    show m (a + (x - a)) = m x
    congr 1; omega
  · rw [if_neg h]

theorem range_take (m : Mem) (a : Nat) {n k : Nat} (h : k ≤ n) : (m.range a n).take k = m.range a k := by
  unfold Mem.range
  rw [← List.map_take, List.take_range, Nat.min_eq_left h]

theorem store_app_range (m : Mem) (a : Nat) (d : List Byte) (n : Nat) :
    m.store a (d ++ (m.range a n).drop d.length) = m.store a d := by
  funext x
  unfold Mem.store
  by_cases h : a ≤ x ∧ x < a + d.length
  · rw [if_pos (by rw [List.length_append]; omega), if_pos h]
    simp [List.getElem?_append_left (show x - a < d.length by omega)]
  · rw [if_neg h]
    by_cases h2 : a ≤ x ∧ x < a + (d ++ (m.range a n).drop d.length).length
    · rw [if_pos h2]
      rw [List.length_append, List.length_drop, Mem.range_length] at h2
      simp only [List.getD_eq_getElem?_getD]
      rw [List.getElem?_append_right (by omega), List.getElem?_drop,
        show d.length + (x - a - d.length) = x - a by omega]
      simp only [Mem.range, List.getElem?_map]
      rw [List.getElem?_range (by omega)]
      show m (a + (x - a)) = m x
      congr 1; omega
    · rw [if_neg h2]

end Verif.ChiSn
