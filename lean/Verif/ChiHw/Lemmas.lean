import Verif.ChiHw.Model
/-! # CHI hardware bridges: numbers, addresses, rings of 15 descriptors -/

namespace Verif.ChiHw

/-! ## Digits -/

theorem digits_congr (k : Nat) (g g' : Nat → Nat) : ∀ n, (∀ i, i < n → g i = g' i) → digits k g n = digits k g' n
  | 0, _ => rfl
  | n + 1, h => by
    show digits k g n + g n * 2 ^ (k * n) = digits k g' n + g' n * 2 ^ (k * n)
    rw [digits_congr k g g' n (fun i hi => h i (by omega)), h n (by omega)]

/-- The digits of a number give its low part. -/
theorem digits_of (k f : Nat) : ∀ n, digits k (fun i => f / 2 ^ (k * i) % 2 ^ k) n = f % 2 ^ (k * n)
  | 0 => by simp [digits, Nat.mod_one]
  | n + 1 => by
    show digits k _ n + f / 2 ^ (k * n) % 2 ^ k * 2 ^ (k * n) = _
    rw [digits_of k f n, show k * (n + 1) = k * n + k by rw [Nat.mul_add, Nat.mul_one], Nat.pow_add, Nat.mod_mul,
      Nat.mul_comm (2 ^ (k * n))]

/-- Digits further up are multiples of a power. -/
theorem digits_split (k : Nat) (g : Nat → Nat) (a : Nat) : ∀ n, ∃ q, digits k g (a + n) = digits k g a + q * 2 ^ (k * a)
  | 0 => ⟨0, by simp⟩
  | n + 1 => by
    obtain ⟨q, hq⟩ := digits_split k g a n
    refine ⟨q + g (a + n) * 2 ^ (k * n), ?_⟩
    show digits k g (a + n) + g (a + n) * 2 ^ (k * (a + n)) = _
    rw [hq, Nat.add_mul, Nat.mul_assoc, ← Nat.pow_add, Nat.add_assoc, Nat.mul_add, Nat.add_comm (k * n)]

theorem toRegs_ge (W : Nat) : W ≤ 32 * toRegs W := by
  unfold toRegs
  split <;> omega

theorem toRegs_le {W n : Nat} (h : W ≤ 32 * n) : toRegs W ≤ n := by
  unfold toRegs
  split <;> omega

theorem toBytes_ge (W : Nat) : W ≤ 8 * toBytes W := by
  unfold toBytes
  split <;> omega

theorem toBytes_le {W n : Nat} : toBytes W ≤ n ↔ W ≤ 8 * n := by
  unfold toBytes
  split <;> omega

theorem lt_toRegs {W i : Nat} (h : i < toRegs W) : 32 * i < W := by
  unfold toRegs at h
  split at h <;> omega

theorem lt_toBytes {W i : Nat} (h : i < toBytes W) : 8 * i < W := by
  unfold toBytes at h
  split at h <;> omega

/-- A part of a number that has no more bits than that. -/
theorem low_part (f W a k : Nat) (hf : f < 2 ^ W) (h : W ≤ a + k) : f / 2 ^ a % 2 ^ k = f / 2 ^ a := by
  apply Nat.mod_eq_of_lt
  apply Nat.div_lt_of_lt_mul
  rw [← Nat.pow_add]
  exact Nat.lt_of_lt_of_le hf (Nat.pow_le_pow_right (by decide) h)

/-- The clipped part is the whole word. -/
theorem clip (f W a k : Nat) (ha : a < W) (hf : f < 2 ^ W) (hk : 0 < k) :
    f / 2 ^ a % 2 ^ ((if a + (k - 1) ≥ W then W - 1 else a + (k - 1)) + 1 - a) = f / 2 ^ a % 2 ^ k := by
  by_cases h : a + (k - 1) ≥ W
  · rw [if_pos h, low_part f W a _ hf (by omega), low_part f W a k hf (by omega)]
  · rw [if_neg h, show a + (k - 1) + 1 - a = k by omega]

theorem flitWord_eq (W f i : Nat) (hf : f < 2 ^ W) (hi : i < toRegs W) : (flitWord W f i).toNat = f / 2 ^ (32 * i) % 2 ^ 32 := by
  unfold flitWord rangeOf
  have h := clip f W (32 * i) 32 (lt_toRegs hi) hf (by decide)
  rw [show 32 - 1 = 31 from rfl] at h
  rw [h, BitVec.toNat_ofNat]
  exact Nat.mod_eq_of_lt (Nat.mod_lt _ (by decide))

theorem hwWord_eq (f i : Nat) : (hwWord f i).toNat = f / 2 ^ (32 * i) % 2 ^ 32 := by
  unfold hwWord
  rw [BitVec.toNat_ofNat]
  exact Nat.mod_eq_of_lt (Nat.mod_lt _ (by decide))

/-- What the hardware sends is the flit whose words are in the descriptor. -/
theorem hwFlit_eq (c : Ch) (W f : Nat) (m : Nat → BitVec 32) (hW : W ≤ 32 * hwWords c) (hf : f < 2 ^ W)
    (h : ∀ i, i < toRegs W → m i = flitWord W f i) : hwFlit c W m = f := by
  unfold hwFlit
  obtain ⟨q, hq⟩ := digits_split 32 (fun i => (m i).toNat) (toRegs W) (hwWords c - toRegs W)
  have hle := toRegs_le hW
  rw [show toRegs W + (hwWords c - toRegs W) = hwWords c by omega] at hq
  rw [hq, digits_congr 32 _ (fun i => f / 2 ^ (32 * i) % 2 ^ 32) _ (fun i hi => by rw [h i hi]; exact flitWord_eq W f i hf hi),
    digits_of]
  have hge := toRegs_ge W
  have hlt : f < 2 ^ (32 * toRegs W) := Nat.lt_of_lt_of_le hf (Nat.pow_le_pow_right (by decide) hge)
  rw [Nat.mod_eq_of_lt hlt, show 32 * toRegs W = W + (32 * toRegs W - W) by omega, Nat.pow_add, Nat.mul_comm (2 ^ W), ← Nat.mul_assoc,
    Nat.add_mul_mod_self_right]
  exact Nat.mod_eq_of_lt hf

/-- A byte of the words is a byte of the flit. -/
theorem byte_of_word (f i : Nat) : f / 2 ^ (32 * (i / 4)) % 2 ^ 32 / 2 ^ (8 * (i % 4)) % 256 = f / 2 ^ (8 * i) % 2 ^ 8 := by
  have e : 2 ^ 32 = 2 ^ (8 * (i % 4)) * 2 ^ (32 - 8 * (i % 4)) := by rw [← Nat.pow_add]; congr 1; omega
  rw [e, Nat.mod_mul_right_div_self, Nat.div_div_eq_div_mul, ← Nat.pow_add, show 32 * (i / 4) + 8 * (i % 4) = 8 * i by omega]
  show _ % 2 ^ 8 = _
  rw [Nat.mod_mod_of_dvd _ (Nat.pow_dvd_pow 2 (by omega))]

/-- The bytes of the right words give back the flit. -/
theorem flitOf_eq (c : Ch) (W f : Nat) (ws : List (BitVec 32)) (hW : W ≤ 8 * descSz c) (hf : f < 2 ^ W)
    (h : ∀ i, i < toRegs W → ws.getD i 0 = hwWord f i) : flitOf c W ws = some f := by
  unfold flitOf
  rw [if_pos (toBytes_le.2 hW)]
  congr 1
  rw [digits_congr 8 _ (fun i => f / 2 ^ (8 * i) % 2 ^ 8), digits_of]
  · exact Nat.mod_eq_of_lt (Nat.lt_of_lt_of_le hf (Nat.pow_le_pow_right (by decide) (toBytes_ge W)))
  · intro i hi
    have hlt := lt_toBytes hi
    have hw : i / 4 < toRegs W := by unfold toRegs; split <;> omega
    unfold byteOf
    rw [h _ hw, hwWord_eq, byte_of_word]
    have hc := clip f W (8 * i) 8 hlt hf (by decide)
    rw [show 8 - 1 = 7 from rfl] at hc
    by_cases h7 : 8 * i + 7 > W - 1
    · rw [if_pos h7]
      by_cases h8 : 8 * i + 7 ≥ W
      · rw [if_pos h8] at hc
        rw [low_part f W (8 * i) 8 hf (by omega), low_part f W (8 * i) _ hf (by omega)]
      · omega
    · rw [if_neg h7, show 8 * i + 7 + 1 - 8 * i = 8 by omega, Nat.mod_mod]

/-! ## Addresses -/

theorem decode_tx : ∀ c : Ch, ∀ d : Nat, d < 15 → ∀ i : Nat, i < descSz c / 4 → decodeTx (txAddr c d i) = some (c, d, i) := by
  intro c
  cases c
  · show ∀ d : Nat, d < 15 → ∀ i : Nat, i < 4 → _
    decide +kernel
  · show ∀ d : Nat, d < 15 → ∀ i : Nat, i < 2 → _
    decide +kernel
  · show ∀ d : Nat, d < 15 → ∀ i : Nat, i < 24 → _
    decide +kernel

theorem decode_rx : ∀ c : Ch, ∀ d : Nat, d < 15 → (c = .dat → d % 4 = 0) → ∀ i : Nat, i < descSz c / 4 →
    decodeRx (rxAddr c d i) = some (c, d, i) := by
  intro c
  cases c
  · intro d hd _ i hi
    exact (by decide +kernel : ∀ d : Nat, d < 15 → ∀ i : Nat, i < 4 → decodeRx (rxAddr .req d i) = some (.req, d, i)) d hd i hi
  · intro d hd _ i hi
    exact (by decide +kernel : ∀ d : Nat, d < 15 → ∀ i : Nat, i < 2 → decodeRx (rxAddr .rsp d i) = some (.rsp, d, i)) d hd i hi
  · intro d hd h i hi
    have h4 := h rfl
    have := (by decide +kernel : ∀ k : Nat, k < 4 → ∀ i : Nat, i < 24 → decodeRx (rxAddr .dat (4 * k) i) = some (.dat, 4 * k, i)) (d / 4)
      (by omega) i hi
    rwa [show 4 * (d / 4) = d by omega] at this

theorem hwWords_le (c : Ch) : hwWords c ≤ descSz c / 4 := by cases c <;> decide

theorem descSz_ge (c : Ch) : 32 * hwWords c ≤ 8 * descSz c := by cases c <;> decide

theorem busWrite_tx (m : Ram) (c : Ch) (d i : Nat) (hd : d < 15) (hi : i < hwWords c) (v : BitVec 32) (c' : Ch) (d' i' : Nat) :
    busWrite m (txAddr c d i) v c' d' i' = if c' = c ∧ d' = d ∧ i' = i then v else m c' d' i' := by
  unfold busWrite
  rw [decode_tx c d hd i (Nat.lt_of_lt_of_le hi (hwWords_le c))]
  simp only []
  rw [if_pos hi]

/-! ## Counting bits -/

/-- Bits set among the lowest `k`. -/
def pop : Nat → Nat → Nat
  | 0, _ => 0
  | k + 1, x => x % 2 + pop k (x / 2)

theorem pop_zero : ∀ k, pop k 0 = 0
  | 0 => rfl
  | k + 1 => by simp [pop, pop_zero k]

theorem pop_more : ∀ (k x : Nat), x < 2 ^ k → pop (k + 1) x = pop k x
  | 0, x, h => by
    have : x = 0 := by simpa using h
    subst this; rfl
  | k + 1, x, h => by
    show x % 2 + pop (k + 1) (x / 2) = x % 2 + pop k (x / 2)
    rw [pop_more k (x / 2) (by rw [Nat.pow_succ] at h; omega)]

theorem pop_half (k x : Nat) (h : x < 2 ^ k) (h2 : x % 2 = 0) : pop k (x / 2) = pop k x := by
  rw [← pop_more k x h]
  show _ = x % 2 + pop k (x / 2)
  omega

theorem pop_pos : ∀ (k x : Nat), x < 2 ^ k → x ≠ 0 → 0 < pop k x
  | 0, x, h, h0 => by
    have : x = 0 := by simpa using h
    exact absurd this h0
  | k + 1, x, h, h0 => by
    show 0 < x % 2 + pop k (x / 2)
    by_cases h2 : x % 2 = 1
    · omega
    · have := pop_pos k (x / 2) (by rw [Nat.pow_succ] at h; omega) (by omega)
      omega

theorem shiftOut_spec : ∀ (n x : Nat), x < 2 ^ n → x ≠ 0 → n ≤ 32 →
    shiftOut n x % 2 = 1 ∧ shiftOut n x ≤ x ∧ pop 32 (shiftOut n x) = pop 32 x
  | 0, x, h, h0, _ => by
    have : x = 0 := by simpa using h
    exact absurd this h0
  | n + 1, x, h, h0, hn => by
    unfold shiftOut
    by_cases h2 : x % 2 = 1
    · rw [if_pos h2]; exact ⟨h2, Nat.le_refl _, rfl⟩
    · rw [if_neg h2]
      obtain ⟨a, b, e⟩ := shiftOut_spec n (x / 2) (by rw [Nat.pow_succ] at h; omega) (by omega) (by omega)
      refine ⟨a, by omega, ?_⟩
      rw [e]
      exact pop_half 32 x (Nat.lt_of_lt_of_le h (Nat.pow_le_pow_right (by decide) hn)) (by omega)

/-- Clearing takes one bit away. -/
theorem clearNext_pop (x : BitVec 32) (h : x ≠ 0) : pop 32 (clearNext x).toNat + 1 = pop 32 x.toNat := by
  have hne : x.toNat ≠ 0 := fun e => h (BitVec.eq_of_toNat_eq (by simpa using e))
  obtain ⟨a, b, e⟩ := shiftOut_spec 32 x.toNat x.isLt hne (by decide)
  have hlt := x.isLt
  rw [← e]
  unfold clearNext
  rw [BitVec.toNat_ofNat, Nat.mod_eq_of_lt (by omega)]
  show shiftOut 32 x.toNat / 2 * 2 % 2 + pop 31 (shiftOut 32 x.toNat / 2 * 2 / 2) + 1 = shiftOut 32 x.toNat % 2 + pop 31 (shiftOut 32 x.toNat / 2)
  rw [show shiftOut 32 x.toNat / 2 * 2 / 2 = shiftOut 32 x.toNat / 2 by omega]
  omega

/-! ## Rings -/

/-- The bits of `n` descriptors from `b` on. -/
def ring (b : Nat) : Nat → BitVec 32
  | 0 => 0
  | n + 1 => ring b n ||| (1#32 <<< ((b + n) % 15))

theorem ring_full : ∀ b : Nat, b < 15 → (ring b 15).getLsbD b = true := by decide +kernel

theorem ring_bit : ∀ b : Nat, b < 15 → ∀ n : Nat, n < 15 → (ring b n).getLsbD ((b + n) % 15) = false := by decide +kernel

theorem ring_pop : ∀ b : Nat, b < 15 → ∀ n : Nat, n < 16 → pop 32 (ring b n).toNat = n := by decide +kernel

theorem ring_minus : ∀ b : Nat, b < 15 → ∀ n : Nat, n < 16 → ∀ m : Nat, m < n + 1 →
    ring b n &&& ~~~(ring b m) = ring ((b + m) % 15) (n - m) := by decide +kernel

theorem ring_one : ∀ b : Nat, b < 15 → ring b 1 = 1#32 <<< b := by decide +kernel

theorem ring_zero {b n : Nat} (hb : b < 15) (hn : n < 16) : ring b n = 0 ↔ n = 0 := by
  constructor
  · intro h
    have := ring_pop b hb n hn
    rw [h] at this
    simpa [pop_zero] using this.symm
  · intro h; subst h; rfl

end Verif.ChiHw
