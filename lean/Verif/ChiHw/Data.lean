import Verif.ChiHw.Lemmas
/-! # CHI hardware bridges: one flit through one descriptor -/

namespace Verif.ChiHw

/-- Writing the words of a flit changes those words and nothing else. -/
theorem putWords_get (c : Ch) (W f d : Nat) (hd : d < 15) (m : Ram) : ∀ n, n ≤ hwWords c → ∀ (c' : Ch) (d' i : Nat),
    putWords c W f d m n c' d' i = if c' = c ∧ d' = d ∧ i < n then flitWord W f i else m c' d' i
  | 0, _, c', d', i => by rw [if_neg (by omega)]; rfl
  | n + 1, hn, c', d', i => by
    show busWrite (putWords c W f d m n) (txAddr c d n) (flitWord W f n) c' d' i = _
    rw [busWrite_tx _ c d n hd (by omega), putWords_get c W f d hd m n (by omega)]
    by_cases h : c' = c ∧ d' = d
    · obtain ⟨h1, h2⟩ := h
      by_cases hi : i = n
      · rw [if_pos ⟨h1, h2, hi⟩, if_pos ⟨h1, h2, by omega⟩, hi]
      · rw [if_neg (by rintro ⟨_, _, h⟩; exact hi h)]
        by_cases hl : i < n
        · rw [if_pos ⟨h1, h2, hl⟩, if_pos ⟨h1, h2, by omega⟩]
        · rw [if_neg (by omega), if_neg (by omega)]
    · rw [if_neg (fun e => h ⟨e.1, e.2.1⟩), if_neg (fun e => h ⟨e.1, e.2.1⟩), if_neg (fun e => h ⟨e.1, e.2.1⟩)]

/-- **Sending.** A flit that fits the words of a descriptor is what the hardware then
finds in that descriptor; every other descriptor is as before. Missing: flits
that do not fit (`wide_request_spills`). -/
theorem flit_sent_partial (c : Ch) (W f d : Nat) (m : Ram) (hd : d < credits) (hW : W ≤ 32 * hwWords c) (hf : f < 2 ^ W) :
    hwFlit c W (putWords c W f d m (toRegs W) c d) = f ∧
    ∀ c' d', ¬(c' = c ∧ d' = d) → putWords c W f d m (toRegs W) c' d' = m c' d' := by
  have hg := putWords_get c W f d hd m (toRegs W) (toRegs_le hW)
  refine ⟨hwFlit_eq c W f _ hW hf fun i hi => by rw [hg, if_pos ⟨rfl, rfl, hi⟩], fun c' d' h => ?_⟩
  funext i
  rw [hg, if_neg (fun e => h ⟨e.1, e.2.1⟩)]

/-- The words of a flit of the memory, as read. -/
theorem getWords_get (c : Ch) (m : Ram) (d f : Nat) (hd : d < 15) (hq : c = .dat → d % 4 = 0) (hm : ∀ i, m c d i = hwWord f i)
    (i : Nat) (hi : i < hwWords c) : (getWords c m d).getD i 0 = hwWord f i := by
  have hi' := Nat.lt_of_lt_of_le hi (hwWords_le c)
  unfold getWords
  rw [List.getD_eq_getElem?_getD, List.getElem?_map, List.getElem?_range hi']
  show busRead m (rxAddr c d i) = _
  unfold busRead
  rw [decode_rx c d hd hq i hi']
  simp only []
  rw [if_pos hi, hm]

/-- **Receiving.** A flit the hardware stored is the flit passed on, on the request,
snoop and response channels; on the data channel from every fourth descriptor. Missing: the
other data descriptors (`data_read_wrong`) and flits that do not fit (`wide_request_undefined`). -/
theorem flit_received_partial (c : Ch) (W f d : Nat) (m : Ram) (hd : d < credits) (hW : W ≤ 32 * hwWords c) (hf : f < 2 ^ W)
    (hq : c = .dat → d % 4 = 0) (hm : ∀ i, m c d i = hwWord f i) : getRx c W m d = some f :=
  flitOf_eq c W f _ (Nat.le_trans hW (descSz_ge c)) hf fun i hi =>
    getWords_get c m d f hd hq hm i (Nat.lt_of_lt_of_le hi (toRegs_le hW))

/-! ## What the widths are -/

/-- The configuration of the tests (chi-hnf-test.cc 99-107): all flits fit. -/
example : ChiFlit.reqW ⟨48, 7, 0⟩ = 121 ∧ 121 ≤ 32 * hwWords .req ∧ ChiFlit.rspW ⟨48, 7, 0⟩ = 51 ∧ 51 ≤ 32 * hwWords .rsp ∧
    ChiFlit.snpW ⟨48, 7, 0⟩ ≤ 32 * hwWords .req ∧ ChiFlit.datW ⟨64, 7, 0, 64, 8, 3⟩ = 705 ∧ 705 ≤ 32 * hwWords .dat := by decide

/-- Requests fit just when three node identifiers, the address and the reserved
field have 76 bits together. -/
theorem request_fits (c : ChiFlit.Cfg) : ChiFlit.reqW c ≤ 32 * hwWords .req ↔ 3 * c.nodeW + c.addrW + c.rsvdcW ≤ 76 := by
  show ChiFlit.reqW c ≤ 128 ↔ _
  unfold ChiFlit.reqW
  omega

/-- The classes' own default parameters (64-71) do not fit; nor does any address width the
hardware supports (rtl/README.md: 45 to 52 bits) with its widest node identifiers. -/
theorem defaults_do_not_fit : ¬ChiFlit.reqW ⟨44, 7, 32⟩ ≤ 32 * hwWords .req ∧
    ∀ a, 45 ≤ a → ¬ChiFlit.reqW ⟨a, 11, 0⟩ ≤ 32 * hwWords .req := by
  constructor
  · decide
  · intro a ha
    rw [request_fits]
    simp only []
    omega

/-! ## What goes wrong -/

/-- A request that does not fit is read from behind the array (429-440). -/
theorem wide_request_undefined (W : Nat) (hW : 128 < W) (m : Ram) (d : Nat) : getRx .req W m d = none := by
  unfold getRx flitOf
  rw [if_neg]
  rw [toBytes_le]
  show ¬W ≤ 8 * 0x10
  omega

/-- A request that does not fit overwrites the first word of the next descriptor,
where an earlier request may still be waiting. -/
theorem wide_request_spills (W f d : Nat) (m : Ram) (hd : d < 14) (hW : 128 < W) (hW2 : W ≤ 160) :
    putWords .req W f d m (toRegs W) .req (d + 1) 0 = flitWord W f 4 := by
  have h5 : toRegs W = 5 := by unfold toRegs; split <;> omega
  rw [h5]
  show busWrite (putWords .req W f d m 4) (txAddr .req d 4) (flitWord W f 4) .req (d + 1) 0 = _
  have e : txAddr .req d 4 = txAddr .req (d + 1) 0 := by unfold txAddr txRam descSz; simp only []; omega
  rw [e, busWrite_tx _ .req (d + 1) 0 (by omega) (by decide), if_pos ⟨rfl, rfl, rfl⟩]

/-- The word really read for word `i` of data descriptor `d`. -/
def aliasWord (d i : Nat) : Nat := (d * 0x60 % 0x80 / 4 ||| i) - d * 0x60 % 0x80 / 4

/-- Every read stays in its descriptor, but is of another word. -/
theorem data_words (d i : Nat) (hd : d < 15) (hi : i < 24) : decodeRx (rxAddr .dat d i) = some (.dat, d, aliasWord d i) :=
  (by decide +kernel : ∀ d : Nat, d < 15 → ∀ i : Nat, i < 24 → decodeRx (rxAddr .dat d i) = some (.dat, d, aliasWord d i)) d hd i hi

/-- The words come from the right place exactly in every fourth descriptor. -/
theorem data_words_right (d : Nat) (hd : d < 15) : (∀ i, i < 23 → aliasWord d i = i) ↔ d % 4 = 0 := by
  have h := (by decide +kernel : ∀ d : Nat, d < 15 → ((List.range 23).all (fun i => aliasWord d i == i)) = decide (d % 4 = 0)) d hd
  constructor
  · intro h1
    have : (List.range 23).all (fun i => aliasWord d i == i) = true := by
      rw [List.all_eq_true]
      intro i hi
      rw [List.mem_range] at hi
      simp [h1 i hi]
    rw [this] at h
    exact of_decide_eq_true h.symm
  · intro h1 i hi
    rw [decide_eq_true h1, List.all_eq_true] at h
    simpa using h i (List.mem_range.2 hi)

/-- A word that is not read. -/
def lostBit (d : Nat) : Nat := if d % 4 = 2 then 512 else 256

/-- **Data flits are read wrongly.** From three of every four data descriptors the flit
passed on is not the flit received: a bit set in the middle of the data is lost. -/
theorem data_read_wrong (d : Nat) (hd : d < credits) (h : d % 4 ≠ 0) :
    getRx .dat 705 (fun _ _ i => hwWord (2 ^ lostBit d) i) d = some 0 := by
  have hall := (by decide +kernel : ∀ d : Nat, d < 15 → (decide (d % 4 = 0) ||
    decide (getRx .dat 705 (fun _ _ i => hwWord (2 ^ lostBit d) i) d = some 0)) = true) d hd
  rw [decide_eq_false h, Bool.false_or] at hall
  exact of_decide_eq_true hall

/-- The same flit comes through descriptor 0. -/
example : getRx .dat 705 (fun _ _ i => hwWord (2 ^ lostBit 1) i) 0 = some (2 ^ lostBit 1) ∧
    getRx .dat 705 (fun _ _ i => hwWord (2 ^ lostBit 1) i) 1 = some 0 :=
  ⟨flit_received_partial .dat 705 _ 0 _ (by decide) (by decide) (Nat.pow_lt_pow_right (by decide) (by decide)) (fun _ => rfl) (fun _ => rfl),
    data_read_wrong 1 (by decide) (by decide)⟩

end Verif.ChiHw
