import Verif.Mrmac.Spec

/-! # Helper lemmas for C36 -/

namespace Verif.Mrmac
open Verif Verif.Crc32

/-- **C36 (size classes).** Every frame length lies in exactly one class, the one
the MAC counts it in. -/
theorem bucket_iff (n : Nat) (b : Bucket) : bucket n = b ↔ b.holds n := by
  have h1 : (bucket n).holds n := by
    unfold bucket
    by_cases c0 : n < 64
    · rw [if_pos c0]; exact ⟨by simp only [Bucket.range]; omega, fun m hm => by cases hm; omega⟩
    rw [if_neg c0]
    by_cases c1 : n = 64
    · rw [if_pos c1]; exact ⟨by simp only [Bucket.range]; omega, fun m hm => by cases hm; omega⟩
    rw [if_neg c1]
    by_cases c2 : n < 128
    · rw [if_pos c2]; exact ⟨by simp only [Bucket.range]; omega, fun m hm => by cases hm; omega⟩
    rw [if_neg c2]
    by_cases c3 : n < 256
    · rw [if_pos c3]; exact ⟨by simp only [Bucket.range]; omega, fun m hm => by cases hm; omega⟩
    rw [if_neg c3]
    by_cases c4 : n < 512
    · rw [if_pos c4]; exact ⟨by simp only [Bucket.range]; omega, fun m hm => by cases hm; omega⟩
    rw [if_neg c4]
    by_cases c5 : n < 1024
    · rw [if_pos c5]; exact ⟨by simp only [Bucket.range]; omega, fun m hm => by cases hm; omega⟩
    rw [if_neg c5]
    by_cases c6 : n < 1519
    · rw [if_pos c6]; exact ⟨by simp only [Bucket.range]; omega, fun m hm => by cases hm; omega⟩
    rw [if_neg c6]
    by_cases c7 : n < 1523
    · rw [if_pos c7]; exact ⟨by simp only [Bucket.range]; omega, fun m hm => by cases hm; omega⟩
    rw [if_neg c7]
    by_cases c8 : n < 1549
    · rw [if_pos c8]; exact ⟨by simp only [Bucket.range]; omega, fun m hm => by cases hm; omega⟩
    rw [if_neg c8]
    by_cases c9 : n < 2048
    · rw [if_pos c9]; exact ⟨by simp only [Bucket.range]; omega, fun m hm => by cases hm; omega⟩
    rw [if_neg c9]
    by_cases c10 : n < 4096
    · rw [if_pos c10]; exact ⟨by simp only [Bucket.range]; omega, fun m hm => by cases hm; omega⟩
    rw [if_neg c10]
    by_cases c11 : n < 8192
    · rw [if_pos c11]; exact ⟨by simp only [Bucket.range]; omega, fun m hm => by cases hm; omega⟩
    rw [if_neg c11]
    by_cases c12 : n < 9216
    · rw [if_pos c12]; exact ⟨by simp only [Bucket.range]; omega, fun m hm => by cases hm; omega⟩
    rw [if_neg c12]
    exact ⟨by simp only [Bucket.range]; omega, fun m hm => by cases hm⟩
  have h2 : ∀ a b : Bucket, a.holds n → b.holds n → a = b := by
    rintro a b ⟨a1, a2⟩ ⟨b1, b2⟩
    cases a <;> cases b <;> first
      | rfl
      | (have a3 := a2 _ rfl; have b3 := b2 _ rfl; simp only [Bucket.range] at a1 b1; omega)
      | (have a3 := a2 _ rfl; simp only [Bucket.range] at a1 b1; omega)
      | (have b3 := b2 _ rfl; simp only [Bucket.range] at a1 b1; omega)
  exact ⟨fun h => h ▸ h1, fun h => h2 _ _ h1 h⟩

theorem statsAdd_wrap (w c v : Nat) (hw : w ≤ 64) : statsAdd true w c v = (c + v) % 2 ^ w := by
  rw [statsAdd, if_neg (by simp)]
  exact Nat.mod_mod_of_dvd _ (Nat.pow_dvd_pow 2 hw)

theorem room (w c : Nat) (hw : w ≤ 64) (hc : c < 2 ^ w) : (2 ^ w - 1 + 2 ^ 64 - c) % 2 ^ 64 = 2 ^ w - 1 - c := by
  have h1 : 2 ^ w ≤ 2 ^ 64 := Nat.pow_le_pow_right (by decide) hw
  have : 2 ^ w - 1 + 2 ^ 64 - c = (2 ^ w - 1 - c) + 2 ^ 64 := by omega
  rw [this, Nat.add_mod_right, Nat.mod_eq_of_lt (by omega)]

theorem statsAdd_sat (w c v : Nat) (hw : w ≤ 64) (hc : c < 2 ^ w) :
    statsAdd false w c v = if c + v < 2 ^ w then c + v else c := by
  have h1 : 2 ^ w ≤ 2 ^ 64 := Nat.pow_le_pow_right (by decide) hw
  rw [statsAdd, room w c hw hc]
  by_cases h : c + v < 2 ^ w
  · rw [if_neg (by omega), if_pos h, Nat.mod_eq_of_lt (a := c + v) (b := 2 ^ 64) (by omega), Nat.mod_eq_of_lt h]
  · rw [if_pos ⟨by omega, rfl⟩, if_neg h]

theorem width_le (c : Ctr) : c.width ≤ 64 := by cases c <;> simp [Ctr.width]

theorem statsAdd_zero (ext : Bool) (c : Ctr) (x : Nat) (h : x < 2 ^ c.width) : statsAdd ext c.width x 0 = x := by
  cases ext
  · rw [statsAdd_sat _ _ _ (width_le c) h, if_pos (by omega)]; rfl
  · rw [statsAdd_wrap _ _ _ (width_le c)]; exact Nat.mod_eq_of_lt h

theorem kind_spec (f : List Byte) : isUnicast f = decide (kind f = .unicast) ∧
    (isMulticast f && !isBroadcast f) = decide (kind f = .multicast) ∧ isBroadcast f = decide (kind f = .broadcast) := by
  have hm : isMulticast f = (f.getD 0 0).getLsbD 0 := by
    unfold isMulticast
    generalize f.getD 0 0 = b
    revert b; decide +kernel
  have hb : isBroadcast f = decide (f.take 6 = List.replicate 6 0xff) := by
    unfold isBroadcast
    rw [show List.replicate 6 (0xff : Byte) = [0xff, 0xff, 0xff, 0xff, 0xff, 0xff] from rfl]
    generalize f.take 6 = l
    by_cases h : l = [0xff, 0xff, 0xff, 0xff, 0xff, 0xff]
    · subst h; rfl
    · rw [decide_eq_false h]; exact beq_eq_false_iff_ne.mpr h
  have hbm : isBroadcast f = true → (f.getD 0 0).getLsbD 0 = true := by
    intro h
    rw [hb, decide_eq_true_eq] at h
    have : f.getD 0 0 = 0xff := by
      have h0 : (f.take 6)[0]? = some 0xff := by rw [h]; rfl
      rw [List.getElem?_take, if_pos (by decide)] at h0
      rw [List.getD_eq_getElem?_getD, h0]; rfl
    rw [this]; decide
  unfold isUnicast kind
  rw [hm]
  cases h1 : (f.getD 0 0).getLsbD 0 with
  | false =>
    have : isBroadcast f = false := by
      cases h : isBroadcast f with
      | false => rfl
      | true => rw [hbm h] at h1; cases h1
    simp [this]
  | true =>
    rw [hb]
    by_cases h2 : f.take 6 = List.replicate 6 0xff
    · simp [h2]
    · simp only [h2, if_false]; decide

theorem type_spec (f : List Byte) (a b : Byte) (h : 14 ≤ f.length) :
    ethType f = (a.setWidth 16 <<< 8) ||| b.setWidth 16 ↔ (f.drop 12).take 2 = [a, b] := by
  have e : (f.drop 12).take 2 = [f.getD 12 0, f.getD 13 0] := by
    apply List.ext_getElem?
    intro i
    match i with
    | 0 => simp [List.getD_eq_getElem?_getD, List.getElem?_eq_getElem (show 12 < f.length by omega)]
    | 1 => simp [List.getD_eq_getElem?_getD, List.getElem?_eq_getElem (show 13 < f.length by omega)]
    | i + 2 => simp
  rw [e, ethType]
  generalize f.getD 12 0 = p
  generalize f.getD 13 0 = q
  constructor
  · intro h
    have hp : p = a := by
      apply BitVec.eq_of_getLsbD_eq
      intro i hi
      have := congrArg (fun x : BitVec 16 => x.getLsbD (i + 8)) h
      simp only [BitVec.getLsbD_or, BitVec.getLsbD_shiftLeft, BitVec.getLsbD_setWidth] at this
      have hge : ∀ x : Byte, x.getLsbD (i + 8) = false := fun x => BitVec.getLsbD_of_ge x _ (by omega)
      simpa [hge, show i < 16 by omega, show i + 8 < 16 by omega] using this
    have hq : q = b := by
      apply BitVec.eq_of_getLsbD_eq
      intro i hi
      have := congrArg (fun x : BitVec 16 => x.getLsbD i) h
      simp only [BitVec.getLsbD_or, BitVec.getLsbD_shiftLeft, BitVec.getLsbD_setWidth] at this
      simpa [hi, show i < 16 by omega] using this
    rw [hp, hq]
  · intro h
    simp only [List.cons.injEq, and_true] at h
    rw [h.1, h.2]

theorem good_bump (ext : Bool) (s : Stats) (f : List Byte) (h : 14 ≤ f.length) (c : Ctr) (hs : s c < 2 ^ c.width) :
    bumpAll ext s (goodStats f ++ allStats f) c = statsAdd ext c.width (s c) (contribution true f c) ∧
    bumpAll ext s (allStats f ++ goodStats f) c = statsAdd ext c.width (s c) (contribution true f c) := by
  obtain ⟨k1, k2, k3⟩ := kind_spec f
  have tv := type_spec f 0x81 0x00 h
  have tp := type_spec f 0x88 0x08 h
  rw [show ((0x81 : Byte).setWidth 16 <<< 8) ||| (0x00 : Byte).setWidth 16 = (0x8100 : BitVec 16) by decide] at tv
  rw [show ((0x88 : Byte).setWidth 16 <<< 8) ||| (0x08 : Byte).setWidth 16 = (0x8808 : BitVec 16) by decide] at tp
  have toNat_decide : ∀ (p : Prop) [Decidable p], (decide p).toNat = if p then 1 else 0 := by
    intro p _; by_cases hp : p <;> simp [hp]
  have z := statsAdd_zero ext c (s c) hs
  unfold goodStats allStats
  rw [k1, k2, k3]
  simp only [toNat_decide]
  generalize hu : (if kind f = .unicast then 1 else 0) = u
  generalize hm : (if kind f = .multicast then 1 else 0) = m
  generalize hb : (if kind f = .broadcast then 1 else 0) = b
  have hsize : ∀ b, (if b.holds f.length then 1 else 0) = (if b = bucket f.length then 1 else 0) := by
    intro b
    by_cases hb : b = bucket f.length
    · rw [if_pos hb, if_pos ((bucket_iff _ _).1 hb.symm)]
    · rw [if_neg hb, if_neg (fun h => hb ((bucket_iff _ _).2 h).symm)]
  have hsb : ∀ b, (if b = bucket f.length then statsAdd ext 48 (s (.size b)) 1 else s (.size b)) =
      statsAdd ext 48 (s (.size b)) (if b = bucket f.length then 1 else 0) ∨ ¬ s (.size b) < 2 ^ 48 := by
    intro b
    by_cases hb : b = bucket f.length
    · rw [if_pos hb, if_pos hb]; exact .inl rfl
    · by_cases hlt : s (.size b) < 2 ^ 48
      · rw [if_neg hb, if_neg hb]; exact .inl (statsAdd_zero ext (.size b) _ hlt).symm
      · exact .inr hlt
  by_cases hv : ethType f = 0x8100
  · have hv' := tv.1 hv
    have hp' : ¬ (f.drop 12).take 2 = [0x88, 0x08] := by rw [hv']; decide
    rw [if_pos hv]
    cases c with
    | size b =>
      rcases hsb b with h | h
      · simp [bumpAll, bump, contribution, Ctr.width, hsize]; simpa using h
      · exact absurd hs h
    | _ => simp [bumpAll, bump, contribution, hv', Ctr.width, hu, hm, hb] at z ⊢; try exact z.symm
  · have hv' : ¬ (f.drop 12).take 2 = [0x81, 0x00] := fun h => hv (tv.2 h)
    rw [if_neg hv]
    by_cases hp : ethType f = 0x8808
    · have hp' := tp.1 hp
      rw [if_pos hp]
      cases c with
      | size b =>
        rcases hsb b with h | h
        · simp [bumpAll, bump, contribution, Ctr.width, hsize]; simpa using h
        · exact absurd hs h
      | _ => simp [bumpAll, bump, contribution, hp', Ctr.width, hu, hm, hb] at z ⊢; try exact z.symm
    · have hp' : ¬ (f.drop 12).take 2 = [0x88, 0x08] := fun h => hp (tp.2 h)
      rw [if_neg hp]
      cases c with
      | size b =>
        rcases hsb b with h | h
        · simp [bumpAll, bump, contribution, Ctr.width, hsize]; simpa using h
        · exact absurd hs h
      | vlan => simp only [contribution, if_neg (fun h => hv' (And.right h))]; simp [bumpAll, bump, Ctr.width] at z ⊢; exact z.symm
      | pause => simp only [contribution, if_neg (fun h => hp' (And.right h))]; simp [bumpAll, bump, Ctr.width] at z ⊢; exact z.symm
      | _ => simp [bumpAll, bump, contribution, Ctr.width, hu, hm, hb] at z ⊢; try exact z.symm

theorem bad_bump (ext : Bool) (s : Stats) (f : List Byte) (c : Ctr) (hs : s c < 2 ^ c.width) :
    bumpAll ext s ((.badFcs, 1) :: allStats f) c = statsAdd ext c.width (s c) (contribution false f c) := by
  have z := statsAdd_zero ext c (s c) hs
  cases c with
  | size b =>
    by_cases hb : b = bucket f.length
    · have := (bucket_iff _ _).1 hb.symm
      simp only [contribution, if_pos this]
      simp [bumpAll, bump, allStats, Ctr.width, hb]
    · have : ¬ b.holds f.length := fun h => hb ((bucket_iff _ _).2 h).symm
      simp only [contribution, if_neg this]
      simp [bumpAll, bump, allStats, Ctr.width, hb] at z ⊢
      exact z.symm
  | _ => simp [bumpAll, bump, allStats, contribution, Ctr.width] at z ⊢; try exact z.symm

theorem wordBits_inj (a b : BitVec 32) (h : wordBits a = wordBits b) : a = b := by
  apply BitVec.eq_of_getLsbD_eq
  intro i hi
  have := congrArg (fun l : List Bool => l[i]?) h
  simpa [wordBits, hi] using this

theorem msgBits_append (a b : List Byte) : msgBits (a ++ b) = msgBits a ++ msgBits b := by
  unfold msgBits; rw [List.flatMap_append]

/-- The receiver's check accepts a frame iff its CRC is the fixed residue. -/
theorem crc_residue_iff (m : List Byte) (c : BitVec 32) :
    crc32 0 (m ++ crcBytes c) = 0x2144DF1C ↔ c = crc32 0 m := by
  constructor
  · intro h
    apply Decidable.byContradiction
    intro hne
    refine burst_detected 0 (m ++ crcBytes c) (m ++ crcBytes (crc32 0 m)) (msgBits m) (wordBits c) (wordBits (crc32 0 m)) []
      ?_ ?_ ?_ ?_ ?_ (by rw [h, crc32_residue])
    · rw [msgBits_append, msgBits_crcBytes, List.append_nil]
    · rw [msgBits_append, msgBits_crcBytes, List.append_nil]
    · simp [wordBits]
    · simp [wordBits]
    · exact fun h => hne (wordBits_inj _ _ h)
  · rintro rfl; exact crc32_residue m

theorem crcBytes_length (c : BitVec 32) : (crcBytes c).length = 4 := by simp [crcBytes]

theorem fcsOk_iff (f : List Byte) (h : 4 ≤ f.length) : fcsOk f = true ↔ Valid f := by
  unfold fcsOk
  rw [beq_iff_eq]
  constructor
  · intro e
    exact ⟨f.take (f.length - 4), by rw [← e, List.take_append_drop]⟩
  · rintro ⟨m, rfl⟩
    have hl : (m ++ crcBytes (crc32 0 m)).length - 4 = m.length := by
      rw [List.length_append, crcBytes_length]; omega
    rw [hl, List.drop_left, List.take_left]

theorem valid_length (f : List Byte) (h : Valid f) : 4 ≤ f.length := by
  obtain ⟨m, rfl⟩ := h
  rw [List.length_append, crcBytes_length]; omega

theorem burst_invalid (f f' : List Byte) (h : Valid f) (hb : BurstError f f') : ¬ Valid f' := by
  obtain ⟨pre, w, w', post, e, e', hl, h32, hne⟩ := hb
  intro hv
  obtain ⟨m, rfl⟩ := h
  obtain ⟨m', rfl⟩ := hv
  exact burst_detected 0 _ _ pre w w' post e e' hl h32 hne (by rw [crc32_residue, crc32_residue])

theorem burst_length (f f' : List Byte) (hb : BurstError f f') : f'.length = f.length := by
  obtain ⟨pre, w, w', post, e, e', hl, h32, hne⟩ := hb
  have h1 := congrArg List.length e
  have h2 := congrArg List.length e'
  rw [msgBits_length] at h1 h2
  simp only [List.length_append] at h1 h2
  omega

/-! ## Folding additions -/

theorem statsAdd_lt (ext : Bool) (c : Ctr) (x v : Nat) (h : x < 2 ^ c.width) : statsAdd ext c.width x v < 2 ^ c.width := by
  cases ext
  · rw [statsAdd_sat _ _ _ (width_le c) h]; split <;> omega
  · rw [statsAdd_wrap _ _ _ (width_le c)]; exact Nat.mod_lt _ (Nat.two_pow_pos _)

theorem fold_unit (w : Nat) (hw : w ≤ 64) (l : List Nat) (h1 : ∀ v ∈ l, v ≤ 1) (x : Nat) (hx : x < 2 ^ w) :
    l.foldl (statsAdd false w) x = min (x + l.sum) (2 ^ w - 1) := by
  induction l generalizing x with
  | nil => simp; omega
  | cons v vs ih =>
    have hv := h1 v (by simp)
    rw [List.foldl_cons, statsAdd_sat w x v hw hx, List.sum_cons]
    split
    · rw [ih (fun u hu => h1 u (by simp [hu])) _ (by assumption)]; congr 1; omega
    · rw [ih (fun u hu => h1 u (by simp [hu])) _ hx]; omega

theorem fold_exact (w : Nat) (hw : w ≤ 64) (l : List Nat) (x : Nat) (hx : x + l.sum < 2 ^ w) :
    l.foldl (statsAdd false w) x = x + l.sum := by
  induction l generalizing x with
  | nil => rfl
  | cons v vs ih =>
    rw [List.sum_cons] at hx
    rw [List.foldl_cons, statsAdd_sat w x v hw (by omega), if_pos (by omega), ih _ (by omega), List.sum_cons]
    omega

theorem fold_bound (w : Nat) (hw : w ≤ 64) (l : List Nat) (x : Nat) (hx : x < 2 ^ w) :
    x ≤ l.foldl (statsAdd false w) x ∧ l.foldl (statsAdd false w) x ≤ x + l.sum := by
  induction l generalizing x with
  | nil => simp
  | cons v vs ih =>
    rw [List.foldl_cons, statsAdd_sat w x v hw hx, List.sum_cons]
    split
    · have := ih (x + v) (by assumption); omega
    · have := ih x hx; omega

theorem fold_wrap (w : Nat) (hw : w ≤ 64) (l : List Nat) (x : Nat) (hx : x < 2 ^ w) :
    l.foldl (statsAdd true w) x = (x + l.sum) % 2 ^ w := by
  induction l generalizing x with
  | nil => rw [List.foldl_nil, List.sum_nil, Nat.add_zero, Nat.mod_eq_of_lt hx]
  | cons v vs ih =>
    rw [List.foldl_cons, statsAdd_wrap w x v hw, ih _ (Nat.mod_lt _ (Nat.two_pow_pos _)), List.sum_cons,
      Nat.mod_add_mod, Nat.add_assoc]

/-! ## Ticks -/

theorem regs_notMem (l : List (Dir × Ctr × Nat)) (r : Regs) (i : Nat)
    (h : i ∉ l.flatMap fun e => [e.2.2 / 4, e.2.2 / 4 + 1]) : (l.foldl update64 r).regs i = r.regs i := by
  induction l generalizing r with
  | nil => rfl
  | cons e es ih =>
    rw [List.flatMap_cons, List.mem_append, not_or] at h
    rw [List.foldl_cons, ih _ h.2]
    simp only [List.mem_cons, not_or, List.not_mem_nil, not_false_eq_true, and_true] at h
    simp only [update64, if_neg h.1.1, if_neg h.1.2]

theorem stats_zero (l : List (Dir × Ctr × Nat)) (r : Regs) (d : Dir) (c : Ctr) :
    (l.foldl update64 r).stats d c = if (d, c) ∈ l.map (fun e => (e.1, e.2.1)) then 0 else r.stats d c := by
  induction l generalizing r with
  | nil => rfl
  | cons e es ih =>
    rw [List.foldl_cons, ih]
    simp only [List.map_cons, List.mem_cons, update64, Prod.mk.injEq]
    by_cases h1 : (d, c) ∈ es.map (fun e => (e.1, e.2.1))
    · rw [if_pos h1, if_pos (.inr h1)]
    · rw [if_neg h1]
      by_cases h2 : d = e.1 ∧ c = e.2.1
      · rw [if_pos h2, if_pos (.inl h2)]
      · rw [if_neg h2, if_neg (by rintro (h | h); exacts [h2 h, h1 h])]

theorem regs_mem (l : List (Dir × Ctr × Nat)) (hi : (l.flatMap fun e => [e.2.2 / 4, e.2.2 / 4 + 1]).Nodup)
    (hk : (l.map fun e => (e.1, e.2.1)).Nodup) (r : Regs) (e : Dir × Ctr × Nat) (he : e ∈ l) :
    (l.foldl update64 r).regs (e.2.2 / 4) = BitVec.ofNat 32 (r.stats e.1 e.2.1) ∧
    (l.foldl update64 r).regs (e.2.2 / 4 + 1) = BitVec.ofNat 32 (r.stats e.1 e.2.1 / 2 ^ 32) := by
  induction l generalizing r with
  | nil => simp at he
  | cons x xs ih =>
    rw [List.flatMap_cons, List.nodup_append] at hi
    obtain ⟨-, hi2, hd⟩ := hi
    rw [List.map_cons, List.nodup_cons] at hk
    rw [List.foldl_cons]
    rcases List.mem_cons.mp he with rfl | he
    · have n1 : e.2.2 / 4 ∉ xs.flatMap fun e => [e.2.2 / 4, e.2.2 / 4 + 1] := fun h => hd _ (by simp) _ h rfl
      have n2 : e.2.2 / 4 + 1 ∉ xs.flatMap fun e => [e.2.2 / 4, e.2.2 / 4 + 1] := fun h => hd _ (by simp) _ h rfl
      rw [regs_notMem xs _ _ n1, regs_notMem xs _ _ n2]
      constructor
      · simp only [update64]
        rw [if_neg (by omega), if_pos trivial]
      · simp only [update64]
        rw [if_pos trivial]
    · obtain ⟨a, b⟩ := ih hi2 hk.2 (update64 r x) he
      have hne : ¬ (e.1 = x.1 ∧ e.2.1 = x.2.1) := by
        rintro ⟨h1, h2⟩
        refine hk.1 ?_
        rw [← h1, ← h2]
        exact List.mem_map.mpr ⟨e, he, rfl⟩
      rw [a, b]
      simp only [update64, if_neg hne, and_self]

end Verif.Mrmac
