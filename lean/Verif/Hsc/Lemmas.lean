import Verif.Hsc.Model
import Verif.Hsc.Spec

/-! # Helper lemmas for the crypto block -/

namespace Verif.Hsc
open Verif

theorem mask_length (key : List Byte) (ks : Nat) (l : List Byte) : ∀ i, (mask key ks i l).length = l.length := by
  induction l with
  | nil => intro i; rfl
  | cons b bs ih => intro i; simp [mask, ih]

theorem mask_mask (key : List Byte) (ks : Nat) (l : List Byte) : ∀ i j, i % ks = j % ks →
    mask key ks j (mask key ks i l) = l := by
  induction l with
  | nil => intro i j _; rfl
  | cons b bs ih =>
    intro i j h
    simp only [mask]
    rw [h, BitVec.xor_assoc, BitVec.xor_self, BitVec.xor_zero, ih]
    rw [Nat.add_mod, h, ← Nat.add_mod]

/-- A buffer whose first bytes are written. -/
theorem copyIn_fill (w : List Byte) (k : Nat) (src : List Byte) (so n : Nat)
    (hs : so + n ≤ src.length) (hk : n ≤ k) :
    copyIn (w.map some ++ List.replicate k none) w.length src so n =
      some ((w ++ (src.drop so).take n).map some ++ List.replicate (k - n) none) := by
  unfold copyIn
  rw [if_pos ⟨hs, by simp; omega⟩]
  congr 1
  rw [List.take_left' (by simp), List.drop_append, List.map_append, List.append_assoc, List.append_assoc]
  congr 2
  rw [List.drop_eq_nil_of_le (by simp)]
  simp

theorem set_fill (w : List Byte) (k : Nat) (b : Byte) :
    (w.map some ++ List.replicate (k + 1) none).set w.length (some b) =
      (w ++ [b]).map some ++ List.replicate k none := by
  rw [List.set_append_right _ _ (by simp)]
  simp [List.replicate_succ]

theorem maskLoop_fill (key : List Byte) (ks : Nat) (data : List Byte) :
    ∀ (n i : Nat) (w : List Byte) (k : Nat), i + n ≤ data.length → n ≤ k →
    maskLoop key ks data n i w.length (w.map some ++ List.replicate k none) =
      some ((w ++ mask key ks i ((data.drop i).take n)).map some ++ List.replicate (k - n) none) := by
  intro n
  induction n with
  | zero => intro i w k _ _; simp [maskLoop, mask]
  | succ n ih =>
    intro i w k hi hk
    obtain ⟨k, rfl⟩ : ∃ j, k = j + 1 := ⟨k - 1, by omega⟩
    unfold maskLoop
    rw [if_pos ⟨by omega, by simp⟩, set_fill]
    have hl : w.length + 1 = (w ++ [data.getD i 0 ^^^ key.getD (i % ks) 0]).length := by simp
    rw [hl, ih (i + 1) _ k (by omega) (by omega)]
    have hd : data.drop i = data.getD i 0 :: data.drop (i + 1) := by
      rw [List.drop_eq_getElem_cons (by omega)]
      simp [List.getD_eq_getElem?_getD, List.getElem?_eq_getElem (show i < data.length by omega)]
    rw [hd, List.take_succ_cons, mask, List.append_assoc, Nat.add_sub_add_right]
    rfl

theorem tagLen_eq (t : BitVec 8) : tagLen t = 16 := by
  unfold tagLen
  have : t ||| 0x20 ≠ 0 := by
    intro h
    have := congrArg (fun x : BitVec 8 => x.getLsbD 5) h
    simp at this
  rw [if_pos this]

theorem tag_length (l : Latched) : (tag l).length = 16 := by simp [tag]

/-- The number of bytes left in clear when the copy stays in range. -/
def clearN (l : Latched) (len off : Nat) : Nat :=
  if l.byp ∨ l.authOnly then len - off else if l.conf = 30 ∨ l.conf = 50 then (l.conf + 12).toNat else 0

theorem clearLen_eq (l : Latched) (len off : Nat) (hb : l.byteCount = 0) (ho : off ≤ len) (hl : len < 2 ^ 31) :
    clearLen l len off = (clearN l len off : Int) := by
  unfold clearLen clearN toInt32
  by_cases h1 : l.byp ∨ l.authOnly
  · rw [if_pos h1, if_pos h1, BitVec.toInt_ofInt]
    simp only [Int.bmod]
    omega
  · rw [if_neg h1, if_neg h1]
    by_cases h2 : l.conf = 30 ∨ l.conf = 50
    · rw [if_pos h2, if_pos h2, hb, BitVec.toInt_ofInt]
      simp only [Int.bmod]
      omega
    · rw [if_neg h2, if_neg h2]; rfl

/-- The clear copy and the masking loop on a partly filled buffer. -/
theorem clearThenMask_eq (l : Latched) (keys : Mem) (data : List Byte) (off stop : Nat) (w : List Byte) (k : Nat)
    (hb : l.byteCount = 0) (hl : data.length < 2 ^ 31) (hoff : off + clearN l data.length off ≤ data.length)
    (hstop : stop ≤ data.length) (hk : clearN l data.length off + (stop - (off + clearN l data.length off)) ≤ k)
    (key : List Byte) (hkey : off + clearN l data.length off < data.length → keyOf keys l = some key) :
    clearThenMask l keys data off w.length stop (w.map some ++ List.replicate k none) =
      (let c := clearN l data.length off
       let n := if off + c < data.length then stop - (off + c) else 0
       some ((w ++ (data.drop off).take c ++
          mask key (keySize l) (off + c) ((data.drop (off + c)).take n)).map some
          ++ List.replicate (k - c - n) none, w.length + c + n)) := by
  unfold clearThenMask
  have hu := clearLen_eq l data.length off hb (by omega) hl
  generalize hc : clearN l data.length off = c at hu hoff hk hkey ⊢
  simp only [hu]
  rw [if_neg (by omega), Int.toNat_natCast, copyIn_fill w k data off c hoff (by omega)]
  have hlen : w.length + c = (w ++ (data.drop off).take c).length := by simp; omega
  by_cases h : off + c < data.length
  · simp only [if_pos h, hkey h]
    rw [hlen, maskLoop_fill key (keySize l) data (stop - (off + c)) (off + c) _ (k - c)]
    · by_cases hs : off + c ≤ stop
      · omega
      · omega
    · omega
  · simp only [if_neg h]
    simp [mask]

/-- The encoder on one whole transaction. -/
theorem encMacsec_eq (l : Latched) (keys : Mem) (h p : List Byte) (e : Bool) (hb : l.byteCount = 0)
    (hh : h.length = 12) (hp : 2 ≤ p.length) (hl : p.length + 12 < 2 ^ 31)
    (c : Nat) (hc : clearN l (p.length + 12) 12 = c) (hcp : c ≤ p.length)
    (key : List Byte) (hkey : c < p.length → keyOf keys l = some key) :
    encMacsec l keys (h ++ p) e =
      .ok ((h ++ tag l ++ p.take c ++ mask key (keySize l) (12 + c) (p.drop c)).map some ++
        List.replicate (if e then 16 else 0) none) e := by
  have hlen : (h ++ p).length = p.length + 12 := by simp; omega
  unfold encMacsec
  simp only [hlen, hb]
  rw [if_pos trivial, if_neg (by omega), if_pos (show 0 < 14 by omega)]
  have h1 := copyIn_fill [] (p.length + 12 + 16 + if e then 16 else 0) (h ++ p) 0 12 (by omega) (by omega)
  simp only [List.map_nil, List.nil_append, List.length_nil, List.drop_zero] at h1
  rw [List.take_left' hh] at h1
  rw [h1]
  have h2 := copyIn_fill h (p.length + 12 + 16 + (if e then 16 else 0) - 12) (tag l) 0 16
    (by rw [tag_length]) (by omega)
  rw [hh] at h2
  simp only [tagLen_eq]
  rw [h2]
  have h3 := clearThenMask_eq l keys (h ++ p) 12 (p.length + 12) (h ++ (tag l).take 16)
    (p.length + 12 + 16 + (if e then 16 else 0) - 12 - 16) hb (by omega)
    (by rw [hlen, hc]; omega) (by omega) (by rw [hlen, hc]; omega) key
    (by rw [hlen, hc]; intro x; exact hkey (by omega))
  have ht : (tag l).take 16 = tag l := List.take_of_length_le (by rw [tag_length])
  have hwl : (h ++ tag l).length = 28 := by simp [hh, tag_length]
  rw [List.drop_zero, ht]
  rw [ht, hwl] at h3
  simp only [Nat.reduceAdd]
  rw [h3, hlen, hc]
  have hd : (h ++ p).drop 12 = p := List.drop_left' hh
  have hd2 : (h ++ p).drop (12 + c) = p.drop c := by rw [← List.drop_drop, hd]
  have htk : (p.drop c).take (if 12 + c < p.length + 12 then p.length + 12 - (12 + c) else 0) = p.drop c := by
    apply List.take_of_length_le
    rw [List.length_drop]
    by_cases x : 12 + c < p.length + 12
    · rw [if_pos x]; omega
    · omega
  simp only [hd, hd2, htk]
  congr 3
  by_cases x : 12 + c < p.length + 12
  · rw [if_pos x]; omega
  · rw [if_neg x]; omega

/-- The decoder on one whole transaction. -/
theorem decMacsec_eq (l : Latched) (keys : Mem) (h t q icv : List Byte) (e : Bool) (hb : l.byteCount = 0)
    (hh : h.length = 12) (ht : t.length = 16) (hi : icv.length = 16)
    (hl : q.length + 44 < 2 ^ 31)
    (c : Nat) (hc : clearN l (q.length + 44) 28 = c) (hcp : c ≤ q.length ∨ c = q.length + 16)
    (key : List Byte) (hkey : c < q.length + 16 → keyOf keys l = some key) :
    decMacsec l keys (h ++ t ++ q ++ icv) e =
      .ok ((h ++ (q ++ icv).take c ++ mask key (keySize l) (28 + c) (q.drop c)).map some) e := by
  have hlen : (h ++ t ++ q ++ icv).length = q.length + 44 := by simp; omega
  unfold decMacsec
  simp only [hlen, hb]
  rw [if_pos trivial, if_neg (by omega), if_neg (by omega)]
  have h1 := copyIn_fill [] (q.length + 44) (h ++ t ++ q ++ icv) 0 12 (by omega) (by omega)
  have hd12 : (h ++ t ++ q ++ icv).take 12 = h := by
    rw [List.append_assoc, List.append_assoc]; exact List.take_left' hh
  simp only [List.map_nil, List.nil_append, List.length_nil, List.drop_zero] at h1
  rw [hd12] at h1
  rw [h1]
  simp only [tagLen_eq]
  have h3 := clearThenMask_eq l keys (h ++ t ++ q ++ icv) 28 (q.length + 44 - 16) h (q.length + 44 - 12)
    hb (by omega) (by rw [hlen, hc]; omega) (by omega) (by rw [hlen, hc]; omega) key
    (by rw [hlen, hc]; intro x; exact hkey (by omega))
  rw [hh] at h3
  simp only [Nat.reduceAdd]
  rw [h3, hlen, hc]
  have hd : (h ++ t ++ q ++ icv).drop 28 = q ++ icv := by
    rw [List.append_assoc]; exact List.drop_left' (by simp [hh, ht])
  have hd2 : (h ++ t ++ q ++ icv).drop (28 + c) = (q ++ icv).drop c := by rw [← List.drop_drop, hd]
  have htk : ((q ++ icv).drop c).take (if 28 + c < q.length + 44 then q.length + 44 - 16 - (28 + c) else 0)
      = q.drop c := by
    rcases hcp with x | x
    · rw [if_pos (by omega), List.drop_append_of_le_length x]
      exact List.take_left' (by rw [List.length_drop]; omega)
    · rw [if_neg (by omega), List.drop_eq_nil_of_le (as := q) (by omega), List.take_zero]
  simp only [hd, hd2, htk]
  congr 1
  apply List.take_left'
  have : ((q ++ icv).take c).length = c := by rw [List.length_take, List.length_append]; omega
  simp only [List.length_map, List.length_append, mask_length, hh, this, List.length_drop]
  rcases hcp with x | x
  · rw [if_pos (by omega)]; omega
  · rw [if_neg (by omega)]; omega

end Verif.Hsc
