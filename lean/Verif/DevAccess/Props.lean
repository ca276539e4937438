import Verif.DevAccess.Model
/-!
C43: copying to and from I/O space.
-/
namespace Verif.DevAccess
open Verif

theorem leDec_lt (bs : List Byte) : leDec bs < 256 ^ bs.length := by
  induction bs with
  | nil => simp [leDec]
  | cons b bs ih =>
    simp only [leDec, List.length_cons, Nat.pow_succ]
    have := b.isLt
    omega

theorem leEnc_take_leDec : ∀ (bs : List Byte) (n : Nat), bs.length ≤ n →
    (leEnc n (leDec bs)).take bs.length = bs
  | [], n, _ => by simp
  | b :: bs, 0, h => by simp at h
  | b :: bs, n + 1, h => by
    simp only [leDec, leEnc, List.length_cons, List.take_succ_cons]
    have hb := b.isLt
    have e1 : (b.toNat + 256 * leDec bs) / 256 = leDec bs := by omega
    have e2 : BitVec.ofNat 8 (b.toNat + 256 * leDec bs) = b := by
      apply BitVec.eq_of_toNat_eq
      rw [BitVec.toNat_ofNat]
      omega
    rw [e1, e2, leEnc_take_leDec bs n (by simpa using h)]

theorem bytesAt_length (io : Mem) (a n : Nat) : (bytesAt io a n).length = n := by simp [bytesAt]

/-- On a little-endian host, copying from I/O space yields exactly the requested
bytes, for every address and length. -/
theorem from_io_exact (io : Mem) (addr len : Nat) :
    (fromIo .little io addr len).1 = bytesAt io addr len := by
  have k : ∀ n, n ≤ 8 → (rep .little 8 (load .little (bytesAt io addr n))).take n = bytesAt io addr n := by
    intro n hn
    have := leEnc_take_leDec (bytesAt io addr n) 8 (by rw [bytesAt_length]; omega)
    rw [bytesAt_length] at this
    exact this
  unfold fromIo
  split
  · rename_i h; rw [h]
  split
  · rename_i h; rw [h.1]; exact k 2 (by omega)
  split
  · rename_i h; rw [h.1]; exact k 4 (by omega)
  split
  · rename_i h; rw [h.1]; exact k 8 (by omega)
  · rfl

/-- Copying to I/O space stores exactly the given bytes and nothing else. -/
theorem to_io_exact (io : Mem) (addr : Nat) (buf : List Byte) :
    (∀ i (h : i < buf.length), (toIo io addr buf).1 (addr + i) = buf[i]) ∧
    (∀ x, x < addr ∨ addr + buf.length ≤ x → (toIo io addr buf).1 x = io x) := by
  have base : (toIo io addr buf).1 = storeAt io addr buf := by
    have t : ∀ n, n ≤ 8 → buf.length = n → (buf.take 8).take n = buf := by
      intro n hn h
      rw [List.take_of_length_le (by omega : buf.length ≤ 8), List.take_of_length_le (by omega)]
    unfold toIo
    simp only
    split
    · rfl
    split
    · rename_i h; rw [t 2 (by omega) h.1]
    split
    · rename_i h; rw [t 4 (by omega) h.1]
    split
    · rename_i h; rw [t 8 (by omega) h.1]
    · rfl
  rw [base]
  constructor
  · intro i h
    unfold storeAt
    rw [if_pos (by omega)]
    have : addr + i - addr = i := by omega
    rw [this]
    simp [h]
  · intro x h
    unfold storeAt
    rw [if_neg (by omega)]

/-- A single naturally aligned access covering the range. -/
def Aligned (accs : List Acc) (addr len : Nat) : Prop :=
  accs = [.single addr len] ∧ addr % len = 0

/-- Exactly the naturally aligned power-of-two sizes up to eight bytes use one
naturally aligned access. Missing from the full property: every other request is
left to `memcpy`, whose accesses are not determined. -/
theorem aligned_access_partial (h : Host) (io : Mem) (addr : Nat) (buf : List Byte) :
    (Aligned (fromIo h io addr buf.length).2 addr buf.length ↔
      buf.length ∈ [1, 2, 4, 8] ∧ addr % buf.length = 0) ∧
    (Aligned (toIo io addr buf).2 addr buf.length ↔
      buf.length ∈ [1, 2, 4, 8] ∧ addr % buf.length = 0) ∧
    ((buf.length ∉ [1, 2, 4, 8] ∨ addr % buf.length ≠ 0) →
      (fromIo h io addr buf.length).2 = [.bulk addr buf.length] ∧
      (toIo io addr buf).2 = [.bulk addr buf.length]) := by
  generalize hn : buf.length = n
  unfold Aligned fromIo toIo
  simp only [hn, List.mem_cons, List.not_mem_nil, or_false]
  by_cases h1 : n = 1
  · subst h1; simp [Nat.mod_one]
  by_cases h2 : n = 2
  · subst h2
    by_cases ha : addr % 2 = 0 <;> simp [ha]
  by_cases h4 : n = 4
  · subst h4
    by_cases ha : addr % 4 = 0 <;> simp [ha]
  by_cases h8 : n = 8
  · subst h8
    by_cases ha : addr % 8 = 0 <;> simp [ha]
  · simp [h1, h2, h4, h8]

example : Aligned (fromIo .little (fun a => BitVec.ofNat 8 a) 0x1004 4).2 0x1004 4 ∧
    (fromIo .little (fun a => BitVec.ofNat 8 a) 0x1004 4).1 = [4#8, 5#8, 6#8, 7#8] := by
  unfold Aligned; decide +kernel

/-- FINDING. A three-byte or misaligned copy is handed to `memcpy`. -/
theorem odd_lengths_bulk :
    (fromIo .little (fun _ => 0#8) 0x1000 3).2 = [.bulk 0x1000 3] ∧
    (fromIo .little (fun _ => 0#8) 0x1001 4).2 = [.bulk 0x1001 4] ∧
    (fromIo .little (fun _ => 0#8) 0x1000 16).2 = [.bulk 0x1000 16] := by decide +kernel

/-- FINDING. On a big-endian host a two- or four-byte read returns the upper,
zero, bytes of the temporary instead of the data. -/
theorem big_endian_reads_zero :
    (fromIo .big (fun a => BitVec.ofNat 8 a) 0x1004 4).1 = [0#8, 0#8, 0#8, 0#8] := by decide +kernel

end Verif.DevAccess
