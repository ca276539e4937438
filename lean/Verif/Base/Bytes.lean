/-!
# Bytes, big-endian integers and bounded reads

Shared by every component model.  Nothing here transcribes repository code
except the host/network byte-order helpers (`htobe16/32/64`, `be16toh` …) that
`/repo/libremote-port/remote-port-proto.c` takes from `<endian.h>`.
-/

namespace Verif

/-- One byte. -/
abbrev Byte := BitVec 8

/-- The `n` big-endian bytes of `v` (most significant first), i.e. the memory
image of `htobe16/32/64(v)` for `n = 2/4/8`; higher bits of `v` are dropped. -/
def beEnc : Nat → Nat → List Byte
  | 0, _ => []
  | n + 1, v => BitVec.ofNat 8 (v / 256 ^ n) :: beEnc n v

/-- The number whose big-endian bytes are given (`be16/32/64toh`). -/
def beDec : List Byte → Nat
  | [] => 0
  | b :: bs => b.toNat * 256 ^ bs.length + beDec bs

/-- The `n` little-endian bytes of `v` (least significant first): the memory
image of an unconverted integer on the little-endian host the library is built
for. -/
def leEnc : Nat → Nat → List Byte
  | 0, _ => []
  | n + 1, v => BitVec.ofNat 8 v :: leEnc n (v / 256)

/-- The number whose little-endian bytes are given. -/
def leDec : List Byte → Nat
  | [] => 0
  | b :: bs => b.toNat + 256 * leDec bs

/-- Read `n` bytes at offset `off`; `none` if the read would leave the buffer. -/
def slice (off n : Nat) (buf : List Byte) : Option (List Byte) :=
  if off + n ≤ buf.length then some ((buf.drop off).take n) else none

@[simp] theorem beEnc_length (n v : Nat) : (beEnc n v).length = n := by
  induction n with
  | zero => rfl
  | succ n ih => simp [beEnc, ih]

@[simp] theorem leEnc_length (n v : Nat) : (leEnc n v).length = n := by
  induction n generalizing v with
  | zero => rfl
  | succ n ih => simp [leEnc, ih]

theorem beDec_beEnc (n v : Nat) : beDec (beEnc n v) = v % 256 ^ n := by
  induction n with
  | zero => simp [beEnc, beDec, Nat.mod_one]
  | succ n ih =>
    simp only [beEnc, beDec, beEnc_length, ih, BitVec.toNat_ofNat]
    rw [Nat.pow_succ 256 n, Nat.mod_mul, Nat.mul_comm, Nat.add_comm]

theorem leDec_leEnc (n v : Nat) : leDec (leEnc n v) = v % 256 ^ n := by
  induction n generalizing v with
  | zero => simp [leEnc, leDec, Nat.mod_one]
  | succ n ih =>
    simp only [leEnc, leDec, ih, BitVec.toNat_ofNat]
    rw [Nat.pow_succ 256 n, Nat.mul_comm (256 ^ n) 256, Nat.mod_mul]

theorem beDec_lt (bs : List Byte) : beDec bs < 256 ^ bs.length := by
  induction bs with
  | nil => simp [beDec]
  | cons b bs ih =>
    have hb : b.toNat < 256 := b.isLt
    simp only [beDec, List.length_cons, Nat.pow_succ]
    have : b.toNat * 256 ^ bs.length + 256 ^ bs.length ≤ 256 * 256 ^ bs.length := by
      have := Nat.mul_le_mul_right (256 ^ bs.length) (Nat.succ_le_of_lt hb)
      rwa [Nat.succ_mul] at this
    rw [Nat.mul_comm (256 ^ bs.length) 256]
    omega

theorem beEnc_beDec (bs : List Byte) : beEnc bs.length (beDec bs) = bs := by
  have gen : ∀ (n : Nat) (bs : List Byte) (k : Nat), bs.length = n →
      beEnc n (k * 256 ^ n + beDec bs) = bs := by
    intro n
    induction n with
    | zero => intro bs k h; simp [beEnc, List.length_eq_zero_iff.mp h]
    | succ n ih =>
      intro bs k h
      match bs, h with
      | b :: bs, h =>
        have hl : bs.length = n := by simpa using h
        have hlt := beDec_lt bs
        simp only [beEnc, beDec, hl] at hlt ⊢
        have hpos : 0 < 256 ^ n := Nat.pow_pos (by decide)
        have e : k * 256 ^ (n + 1) + (b.toNat * 256 ^ n + beDec bs)
            = (k * 256 + b.toNat) * 256 ^ n + beDec bs := by
          rw [Nat.pow_succ, Nat.add_mul, Nat.mul_assoc, Nat.mul_comm (256 ^ n) 256]
          omega
        rw [e, ih bs (k * 256 + b.toNat) hl]
        congr 1
        rw [Nat.mul_comm, Nat.mul_add_div hpos, Nat.div_eq_of_lt hlt]
        apply BitVec.eq_of_toNat_eq
        simp
        have := b.isLt
        omega
  simpa using gen bs.length bs 0 rfl

theorem slice_head {a rest : List Byte} {n : Nat} (h : a.length = n) :
    slice 0 n (a ++ rest) = some a := by
  subst h
  simp [slice]

theorem slice_skip {a rest : List Byte} {off n : Nat} (h : a.length ≤ off) :
    slice off n (a ++ rest) = slice (off - a.length) n rest := by
  unfold slice
  have h1 : (off + n ≤ (a ++ rest).length) ↔ (off - a.length + n ≤ rest.length) := by
    simp; omega
  by_cases hc : off - a.length + n ≤ rest.length
  · rw [if_pos (h1.mpr hc), if_pos hc, List.drop_append_of_length_le' h]
  · rw [if_neg (fun x => hc (h1.mp x)), if_neg hc]
where
  List.drop_append_of_length_le' {a rest : List Byte} {off : Nat} (h : a.length ≤ off) :
      (a ++ rest).drop off = rest.drop (off - a.length) := by
    rw [List.drop_append, List.drop_eq_nil_of_le h]; simp

theorem slice_all {a : List Byte} {n : Nat} (h : a.length = n) : slice 0 n a = some a := by
  have := slice_head (rest := []) h
  simpa using this

end Verif
