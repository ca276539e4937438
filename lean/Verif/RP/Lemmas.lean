import Verif.RP.Model

/-! Helper lemmas for the remote-port codec. -/

namespace Verif.RP
open Verif

theorem slice_skip_lit {a rest : List Byte} {off n k : Nat} (ha : a.length = k) (h : k ≤ off) :
    slice off n (a ++ rest) = slice (off - k) n rest := by
  subst ha; exact slice_skip h

theorem drop_lit {a rest : List Byte} {k : Nat} (ha : a.length = k) : (a ++ rest).drop k = rest := by
  subst ha; exact List.drop_left

@[simp] theorem w8_length (x : U8) : (w8 x).length = 1 := by simp [w8]
@[simp] theorem w16_length (x : U16) : (w16 x).length = 2 := by simp [w16]
@[simp] theorem w32_length (x : U32) : (w32 x).length = 4 := by simp [w32]
@[simp] theorem w64_length (x : U64) : (w64 x).length = 8 := by simp [w64]
@[simp] theorem encHdr_length (h : Hdr) : (encHdr h).length = 20 := by simp [encHdr]
@[simp] theorem encBusCommon_length (a : U64) (b : U16) (c d : U64) (e f g : U32) :
    (encBusCommon a b c d e f g).length = 38 := by simp [encBusCommon]

/-! Skipping fields. -/

section
variable {off n : Nat} {rest : List Byte}

theorem sl_w8 {x : U8} (h : 1 ≤ off) : slice off n (w8 x ++ rest) = slice (off - 1) n rest :=
  slice_skip_lit (by simp) h
theorem sl_w16 {x : U16} (h : 2 ≤ off) : slice off n (w16 x ++ rest) = slice (off - 2) n rest :=
  slice_skip_lit (by simp) h
theorem sl_w32 {x : U32} (h : 4 ≤ off) : slice off n (w32 x ++ rest) = slice (off - 4) n rest :=
  slice_skip_lit (by simp) h
theorem sl_w64 {x : U64} (h : 8 ≤ off) : slice off n (w64 x ++ rest) = slice (off - 8) n rest :=
  slice_skip_lit (by simp) h

theorem hd_w8 {x : U8} : slice 0 1 (w8 x ++ rest) = some (w8 x) := slice_head (by simp)
theorem hd_w16 {x : U16} : slice 0 2 (w16 x ++ rest) = some (w16 x) := slice_head (by simp)
theorem hd_w32 {x : U32} : slice 0 4 (w32 x ++ rest) = some (w32 x) := slice_head (by simp)
theorem hd_w64 {x : U64} : slice 0 8 (w64 x ++ rest) = some (w64 x) := slice_head (by simp)
end

theorem hd_w8' {x : U8} : slice 0 1 (w8 x) = some (w8 x) := slice_all (by simp)
theorem hd_w32' {x : U32} : slice 0 4 (w32 x) = some (w32 x) := slice_all (by simp)
theorem hd_w64' {x : U64} : slice 0 8 (w64 x) = some (w64 x) := slice_all (by simp)

theorem dec_w8 (x : U8) : BitVec.ofNat 8 (beDec (w8 x)) = x := by
  apply BitVec.eq_of_toNat_eq; simpa [w8, beDec_beEnc] using x.isLt
theorem dec_w16 (x : U16) : BitVec.ofNat 16 (beDec (w16 x)) = x := by
  apply BitVec.eq_of_toNat_eq; simpa [w16, beDec_beEnc] using x.isLt
theorem dec_w32 (x : U32) : BitVec.ofNat 32 (beDec (w32 x)) = x := by
  apply BitVec.eq_of_toNat_eq; simpa [w32, beDec_beEnc] using x.isLt
theorem dec_w64 (x : U64) : BitVec.ofNat 64 (beDec (w64 x)) = x := by
  apply BitVec.eq_of_toNat_eq; simpa [w64, beDec_beEnc] using x.isLt

theorem decHdr_encHdr (h : Hdr) (rest : List Byte) : decHdr (encHdr h ++ rest) = some h := by
  simp [decHdr, encHdr, rd32, sl_w32, hd_w32, dec_w32]

theorem slice_prefix {a rest : List Byte} {off n : Nat} (h : off + n ≤ a.length) :
    slice off n (a ++ rest) = slice off n a := by
  unfold slice
  have h2 : off + n ≤ (a ++ rest).length := by simp; omega
  rw [if_pos h, if_pos h2, List.drop_append_of_le_length (by omega),
    List.take_append_of_le_length (by simp; omega)]

theorem recv_e1 (h : Hdr) (payload rest : List Byte) :
    slice 0 20 (encHdr h ++ payload ++ rest) = some (encHdr h) := by
  rw [List.append_assoc]; exact slice_head (encHdr_length h)

theorem recv_e2 (h : Hdr) (payload rest : List Byte) (n : Nat) (hl : 20 + payload.length = n) :
    slice 0 n (encHdr h ++ payload ++ rest) = some (encHdr h ++ payload) :=
  slice_head (by rw [List.length_append, encHdr_length, hl])

theorem recv_e3 (h : Hdr) : decHdr (encHdr h) = some h := by
  have := decHdr_encHdr h []
  rwa [List.append_nil] at this

theorem recv_e4 (h : Hdr) (payload rest : List Byte) (n : Nat) (hl : 20 + payload.length = n) :
    (encHdr h ++ payload ++ rest).drop n = rest := by
  have : n = (encHdr h ++ payload).length := by rw [List.length_append, encHdr_length, hl]
  rw [this, List.drop_left]


theorem recv_aux {s hb raw rest : List Byte} {h : Hdr} {body : Body} {used n : Nat}
    (hn : n = 20 + h.len.toNat)
    (e1 : slice 0 20 s = some hb) (e3 : decHdr hb = some h)
    (e2 : slice 0 n s = some raw)
    (hd : decPayload raw h = some (body, used)) (e4 : s.drop n = rest) :
    recv s = some ({ hdr := h, body, used, raw }, rest) := by
  subst hn
  unfold recv
  simp only [e1, e3, e2, hd, e4]

theorem recv_append {h : Hdr} {payload rest : List Byte} {body : Body} {used : Nat}
    (hl : payload.length = h.len.toNat)
    (hd : decPayload (encHdr h ++ payload) h = some (body, used)) :
    recv (encHdr h ++ payload ++ rest) =
      some ({ hdr := h, body, used, raw := encHdr h ++ payload }, rest) :=
  recv_aux (n := 20 + payload.length) (by rw [hl]) (recv_e1 h payload rest) (recv_e3 h)
    (recv_e2 h payload rest _ rfl) hd (recv_e4 h payload rest _ rfl)
end Verif.RP
