import Verif.RP.Lemmas

/-! Decoding lemmas for each packet kind. -/

namespace Verif.RP
open Verif

theorem ofNat_toNat_of_lt {n : Nat} (h : n < 2 ^ 32) : (BitVec.ofNat 32 n).toNat = n := by
  simp; omega

theorem decBus_old {h : Hdr} {clk : U64} {m : U16} {addr attr : U64} {size width sw : U32}
    {payload : List Byte} (hlen : 38 ≤ h.len.toNat) (hattr : hasExtBase attr = false) :
    decBus (encHdr h ++ (encBusCommon clk m addr attr size width sw ++ payload)) h =
      some (.bus clk attr addr size width sw m none, 38) := by
  have hl : ¬ h.len.toNat < 38 := by omega
  simp only [decBus, if_neg hl]
  simp [encHdr, encBusCommon, rd64, rd32, rd16, sl_w32, sl_w64, hd_w64, hd_w32, hd_w16, dec_w64,
    dec_w32, dec_w16, hattr]

theorem decBus_ext {h : Hdr} {clk : U64} {m0 m1 : U16} {m2 : U32} {addr attr : U64}
    {size width sw d0 d1 d2 d3 : U32}
    {payload : List Byte} (hlen : 60 ≤ h.len.toNat) (hattr : hasExtBase attr = true) :
    decBus (encHdr h ++ (encBusCommon clk m0 addr attr size width sw ++ (w16 m1 ++ (w32 m2 ++
        (w32 d0 ++ (w32 d1 ++ (w32 d2 ++ (w32 d3 ++ payload)))))))) h =
      some (.bus clk attr addr size width sw m0
        (some { dataOffset := d0, nextOffset := d1, beOffset := d2, beLen := d3 }), 60) := by
  have hl : ¬ h.len.toNat < 38 := by omega
  have hl2 : ¬ h.len.toNat < 60 := by omega
  simp only [decBus, if_neg hl, if_neg hl2]
  simp [encHdr, encBusCommon, rd64, rd32, rd16, sl_w32, sl_w64, sl_w16, hd_w64, hd_w32, hd_w16, dec_w64,
    dec_w32, dec_w16, hattr]

theorem hasExtBase_or (a : U64) : hasExtBase (a ||| attrExtBase) = true := by
  simp only [hasExtBase, attrExtBase, bne_iff_ne, ne_eq]
  intro h
  have h2 := congrArg (fun v : U64 => v.getLsbD 2) h
  simp at h2

theorem rdCaps_flatten (pre : List Byte) (off : Nat) (hpre : pre.length = off) (caps : List U32)
    (rest : List Byte) :
    rdCaps off caps.length (pre ++ ((caps.map w32).flatten ++ rest)) = some caps := by
  induction caps generalizing pre off with
  | nil => rfl
  | cons c cs ih =>
    have e : rd32 off (pre ++ (((c :: cs).map w32).flatten ++ rest)) = some c := by
      simp [rd32, slice_skip_lit hpre (Nat.le_refl _), hd_w32, dec_w32]
    have e2 := ih (pre ++ w32 c) (off + 4) (by simp [hpre])
    simp only [List.map_cons, List.flatten_cons, List.append_assoc] at e e2 ⊢
    simp [rdCaps, e, e2]

end Verif.RP
