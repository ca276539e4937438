import Verif.Hsc.Props

/-! # C56: where the streams depart from the claim, and concrete cases -/

namespace Verif.Hsc
open Verif

/-- A block with distinct key bytes, for the concrete cases. -/
def demo : St :=
  { regs := fun _ => 0, enc := fun x => BitVec.ofNat 8 (x + 1), dec := fun x => BitVec.ofNat 8 (x + 1),
    fenc := fun _ => {}, fdec := fun _ => {} }

/-- A frame of `n` bytes. -/
def demoFrame (n : Nat) : List Byte := (List.range n).map fun i => BitVec.ofNat 8 (7 * i + 3)

example : Open demo true 0 ∧ Open demo false 1 ∧ keyFor demo true {} = keyFor demo false {} ∧
    (demoFrame 60).length = 60 := by
  refine ⟨⟨rfl, fun _ => by decide⟩, ⟨rfl, fun h => by omega⟩, rfl, by decide⟩

/-- Does an output start a second tag at byte 12? -/
def tagged : Res → Bool
  | .ok out _ => decide (out.getD 12 none = some 0x88) && decide (out.getD 13 none = some 0xE5)
  | _ => false

/-- **C56 (gap, several transactions).** For every state reached after a reset and every
frame whose second part has 14 bytes or more: the second transaction of the packet is
tagged again, in the middle of the packet. -/
theorem continuation_retagged (s : St) (ops : List Op) (port : Nat) (g : Sig) (first second : List Byte)
    (e : Bool) (hp : port < 4)
    (hr : port = 0 → (run (reset s) (ops ++ [.enc port g { data := first, eop := some false }])).regs (0x1000 / 4) ≠ 2)
    (hm : g.mode = 0) (hbyp : g.byp = false) (hau : g.authOnly = false)
    (hconf : g.conf = 0) (hsa : g.sa.toNat < 2 ^ 19) (han : g.an.toNat < 2) (hsl : g.shortlen.toNat < 2)
    (hlen : 14 ≤ second.length) (hl : second.length < 2 ^ 31) :
    tagged (encrypt (run (reset s) (ops ++ [.enc port g { data := first, eop := some false }])) port g
      { data := second, eop := some e }).2 = true := by
  obtain ⟨h, p, rfl, hh⟩ : ∃ h p, second = h ++ p ∧ h.length = 12 :=
    ⟨second.take 12, second.drop 12, (List.take_append_drop 12 second).symm, by simp; omega⟩
  have hfl : (h ++ p).length = p.length + 12 := by simp; omega
  rw [hfl] at hlen hl
  have ho : Open (run (reset s) (ops ++ [.enc port g { data := first, eop := some false }])) true port :=
    ⟨(counts_stay_zero s _ port hp).1, hr⟩
  rw [encrypt_right_partial _ port g h p e ho hm hbyp hau hconf hsa han hsl hh (by omega) hl]
  match h, hh with
  | [_, _, _, _, _, _, _, _, _, _, _, _], _ => rfl

example : tagged (encrypt (run (reset demo) [.enc 1 {} { data := demoFrame 20, eop := some false }]) 1 {}
    { data := demoFrame 20, eop := some true }).2 = true := by decide +kernel

/-- The bytes of an output. -/
def outOf : Res → Buf
  | .ok o _ => o
  | _ => []

/-- Uninitialised bytes may show as zero. -/
theorem shows_self (os : List (Option Byte)) : shows os (os.map fun o => o.getD 0) := by
  induction os with
  | nil => trivial
  | cons o os ih =>
    refine ⟨?_, ih⟩
    cases o with
    | none => exact Or.inl rfl
    | some b => exact Or.inr rfl

/-- **C56 (gap, 256-bit suite).** A 14-byte frame that does not survive the round trip
under GCM-AES-256 although encoder and decoder hold the same key. -/
theorem wide_key_breaks : ∃ out,
    (encrypt demo 1 { suite := 1 } { data := demoFrame 14 }).2 = .ok out true ∧
    ∃ wire, shows out wire ∧
      (decrypt demo 1 { suite := 1 } { data := wire }).2 ≠ .ok ((demoFrame 14).map some) true := by
  refine ⟨outOf (encrypt demo 1 { suite := 1 } { data := demoFrame 14 }).2, by decide +kernel,
    _, shows_self _, by decide +kernel⟩

/-- **C56 (gap, XPN-128).** Suite 2 is read as a signed two-bit value, so the 128-bit XPN
suite is processed with a 32-byte key: bytes at distance 16 are masked differently. -/
theorem xpn128_wide (l : Latched) : keySize (latch { suite := 2 } l) = 32 := by
  rw [keySize_latch]; decide

/-- **C56 (gap, confidentiality offset 50).** Offset 50 is read as the signed six-bit
value -14 and ignored: the encoder's output equals that for offset 0. -/
theorem conf50_ignored (s : St) (port : Nat) (g : Sig) (d : List Byte) (e : Bool) (ho : Open s true port)
    (hm : g.mode = 0) :
    (encrypt s port { g with conf := 50 } { data := d, eop := some e }).2 =
      (encrypt s port { g with conf := 0 } { data := d, eop := some e }).2 := by
  rw [encrypt_eq s port { g with conf := 50 } d e ho hm, encrypt_eq s port { g with conf := 0 } d e ho hm]
  have hc : ∀ a b, clearLen (latch { g with conf := 50 } (s.fenc port)) a b =
      clearLen (latch { g with conf := 0 } (s.fenc port)) a b := by
    intro a b
    unfold clearLen
    rw [if_neg (c := (latch { g with conf := 50 } (s.fenc port)).conf = 30 ∨ _) (by
      rw [conf_latch]; show ¬ ((50 : BitVec 6) = 30); decide)]
    rw [if_neg (c := (latch { g with conf := 0 } (s.fenc port)).conf = 30 ∨ _) (by
      rw [conf_latch]; show ¬ ((0 : BitVec 6) = 30); decide)]
    rfl
  have hm2 : ∀ d off o stop buf, clearThenMask (latch { g with conf := 50 } (s.fenc port)) s.enc d off o stop buf =
      clearThenMask (latch { g with conf := 0 } (s.fenc port)) s.enc d off o stop buf := by
    intro d off o stop buf
    unfold clearThenMask
    rw [hc]
    rfl
  unfold encMacsec
  simp only [hm2]
  rfl

/-- **C56 (gap, confidentiality offset 30).** With offset 30 the encoder leaves 42
bytes after the SecTAG in clear: byte 41 of the payload leaves unmasked. -/
theorem conf30_leaks (s : St) (port : Nat) (g : Sig) (h p : List Byte) (e : Bool)
    (ho : Open s true port) (hm : g.mode = 0) (hbyp : g.byp = false) (hau : g.authOnly = false)
    (hconf : g.conf = 30) (hsa : g.sa.toNat < 2 ^ 19)
    (hh : h.length = 12) (hp : 42 ≤ p.length) (hl : p.length + 12 < 2 ^ 31) :
    (encrypt s port g { data := h ++ p, eop := some e }).2 =
      .ok ((h ++ tag (latch g (s.fenc port)) ++ p.take 42 ++
            mask (keyFor s true g) (if g.suite = 0 then 16 else 32) 54 (p.drop 42)).map some ++
          List.replicate (if e then 16 else 0) none) e := by
  rw [encrypt_eq s port g _ e ho hm, encMacsec_eq (latch g (s.fenc port)) s.enc h p e ho.1 hh (by omega) hl 42 ?_ hp
    (keyFor s true g) (fun _ => keyOf_latch s true g _ hsa), keySize_latch]
  rw [clearN_latch, hbyp, hau, hconf]; rfl

example : (42 : Nat) ≤ ((demoFrame 60).drop 12).length := by decide

/-- **C56 (gap, short frames).** With offset 30 and a frame of fewer than 54 bytes both
streams copy beyond the frame. -/
theorem conf30_short_overruns (s : St) (port : Nat) (g : Sig) (d : List Byte) (e : Bool)
    (ho : Open s true port) (hm : g.mode = 0) (hbyp : g.byp = false) (hau : g.authOnly = false)
    (hconf : g.conf = 30) (h14 : 14 ≤ d.length) (h54 : d.length < 54) :
    (encrypt s port g { data := d, eop := some e }).2 = .ub := by
  rw [encrypt_eq s port g _ e ho hm]
  have hb : (latch g (s.fenc port)).byteCount = 0 := ho.1
  have hcl : clearLen (latch g (s.fenc port)) d.length 12 = 42 := by
    rw [clearLen_eq _ _ _ hb (by omega) (by omega), clearN_latch, hbyp, hau, hconf]; rfl
  have hub : ∀ stop buf, clearThenMask (latch g (s.fenc port)) s.enc d 12 28 stop buf = none := by
    intro stop buf
    unfold clearThenMask
    simp only [hcl]
    rw [if_neg (by decide)]
    have : copyIn buf 28 d 12 (Int.toNat 42) = none := by
      unfold copyIn
      rw [if_neg]
      intro x
      have := x.1
      have e42 : Int.toNat 42 = 42 := rfl
      omega
    rw [this]
  unfold encMacsec
  simp only [hb, if_true, tagLen_eq, Nat.reduceAdd, hub]
  rw [if_neg (by omega)]
  cases copyIn (List.replicate (d.length + (if 0 < 14 then 16 else 0) + if e = true then 16 else 0) none) 0 d 0 12 with
  | none => rfl
  | some b =>
    show (match copyIn b 12 (tag (latch g (s.fenc port))) 0 16 with | none => Res.ub | some _ => Res.ub) = Res.ub
    cases copyIn b 12 (tag (latch g (s.fenc port))) 0 16 <;> rfl

example : (14 : Nat) ≤ (demoFrame 40).length ∧ (demoFrame 40).length < 54 := by decide

/-- **C56 (gap, association numbers 2 and 3).** The association number is read signed:
with 2 or 3 every TCI bit of the tag is set whatever the TCI input says. -/
theorem an_spoils_tci (g : Sig) (l : Latched) (h : 2 ≤ g.an.toNat) :
    (tag (latch g l)).getD 2 0 = BitVec.ofNat 8 (252 + g.an.toNat) := by
  have : ∀ (t : BitVec 6) (a : BitVec 2), 2 ≤ a.toNat →
      ((t.signExtend 8) <<< 2) ||| (a.signExtend 8) = BitVec.ofNat 8 (252 + a.toNat) := by decide +kernel
  exact this g.tci g.an h

/-- **C56 (gap, tag byte order).** The tag differs from the 802.1AE SecTAG: the packet
number and the SCI are written least significant byte first. -/
theorem tag_not_standard : ∃ g : Sig, g.an.toNat < 2 ∧ g.shortlen.toNat < 2 ∧
    ∀ l, tag (latch g l) ≠ secTag g.tci.toNat g.an.toNat g.shortlen.toNat (g.pktNum.toNat % 2 ^ 32) g.sci.toNat := by
  refine ⟨{ pktNum := 1 }, by decide, by decide, ?_⟩
  intro l
  rw [tag_latch _ l (by decide) (by decide)]
  decide

/-- **C56 (tag fields).** Apart from the byte order, the tag is the 802.1AE SecTAG. -/
theorem tag_fields_partial (g : Sig) (l : Latched) (ha : g.an.toNat < 2) (hs : g.shortlen.toNat < 2) :
    (tag (latch g l)).take 4 ++ ((tag (latch g l)).drop 4 |>.take 4).reverse ++ ((tag (latch g l)).drop 8).reverse =
      secTag g.tci.toNat g.an.toNat g.shortlen.toNat (g.pktNum.toNat % 2 ^ 32) g.sci.toNat := by
  have rev : ∀ n v, (leEnc n v).reverse = beEnc n v := by
    have step : ∀ n v, leEnc (n + 1) v = leEnc n v ++ [BitVec.ofNat 8 (v / 256 ^ n)] := by
      intro n
      induction n with
      | zero => intro v; simp [leEnc]
      | succ n ih =>
        intro v
        rw [leEnc, ih, leEnc, List.cons_append, Nat.div_div_eq_div_mul, Nat.pow_succ, Nat.mul_comm 256]
    intro n
    induction n with
    | zero => intro v; rfl
    | succ n ih => intro v; rw [step, List.reverse_append, beEnc, ← ih]; rfl
  have low : beEnc 4 (g.pktNum.toNat % 2 ^ 32) = beEnc 4 g.pktNum.toNat := by
    simp only [beEnc, List.cons.injEq, and_true]
    refine ⟨?_, ?_, ?_, ?_⟩ <;> (apply BitVec.eq_of_toNat_eq; simp only [BitVec.toNat_ofNat]; omega)
  rw [tag_latch g l ha hs]
  unfold secTag
  rw [low, ← rev 4, ← rev 8]
  have e1 : ([0x88, 0xE5, BitVec.ofNat 8 (4 * g.tci.toNat + g.an.toNat), BitVec.ofNat 8 g.shortlen.toNat] ++
      leEnc 4 g.pktNum.toNat ++ leEnc 8 g.sci.toNat).drop 4 = leEnc 4 g.pktNum.toNat ++ leEnc 8 g.sci.toNat := by
    rw [List.append_assoc]; rfl
  have e2 : ([0x88, 0xE5, BitVec.ofNat 8 (4 * g.tci.toNat + g.an.toNat), BitVec.ofNat 8 g.shortlen.toNat] ++
      leEnc 4 g.pktNum.toNat ++ leEnc 8 g.sci.toNat).drop 8 = leEnc 8 g.sci.toNat := by
    exact List.drop_left' (by simp)
  rw [e1, e2, List.take_left' (leEnc_length 4 _)]
  rfl

/-- **C56 (gap, SC bit).** The tag is 16 bytes whether or not the TCI announces an SCI;
802.1AE gives 8 bytes without one. -/
theorem sci_always_present (t : BitVec 8) : tagLen t = 16 := tagLen_eq t

/-- **C56 (gap, high association indexes).** A security association index from 2^19 up
is read as negative and used as an index before the key store. -/
theorem high_index_ub (s : St) (port : Nat) (g : Sig) (d : List Byte) (e : Bool)
    (ho : Open s true port) (hm : g.mode = 0) (hbyp : g.byp = false) (hau : g.authOnly = false)
    (hconf : g.conf = 0) (hsa : 2 ^ 19 ≤ g.sa.toNat) (h14 : 14 ≤ d.length) (hl : d.length < 2 ^ 31) :
    (encrypt s port g { data := d, eop := some e }).2 = .ub := by
  rw [encrypt_eq s port g _ e ho hm]
  have hb : (latch g (s.fenc port)).byteCount = 0 := ho.1
  have hcl : clearLen (latch g (s.fenc port)) d.length 12 = 0 := by
    rw [clearLen_eq _ _ _ hb (by omega) hl, clearN_latch, hbyp, hau, hconf]; rfl
  have hk : keyOf s.enc (latch g (s.fenc port)) = none := by
    have e : (latch g (s.fenc port)).sa = (g.sa.toNat : Int) - 2 ^ 20 := by
      show g.sa.toInt = _
      rw [BitVec.toInt_eq_toNat_cond, if_neg (by omega)]; rfl
    have := g.sa.isLt
    unfold keyOf
    rw [e, if_neg (by omega), if_pos (by omega)]
  have hub : ∀ stop buf, clearThenMask (latch g (s.fenc port)) s.enc d 12 28 stop buf = none := by
    intro stop buf
    unfold clearThenMask
    simp only [hcl]
    rw [if_neg (by decide)]
    cases copyIn buf 28 d 12 (Int.toNat 0) with
    | none => rfl
    | some b =>
      simp only [hk]
      rw [if_pos (by show 12 + 0 < d.length; omega)]
  unfold encMacsec
  simp only [hb, if_true, tagLen_eq, Nat.reduceAdd, hub]
  rw [if_neg (by omega)]
  cases copyIn (List.replicate (d.length + (if 0 < 14 then 16 else 0) + if e = true then 16 else 0) none) 0 d 0 12 with
  | none => rfl
  | some b =>
    show (match copyIn b 12 (tag (latch g (s.fenc port))) 0 16 with | none => Res.ub | some _ => Res.ub) = Res.ub
    cases copyIn b 12 (tag (latch g (s.fenc port))) 0 16 <;> rfl

example : (2 : Nat) ^ 19 ≤ ({ sa := 0x80000 } : Sig).sa.toNat := by decide

/-- **C56 (gap, no attributes).** A packet without the attribute extension is
dereferenced through a null pointer. -/
theorem no_attributes_ub (s : St) (port : Nat) (g : Sig) (d : List Byte) (ho : Open s true port) (hm : g.mode = 0) :
    (encrypt s port g { data := d, eop := none }).2 = .ub := by
  obtain ⟨h0, h1⟩ := ho
  have h0 : (s.fenc port).byteCount = 0 := h0
  have h2 : ¬ (port = 0 ∧ s.regs (0x1000 / 4) = 2) := fun x => h1 x.1 x.2
  have h3 : (latch g (s.fenc port)).mode = 0 := by show g.mode.toInt = 0; rw [hm]; rfl
  unfold encrypt
  rw [if_neg (by simp), if_neg h2]
  simp only [h0, if_true, h3]

/-- **C56 (other modes).** In every mode other than MACsec the transaction is answered
with an error and nothing is forwarded. -/
theorem other_modes_refused (s : St) (port : Nat) (g : Sig) (t : Txn) (ho : Open s true port) (hm : g.mode ≠ 0) :
    (encrypt s port g t).2 = .err := by
  obtain ⟨h0, h1⟩ := ho
  have h0 : (s.fenc port).byteCount = 0 := h0
  have h2 : ¬ (port = 0 ∧ s.regs (0x1000 / 4) = 2) := fun x => h1 x.1 x.2
  have h3 : (latch g (s.fenc port)).mode ≠ 0 := by
    have : ∀ v : BitVec 2, v ≠ 0 → v.toInt ≠ 0 := by decide
    exact this g.mode hm
  unfold encrypt
  by_cases h : t.be ∨ t.cmd ≠ .write ∨ t.addr ≠ 0
  · rw [if_pos h]
  rw [if_neg h, if_neg h2]
  simp only [h0, if_true, h3, if_false]

end Verif.Hsc
