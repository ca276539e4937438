import Verif.Hsc.Lemmas

/-! # C56: encryption and decryption streams of the crypto block -/

namespace Verif.Hsc
open Verif

/-! ### Helpers -/

/-- The 32 bytes the block holds as key `n` of a direction. -/
def storedKey (s : St) (tx : Bool) (n : Nat) : List Byte := (s.keys tx).range (4 * n) 32

/-- The key a packet is to be processed with: the stored key below index 1024, the
port's own key otherwise. -/
def keyFor (s : St) (tx : Bool) (g : Sig) : List Byte :=
  if g.sa.toNat < 1024 then storedKey s tx g.sa.toNat
  else (List.range 32).map fun i => g.extKey.extractLsb' (8 * i) 8

/-- The port accepts packets: outside a packet, and port 0 not in channelized mode. -/
def Open (s : St) (tx : Bool) (port : Nat) : Prop :=
  (if tx then s.fenc port else s.fdec port).byteCount = 0 ∧
    (port = 0 → s.regs (if tx then 0x1000 / 4 else 0x1004 / 4) ≠ 2)

theorem keyOf_latch (s : St) (tx : Bool) (g : Sig) (l : Latched) (h : g.sa.toNat < 2 ^ 19) :
    keyOf (s.keys tx) (latch g l) = some (keyFor s tx g) := by
  have e : (latch g l).sa = (g.sa.toNat : Int) := by
    show g.sa.toInt = _
    rw [BitVec.toInt_eq_toNat_cond, if_pos (by omega)]
  unfold keyOf keyFor
  rw [e]
  by_cases h1 : g.sa.toNat < 1024
  · rw [if_neg (by omega), if_neg (by omega), if_pos h1]
    rfl
  · rw [if_pos (by omega), if_neg h1]
    rfl

theorem keySize_latch (g : Sig) (l : Latched) :
    keySize (latch g l) = if g.suite = 0 then 16 else 32 := by
  have : ∀ v : BitVec 2, (if v.toInt = 0 ∨ v.toInt = 2 then 16 else 32) = if v = 0 then 16 else 32 := by decide
  exact this g.suite

theorem conf_latch (g : Sig) (l : Latched) :
    ((latch g l).conf = 30 ∨ (latch g l).conf = 50) ↔ g.conf = 30 := by
  have : ∀ v : BitVec 6, (v.toInt = 30 ∨ v.toInt = 50) ↔ v = 30 := by decide
  exact this g.conf

theorem clearN_latch (g : Sig) (l : Latched) (len off : Nat) :
    clearN (latch g l) len off =
      if g.byp ∨ g.authOnly then len - off else if g.conf = 30 then 42 else 0 := by
  have e1 : (latch g l).byp = g.byp := rfl
  have e2 : (latch g l).authOnly = g.authOnly := rfl
  unfold clearN
  rw [e1, e2]
  by_cases h : g.byp ∨ g.authOnly
  · rw [if_pos h, if_pos h]
  · rw [if_neg h, if_neg h]
    by_cases h2 : g.conf = 30
    · rw [if_pos ((conf_latch g l).mpr h2), if_pos h2]
      show (g.conf.toInt + 12).toNat = 42
      rw [h2]; rfl
    · rw [if_neg (fun x => h2 ((conf_latch g l).mp x)), if_neg h2]

theorem encrypt_eq (s : St) (port : Nat) (g : Sig) (d : List Byte) (e : Bool) (ho : Open s true port)
    (hm : g.mode = 0) :
    (encrypt s port g { data := d, eop := some e }).2 = encMacsec (latch g (s.fenc port)) s.enc d e := by
  obtain ⟨h0, h1⟩ := ho
  have h0 : (s.fenc port).byteCount = 0 := h0
  have h2 : ¬ (port = 0 ∧ s.regs (0x1000 / 4) = 2) := fun x => h1 x.1 x.2
  have h3 : (latch g (s.fenc port)).mode = 0 := by show g.mode.toInt = 0; rw [hm]; rfl
  unfold encrypt
  rw [if_neg (by simp), if_neg h2]
  simp only [h0, if_true, h3]

theorem decrypt_eq (s : St) (port : Nat) (g : Sig) (d : List Byte) (e : Bool) (ho : Open s false port)
    (hm : g.mode = 0) :
    (decrypt s port g { data := d, eop := some e }).2 = decMacsec (latch g (s.fdec port)) s.dec d e := by
  obtain ⟨h0, h1⟩ := ho
  have h0 : (s.fdec port).byteCount = 0 := h0
  have h2 : ¬ (port = 0 ∧ s.regs (0x1004 / 4) = 2) := fun x => h1 x.1 x.2
  have h3 : (latch g (s.fdec port)).mode = 0 := by show g.mode.toInt = 0; rw [hm]; rfl
  unfold decrypt
  rw [if_neg (by simp), if_neg h2]
  simp only [h0, if_true, h3]

theorem shows_known (w : List Byte) : ∀ (os : List (Option Byte)) (bs : List Byte),
    shows (w.map some ++ os) bs → ∃ r, bs = w ++ r ∧ shows os r := by
  induction w with
  | nil => intro os bs h; exact ⟨bs, rfl, h⟩
  | cons a w ih =>
    intro os bs h
    cases bs with
    | nil => simp [shows] at h
    | cons b bs =>
      simp only [List.map_cons, List.cons_append, shows] at h
      obtain ⟨h1, h2⟩ := h
      obtain ⟨r, hr, hr2⟩ := ih os bs h2
      have : a = b := by simpa using h1
      exact ⟨r, by rw [this, hr]; rfl, hr2⟩

theorem shows_unknown (n : Nat) : ∀ r : List Byte, shows (List.replicate n none) r → r.length = n := by
  induction n with
  | zero => intro r h; cases r with
    | nil => rfl
    | cons _ _ => simp [shows] at h
  | succ n ih => intro r h; cases r with
    | nil => simp [List.replicate_succ, shows] at h
    | cons b r => simp only [List.replicate_succ, shows] at h; simp [ih r h.2]

theorem shows_of (w r : List Byte) (n : Nat) (h : r.length = n) :
    shows (w.map some ++ List.replicate n none) (w ++ r) := by
  induction w with
  | nil =>
    subst h
    induction r with
    | nil => trivial
    | cons a r ih => exact ⟨Or.inl rfl, ih⟩
  | cons a w ih => exact ⟨Or.inr rfl, ih⟩

/-- The SecTAG the encoder inserts, for association numbers 0 and 1 and a short
length of at most 1. -/
theorem tag_latch (g : Sig) (l : Latched) (ha : g.an.toNat < 2) (hs : g.shortlen.toNat < 2) :
    tag (latch g l) =
      [0x88, 0xE5, BitVec.ofNat 8 (4 * g.tci.toNat + g.an.toNat), BitVec.ofNat 8 g.shortlen.toNat] ++
        leEnc 4 g.pktNum.toNat ++ leEnc 8 g.sci.toNat := by
  have h1 : ∀ (t : BitVec 6) (a : BitVec 2), a.toNat < 2 →
      ((t.signExtend 8) <<< 2) ||| (a.signExtend 8) = BitVec.ofNat 8 (4 * t.toNat + a.toNat) := by
    decide +kernel
  have h2 : ∀ v : BitVec 8, v.toNat < 2 → (if v ≠ 0 then (1 : BitVec 8) else 0) = BitVec.ofNat 8 v.toNat := by
    decide +kernel
  have h3 : leEnc 4 (g.pktNum &&& 0xFFFFFFFF).toNat = leEnc 4 g.pktNum.toNat := by
    have : (g.pktNum &&& 0xFFFFFFFF).toNat = g.pktNum.toNat % 2 ^ 32 := by
      rw [BitVec.toNat_and]
      exact Nat.and_two_pow_sub_one_eq_mod _ 32
    rw [this]
    simp only [leEnc, List.cons.injEq, and_true]
    refine ⟨?_, ?_, ?_, ?_⟩ <;> (apply BitVec.eq_of_toNat_eq; simp only [BitVec.toNat_ofNat]; omega)
  have e1 : tciAn (latch g l) = BitVec.ofNat 8 (4 * g.tci.toNat + g.an.toNat) := h1 g.tci g.an ha
  have e2 : (if (latch g l).shortlen ≠ 0 then (1 : BitVec 8) else 0) = BitVec.ofNat 8 g.shortlen.toNat :=
    h2 g.shortlen hs
  have e3 : leEnc 4 ((latch g l).pn &&& 0xFFFFFFFF).toNat = leEnc 4 g.pktNum.toNat := h3
  unfold tag
  rw [e1, e2, e3]
  rfl

/-! ### The properties -/

/-- **C56 (encryption, part).** For every state of the block, every port outside a
packet, every frame of 14 bytes or more given in one transaction, every key and every
SecTAG input with association number 0 or 1 and short length 0 or 1: the frame leaves
as its 12 address bytes, a 16-byte tag starting 88-E5/TCI-AN/SL, the rest of the
frame masked with the selected key, and, at the end of the packet, 16 bytes of room
for the ICV.  Missing from the full claim: packet number and SCI are least
significant byte first, the confidentiality offset is 0, the ICV is never filled in,
and only suite 0 is taken as a 128-bit one (see the theorems below). -/
theorem encrypt_right_partial (s : St) (port : Nat) (g : Sig) (h p : List Byte) (e : Bool)
    (ho : Open s true port) (hm : g.mode = 0) (hbyp : g.byp = false) (hau : g.authOnly = false)
    (hconf : g.conf = 0) (hsa : g.sa.toNat < 2 ^ 19) (han : g.an.toNat < 2) (hsl : g.shortlen.toNat < 2)
    (hh : h.length = 12) (hp : 2 ≤ p.length) (hl : p.length + 12 < 2 ^ 31) :
    (encrypt s port g { data := h ++ p, eop := some e }).2 =
      .ok ((h ++ ([0x88, 0xE5, BitVec.ofNat 8 (4 * g.tci.toNat + g.an.toNat),
              BitVec.ofNat 8 g.shortlen.toNat] ++ leEnc 4 g.pktNum.toNat ++ leEnc 8 g.sci.toNat) ++
            mask (keyFor s true g) (if g.suite = 0 then 16 else 32) 12 p).map some ++
          List.replicate (if e then 16 else 0) none) e := by
  rw [encrypt_eq s port g _ e ho hm, encMacsec_eq (latch g (s.fenc port)) s.enc h p e ho.1 hh hp hl 0 ?_ (by omega)
    (keyFor s true g) (fun _ => keyOf_latch s true g _ hsa), keySize_latch, tag_latch g _ han hsl]
  · simp only [List.take_zero, List.append_nil, List.drop_zero, Nat.add_zero]
  · rw [clearN_latch, hbyp, hau, hconf]; simp

/-- **C56 (round trip, 128-bit suite).** For every frame of 14 bytes or more, every key
and every SecTAG input, whatever bytes the uninitialised ICV happens to hold: what the
encoder emits for the whole frame, given to the decoder with the same key and
settings, comes out as the frame.  With confidentiality offset 30 the frame must have
54 bytes or more. -/
theorem roundtrip_128 (s s' : St) (port port' : Nat) (g g' : Sig) (frame : List Byte)
    (ho : Open s true port) (ho' : Open s' false port')
    (hm : g.mode = 0) (hm' : g'.mode = 0)
    (hb : g.byp = false ∧ g.authOnly = false) (hb' : g'.byp = false ∧ g'.authOnly = false)
    (hs : g.suite = 0) (hs' : g'.suite = 0) (hc : g'.conf = g.conf)
    (hsa : g.sa.toNat < 2 ^ 19) (hsa' : g'.sa.toNat < 2 ^ 19)
    (hkey : keyFor s true g = keyFor s' false g')
    (hlen : 14 ≤ frame.length) (hconf : g.conf = 30 → 54 ≤ frame.length) (hl : frame.length + 32 < 2 ^ 31) :
    ∃ out, (encrypt s port g { data := frame, eop := some true }).2 = .ok out true ∧
      ∀ wire e', shows out wire →
        (decrypt s' port' g' { data := wire, eop := some e' }).2 = .ok (frame.map some) e' := by
  obtain ⟨h, p, rfl, hh⟩ : ∃ h p, frame = h ++ p ∧ h.length = 12 :=
    ⟨frame.take 12, frame.drop 12, (List.take_append_drop 12 frame).symm, by simp; omega⟩
  have hfl : (h ++ p).length = p.length + 12 := by simp; omega
  rw [hfl] at hlen hconf hl
  generalize hcn : (if g.conf = 30 then 42 else 0) = c at *
  have hcp : c ≤ p.length := by
    by_cases x : g.conf = 30
    · rw [if_pos x] at hcn; have := hconf x; omega
    · rw [if_neg x] at hcn; omega
  refine ⟨_, (encrypt_eq s port g _ true ho hm).trans (encMacsec_eq (latch g (s.fenc port)) s.enc h p true ho.1 hh
    (by omega) (by omega) c (by rw [clearN_latch, hb.1, hb.2]; simpa using hcn) hcp
    (keyFor s true g) (fun _ => keyOf_latch s true g _ hsa)), ?_⟩
  intro wire e' hw
  obtain ⟨icv, rfl, hi⟩ := shows_known _ _ _ hw
  have hi := shows_unknown _ _ hi
  rw [if_pos rfl] at hi
  rw [decrypt_eq s' port' g' _ e' ho' hm']
  have hq : (p.take c ++ mask (keyFor s true g) (keySize (latch g (s.fenc port))) (12 + c) (p.drop c)).length
      = p.length := by
    rw [List.length_append, mask_length, List.length_take, List.length_drop]; omega
  have := decMacsec_eq (latch g' (s'.fdec port')) s'.dec h (tag (latch g (s.fenc port)))
    (p.take c ++ mask (keyFor s true g) (keySize (latch g (s.fenc port))) (12 + c) (p.drop c)) icv e' ho'.1 hh
    (tag_length _) hi (by rw [hq]; omega) c
    (by rw [clearN_latch, hb'.1, hb'.2, hc]; simpa using hcn) (Or.inl (by rw [hq]; exact hcp))
    (keyFor s' false g') (fun _ => keyOf_latch s' false g' _ hsa')
  rw [List.append_assoc (h ++ tag _) (p.take c)]
  rw [this, keySize_latch, keySize_latch, if_pos hs, if_pos hs', ← hkey]
  have htl : (p.take c).length = c := by rw [List.length_take]; omega
  have e1 : ((p.take c ++ mask (keyFor s true g) 16 (12 + c) (p.drop c)) ++ icv).take c = p.take c := by
    rw [List.append_assoc]; exact List.take_left' htl
  have e2 : (p.take c ++ mask (keyFor s true g) 16 (12 + c) (p.drop c)).drop c
      = mask (keyFor s true g) 16 (12 + c) (p.drop c) := List.drop_left' htl
  rw [e1, e2, mask_mask _ _ _ _ _ (by omega), List.append_assoc, List.take_append_drop]

theorem mask_mask_iff (key : List Byte) (ks : Nat) (l : List Byte) : ∀ i j,
    (mask key ks j (mask key ks i l) = l ↔
      ∀ k, k < l.length → key.getD ((i + k) % ks) 0 = key.getD ((j + k) % ks) 0) := by
  induction l with
  | nil => intro i j; simp [mask]
  | cons b bs ih =>
    intro i j
    simp only [mask, List.cons.injEq]
    rw [ih]
    constructor
    · rintro ⟨h1, h2⟩ k hk
      cases k with
      | zero =>
        rw [BitVec.xor_assoc] at h1
        have h3 : b ^^^ (b ^^^ (key.getD (i % ks) 0 ^^^ key.getD (j % ks) 0)) = b ^^^ b := by rw [h1]
        rw [← BitVec.xor_assoc, BitVec.xor_self, BitVec.zero_xor] at h3
        have h4 : key.getD (i % ks) 0 ^^^ key.getD (j % ks) 0 ^^^ key.getD (j % ks) 0 = key.getD (j % ks) 0 := by
          rw [h3, BitVec.zero_xor]
        rw [BitVec.xor_assoc, BitVec.xor_self, BitVec.xor_zero] at h4
        exact h4
      | succ k =>
        have := h2 k (by simpa using hk)
        rw [show i + (k + 1) = i + 1 + k by omega, show j + (k + 1) = j + 1 + k by omega]
        exact this
    · intro h
      refine ⟨?_, ?_⟩
      · have := h 0 (by simp)
        simp only [Nat.add_zero] at this
        rw [this, BitVec.xor_assoc, BitVec.xor_self, BitVec.xor_zero]
      · intro k hk
        have := h (k + 1) (by simpa using hk)
        rw [show i + 1 + k = i + (k + 1) by omega, show j + 1 + k = j + (k + 1) by omega]
        exact this

/-- **C56 (round trip, other suites).** With any suite other than 0 (256-bit keys, and
the 128-bit XPN suite, which the block also takes as 256-bit) the frame survives the
round trip exactly when the key bytes at distance 16 that the frame meets are equal:
encoder and decoder start the key at different phases. -/
theorem roundtrip_wide_iff (s s' : St) (port port' : Nat) (g g' : Sig) (h p : List Byte)
    (ho : Open s true port) (ho' : Open s' false port')
    (hm : g.mode = 0) (hm' : g'.mode = 0)
    (hb : g.byp = false ∧ g.authOnly = false) (hb' : g'.byp = false ∧ g'.authOnly = false)
    (hs : g.suite ≠ 0) (hs' : g'.suite ≠ 0) (hc : g.conf = 0) (hc' : g'.conf = 0)
    (hsa : g.sa.toNat < 2 ^ 19) (hsa' : g'.sa.toNat < 2 ^ 19)
    (hkey : keyFor s true g = keyFor s' false g')
    (hh : h.length = 12) (hp : 2 ≤ p.length) (hl : p.length + 44 < 2 ^ 31) :
    ∃ out, (encrypt s port g { data := h ++ p, eop := some true }).2 = .ok out true ∧
      ∀ wire, shows out wire →
        ((decrypt s' port' g' { data := wire, eop := some true }).2 = .ok ((h ++ p).map some) true ↔
          ∀ k, k < p.length →
            (keyFor s true g).getD ((12 + k) % 32) 0 = (keyFor s true g).getD ((28 + k) % 32) 0) := by
  refine ⟨_, (encrypt_eq s port g _ true ho hm).trans (encMacsec_eq (latch g (s.fenc port)) s.enc h p true ho.1 hh
    hp (by omega) 0 (by rw [clearN_latch, hb.1, hb.2, hc]; simp) (by omega)
    (keyFor s true g) (fun _ => keyOf_latch s true g _ hsa)), ?_⟩
  intro wire hw
  obtain ⟨icv, rfl, hi⟩ := shows_known _ _ _ hw
  have hi := shows_unknown _ _ hi
  rw [if_pos rfl] at hi
  rw [decrypt_eq s' port' g' _ true ho' hm']
  have := decMacsec_eq (latch g' (s'.fdec port')) s'.dec h (tag (latch g (s.fenc port)))
    (mask (keyFor s true g) (keySize (latch g (s.fenc port))) 12 p) icv true ho'.1 hh
    (tag_length _) hi (by rw [mask_length]; omega) 0
    (by rw [clearN_latch, hb'.1, hb'.2, hc']; simp) (Or.inl (by omega))
    (keyFor s' false g') (fun _ => keyOf_latch s' false g' _ hsa')
  simp only [List.take_zero, List.append_nil, List.drop_zero, Nat.add_zero]
  rw [this, keySize_latch, keySize_latch, if_neg hs, if_neg hs', ← hkey]
  simp only [List.take_zero, List.append_nil, List.drop_zero, Nat.add_zero]
  rw [← mask_mask_iff (keyFor s true g) 32 p 12 28]
  constructor
  · intro x
    injection x with x _
    have x := (List.map_inj_right (fun _ _ h => Option.some.inj h)).mp x
    exact List.append_cancel_left x
  · intro x; rw [x]

/-- **C56 (bypass).** With bypass or authenticate-only the frame crosses unmasked, but
the decoder also hands out the 16 bytes of ICV after it. -/
theorem bypass_keeps_icv (s s' : St) (port port' : Nat) (g g' : Sig) (h p : List Byte)
    (ho : Open s true port) (ho' : Open s' false port') (hm : g.mode = 0) (hm' : g'.mode = 0)
    (hb : g.byp = true ∨ g.authOnly = true) (hb' : g'.byp = true ∨ g'.authOnly = true)
    (hh : h.length = 12) (hp : 2 ≤ p.length) (hl : p.length + 44 < 2 ^ 31) :
    ∃ out, (encrypt s port g { data := h ++ p, eop := some true }).2 = .ok out true ∧
      ∀ wire e', shows out wire → ∃ icv, icv.length = 16 ∧
        (decrypt s' port' g' { data := wire, eop := some e' }).2 = .ok ((h ++ p ++ icv).map some) e' := by
  refine ⟨_, (encrypt_eq s port g _ true ho hm).trans (encMacsec_eq (latch g (s.fenc port)) s.enc h p true ho.1 hh
    hp (by omega) p.length (by rw [clearN_latch, if_pos hb]; omega) (by omega)
    [] (by omega)), ?_⟩
  intro wire e' hw
  obtain ⟨icv, rfl, hi⟩ := shows_known _ _ _ hw
  have hi := shows_unknown _ _ hi
  rw [if_pos rfl] at hi
  refine ⟨icv, hi, ?_⟩
  rw [decrypt_eq s' port' g' _ e' ho' hm']
  have := decMacsec_eq (latch g' (s'.fdec port')) s'.dec h (tag (latch g (s.fenc port)))
    p icv e' ho'.1 hh (tag_length _) hi (by omega) (p.length + 16)
    (by rw [clearN_latch, if_pos hb']; omega) (Or.inr rfl) [] (by omega)
  rw [List.take_length, List.drop_length]
  simp only [mask, List.append_nil]
  rw [this, List.drop_eq_nil_of_le (by omega), List.take_of_length_le (by simp; omega)]
  simp [mask]

/-! ### Histories -/

/-- What can happen to the block. -/
inductive Op
  | reset
  | user (a : Acc)
  | enc (port : Nat) (g : Sig) (t : Txn)
  | dec (port : Nat) (g : Sig) (t : Txn)

/-- One happening. -/
def step (s : St) : Op → St
  | .reset => reset s
  | .user a => (userIf s a).1
  | .enc p g t => (encrypt s p g t).1
  | .dec p g t => (decrypt s p g t).1

/-- A history. -/
def run (s : St) (ops : List Op) : St := ops.foldl step s

theorem setKeys_fenc (s : St) (tx : Bool) (m : Mem) : (s.setKeys tx m).fenc = s.fenc ∧ (s.setKeys tx m).fdec = s.fdec := by
  cases tx <;> exact ⟨rfl, rfl⟩

theorem indirect_ports (s : St) (tx : Bool) : (indirect s tx).fenc = s.fenc ∧ (indirect s tx).fdec = s.fdec := by
  unfold indirect
  by_cases h : ena (s.regs (ctrlReg tx)) = false
  · simp only [h]; exact ⟨rfl, rfl⟩
  · simp only [h]
    by_cases h2 : grp (s.regs (ctrlReg tx)) = 0
    · rw [if_neg (by simp), if_pos h2]
      by_cases h3 : wr (s.regs (ctrlReg tx))
      · rw [if_pos h3]; exact setKeys_fenc _ _ _
      · rw [if_neg h3]; exact ⟨rfl, rfl⟩
    · rw [if_neg (by simp), if_neg h2]; exact ⟨rfl, rfl⟩

theorem userIf_ports (s : St) (a : Acc) : (userIf s a).1.fenc = s.fenc ∧ (userIf s a).1.fdec = s.fdec := by
  unfold userIf
  by_cases h1 : a.be ∨ 4 < a.data.length ∨ a.sw < a.data.length
  · rw [if_pos h1]; exact ⟨rfl, rfl⟩
  rw [if_neg h1]
  by_cases h2 : maxRegs < a.addr / 4
  · simp only [h2]; exact ⟨rfl, rfl⟩
  simp only [h2]
  cases a.cmd with
  | read =>
    by_cases h3 : a.addr / 4 = maxRegs <;> simp only [h3] <;> exact ⟨rfl, rfl⟩
  | ignore => exact ⟨rfl, rfl⟩
  | write =>
    simp only [if_false]
    by_cases h3 : readOnly (a.addr / 4)
    · rw [if_pos h3]; exact ⟨rfl, rfl⟩
    rw [if_neg h3]
    by_cases h4 : a.addr / 4 = ctrlReg true
    · rw [if_pos h4]; exact indirect_ports _ _
    rw [if_neg h4]
    by_cases h5 : a.addr / 4 = ctrlReg false
    · rw [if_pos h5]; exact indirect_ports _ _
    rw [if_neg h5]
    by_cases h6 : a.addr / 4 = maxRegs
    · rw [if_pos h6]; exact ⟨rfl, rfl⟩
    · rw [if_neg h6]; exact ⟨rfl, rfl⟩

/-- What the encoder stores: a latched port record, and nothing else. -/
theorem encrypt_state (s : St) (port : Nat) (g : Sig) (t : Txn) :
    (encrypt s port g t).1 = s ∨
      ∃ l, l.byteCount = (s.fenc port).byteCount ∧ (encrypt s port g t).1 = { s with fenc := setPort s.fenc port l } := by
  unfold encrypt
  by_cases h1 : t.be ∨ t.cmd ≠ .write ∨ t.addr ≠ 0
  · rw [if_pos h1]; exact Or.inl rfl
  rw [if_neg h1]
  by_cases h2 : port = 0 ∧ s.regs (0x1000 / 4) = 2
  · rw [if_pos h2]; exact Or.inl rfl
  rw [if_neg h2]
  refine Or.inr ⟨if (s.fenc port).byteCount = 0 then latch g (s.fenc port) else s.fenc port, ?_, ?_⟩
  · by_cases h3 : (s.fenc port).byteCount = 0
    · rw [if_pos h3]; rfl
    · rw [if_neg h3]
  · generalize (if (s.fenc port).byteCount = 0 then latch g (s.fenc port) else s.fenc port) = l
    by_cases h4 : l.mode = 0
    · simp only [if_pos h4]; cases t.eop <;> rfl
    · simp only [if_neg h4]

theorem decrypt_state (s : St) (port : Nat) (g : Sig) (t : Txn) :
    (decrypt s port g t).1 = s ∨
      ∃ l, l.byteCount = (s.fdec port).byteCount ∧ (decrypt s port g t).1 = { s with fdec := setPort s.fdec port l } := by
  unfold decrypt
  by_cases h1 : t.be ∨ t.cmd ≠ .write ∨ t.addr ≠ 0
  · rw [if_pos h1]; exact Or.inl rfl
  rw [if_neg h1]
  by_cases h2 : port = 0 ∧ s.regs (0x1004 / 4) = 2
  · rw [if_pos h2]; exact Or.inl rfl
  rw [if_neg h2]
  refine Or.inr ⟨if (s.fdec port).byteCount = 0 then latch g (s.fdec port) else s.fdec port, ?_, ?_⟩
  · by_cases h3 : (s.fdec port).byteCount = 0
    · rw [if_pos h3]; rfl
    · rw [if_neg h3]
  · generalize (if (s.fdec port).byteCount = 0 then latch g (s.fdec port) else s.fdec port) = l
    by_cases h4 : l.mode = 0
    · simp only [if_pos h4]; cases t.eop <;> rfl
    · simp only [if_neg h4]

/-- **C56 (packets in several transactions).** After a reset, whatever happens next,
every port is always outside a packet: the block never counts the bytes it consumed,
so every transaction is processed as a packet of its own. -/
theorem counts_stay_zero (s : St) (ops : List Op) (p : Nat) (hp : p < 4) :
    ((run (reset s) ops).fenc p).byteCount = 0 ∧ ((run (reset s) ops).fdec p).byteCount = 0 := by
  have hr : ∀ s : St, ((reset s).fenc p).byteCount = 0 ∧ ((reset s).fdec p).byteCount = 0 := by
    intro s; simp [reset, hp]
  have key : ∀ (ops : List Op) (s : St), ((s.fenc p).byteCount = 0 ∧ (s.fdec p).byteCount = 0) →
      (((run s ops).fenc p).byteCount = 0 ∧ ((run s ops).fdec p).byteCount = 0) := by
    intro ops
    induction ops with
    | nil => intro s h; exact h
    | cons o os ih =>
      intro s h
      apply ih (step s o)
      cases o with
      | reset => exact hr s
      | user a => simp only [step]; rw [(userIf_ports s a).1, (userIf_ports s a).2]; exact h
      | enc q g t =>
        simp only [step]
        rcases encrypt_state s q g t with e | ⟨l, hl, e⟩
        · rw [e]; exact h
        · rw [e]
          refine ⟨?_, h.2⟩
          show (setPort s.fenc q l p).byteCount = 0
          unfold setPort
          by_cases x : p = q
          · subst x; rw [if_pos rfl, hl]; exact h.1
          · rw [if_neg x]; exact h.1
      | dec q g t =>
        simp only [step]
        rcases decrypt_state s q g t with e | ⟨l, hl, e⟩
        · rw [e]; exact h
        · rw [e]
          refine ⟨h.1, ?_⟩
          show (setPort s.fdec q l p).byteCount = 0
          unfold setPort
          by_cases x : p = q
          · subst x; rw [if_pos rfl, hl]; exact h.2
          · rw [if_neg x]; exact h.2
  exact key ops (reset s) (hr s)

/-- **C56 (streams leave the rest alone).** No stream transaction changes a register or
a key. -/
theorem streams_keep_keys (s : St) (port : Nat) (g : Sig) (t : Txn) :
    ((encrypt s port g t).1.regs = s.regs ∧ (encrypt s port g t).1.enc = s.enc ∧ (encrypt s port g t).1.dec = s.dec) ∧
    ((decrypt s port g t).1.regs = s.regs ∧ (decrypt s port g t).1.enc = s.enc ∧ (decrypt s port g t).1.dec = s.dec) := by
  constructor
  · rcases encrypt_state s port g t with e | ⟨l, _, e⟩ <;> rw [e] <;> exact ⟨rfl, rfl, rfl⟩
  · rcases decrypt_state s port g t with e | ⟨l, _, e⟩ <;> rw [e] <;> exact ⟨rfl, rfl, rfl⟩

/-- **C56 (runt frames).** A frame too short to hold the two addresses and the type is
reported in either direction, whatever the port is told to do with it. -/
theorem runt_frame_reported (s : St) (port : Nat) (g : Sig) (d : List Byte) (e : Bool) (hm : g.mode = 0)
    (hd : d.length < 14) :
    (Open s true port → (encrypt s port g { data := d, eop := some e }).2 = .report) ∧
    (Open s false port → (decrypt s port g { data := d, eop := some e }).2 = .report) := by
  constructor
  · intro ho
    have hb : (latch g (s.fenc port)).byteCount = 0 := ho.1
    rw [encrypt_eq s port g d e ho hm]
    unfold encMacsec
    rw [if_pos hb, if_pos hd]
  · intro ho
    have hb : (latch g (s.fdec port)).byteCount = 0 := ho.1
    rw [decrypt_eq s port g d e ho hm]
    unfold decMacsec
    rw [if_pos hb, if_pos hd]

end Verif.Hsc
