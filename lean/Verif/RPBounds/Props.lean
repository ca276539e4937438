import Verif.RPBounds.Model
import Verif.RP.Lemmas

/-! # C44: packets cannot make the receiver leave its buffer -/

namespace Verif.RPBounds
open Verif Verif.RP

/-! ## Specification -/

/-- The shortest payload that contains every field of a command's packet. -/
def minLen (cmd : U32) (ext : Bool) : Nat :=
  if cmd = cmdHello then 12
  else if cmd = cmdWrite ∨ cmd = cmdRead then (if ext then 60 else 38)
  else if cmd = cmdInterrupt then 21
  else if cmd = cmdSync then 8
  else if cmd = cmdAtsReq ∨ cmd = cmdAtsInv then 36
  else 0

/-- The packet contains every field it is decoded from. -/
def Complete (raw : List Byte) (h : Hdr) : Prop :=
  raw.length = 20 + h.len.toNat ∧
    minLen h.cmd (match rd64 28 raw with | some a => hasExtBase a | none => false) ≤ h.len.toNat ∧
    (h.cmd = cmdHello → ∀ off n, rd32 24 raw = some off → rd16 28 raw = some n →
      off.toNat + 4 * n.toNat ≤ raw.length)

/-! ## Lemmas -/

theorem slice_in {off n : Nat} {b : List Byte} (h : off + n ≤ b.length) : ∃ s, slice off n b = some s := by
  unfold slice; rw [if_pos h]; exact ⟨_, rfl⟩

theorem rd8_in {off : Nat} {b : List Byte} (h : off + 1 ≤ b.length) : ∃ x, rd8 off b = some x := by
  obtain ⟨s, e⟩ := slice_in h; simp [rd8, e]
theorem rd16_in {off : Nat} {b : List Byte} (h : off + 2 ≤ b.length) : ∃ x, rd16 off b = some x := by
  obtain ⟨s, e⟩ := slice_in h; simp [rd16, e]
theorem rd32_in {off : Nat} {b : List Byte} (h : off + 4 ≤ b.length) : ∃ x, rd32 off b = some x := by
  obtain ⟨s, e⟩ := slice_in h; simp [rd32, e]
theorem rd64_in {off : Nat} {b : List Byte} (h : off + 8 ≤ b.length) : ∃ x, rd64 off b = some x := by
  obtain ⟨s, e⟩ := slice_in h; simp [rd64, e]
theorem rd64raw_in {off : Nat} {b : List Byte} (h : off + 8 ≤ b.length) : ∃ x, rd64raw off b = some x := by
  obtain ⟨s, e⟩ := slice_in h; simp [rd64raw, e]

theorem rdCaps_in (off n : Nat) (b : List Byte) (h : off + 4 * n ≤ b.length) : ∃ l, rdCaps off n b = some l := by
  induction n generalizing off with
  | zero => exact ⟨[], rfl⟩
  | succ n ih =>
    obtain ⟨x, e1⟩ := rd32_in (off := off) (b := b) (by omega)
    obtain ⟨l, e2⟩ := ih (off + 4) (by omega)
    exact ⟨x :: l, by simp [rdCaps, e1, e2]⟩

theorem rdCaps_out (off n : Nat) (b : List Byte) (h0 : n ≠ 0) (h : b.length < off + 4 * n) :
    rdCaps off n b = none := by
  induction n generalizing off with
  | zero => exact absurd rfl h0
  | succ n ih =>
    by_cases hn : n = 0
    · subst hn
      have : rd32 off b = none := by
        simp only [rd32, slice]; rw [if_neg (by omega)]; rfl
      simp [rdCaps, this]
    · have := ih (off + 4) hn (by omega)
      cases e : rd32 off b with
      | none => simp [rdCaps, e]
      | some x => simp [rdCaps, e, this]

theorem alloc_length (buf : List Byte) (n : Nat) : (alloc buf n).length = max buf.length n := by
  simp [alloc]; omega

theorem fill_length (buf raw : List Byte) : (fill buf raw).length = max buf.length raw.length := by
  simp [fill, alloc_length]; omega

/-- The buffer always keeps its first 148 bytes (C44, invariant). -/
theorem fill_ge (buf raw : List Byte) (h : 148 ≤ buf.length) : 148 ≤ (fill buf raw).length := by
  rw [fill_length]; omega

theorem fill_prefix (buf raw : List Byte) : ∃ tl, fill buf raw = raw ++ tl := ⟨_, rfl⟩

theorem rd_pre {off n : Nat} {raw tl : List Byte} (h : off + n ≤ raw.length) :
    slice off n (raw ++ tl) = slice off n raw := slice_prefix h

theorem rdCaps_pre (off n : Nat) (raw tl : List Byte) (h : off + 4 * n ≤ raw.length) :
    rdCaps off n (raw ++ tl) = rdCaps off n raw := by
  induction n generalizing off with
  | zero => rfl
  | succ n ih =>
    simp only [rdCaps, rd32, rd_pre (tl := tl) (show off + 4 ≤ raw.length by omega), ih (off + 4) (by omega)]

/-! ## Theorems -/

/-- **C44 (decoding), exactly.** Decoding a received packet leaves the buffer in
one case only: a hello packet whose capability list runs past its end.  Every
other packet, whatever its bytes and its length field, is decoded inside the
buffer or refused. -/
theorem decode_outside_iff (buf : List Byte) (h : Hdr) (hb : 148 ≤ buf.length) :
    decode buf h = .outside ↔
      h.cmd = cmdHello ∧ 12 ≤ h.len.toNat ∧
        ∃ off n, rd32 24 buf = some off ∧ rd16 28 buf = some n ∧ n ≠ 0 ∧ 32 ≤ off.toNat ∧
          buf.length < off.toNat + 4 * n.toNat := by
  by_cases hc : h.cmd = cmdHello
  · obtain ⟨major, e1⟩ := rd16_in (off := 20) (b := buf) (by omega)
    obtain ⟨minor, e2⟩ := rd16_in (off := 22) (b := buf) (by omega)
    obtain ⟨off, e3⟩ := rd32_in (off := 24) (b := buf) (by omega)
    obtain ⟨n, e4⟩ := rd16_in (off := 28) (b := buf) (by omega)
    by_cases h4 : h.len.toNat < 4
    · have : asserts buf h = true := by rw [asserts, if_pos hc, decide_eq_true h4]
      rw [decode, if_pos this]
      constructor
      · intro x; cases x
      · rintro ⟨-, h12, -⟩; omega
    · have ha : ¬ asserts buf h = true := by rw [asserts, if_pos hc, decide_eq_false h4]; simp
      rw [decode, if_neg ha]
      by_cases h8 : h.len.toNat - 4 ≥ 8
      · by_cases hov : n ≠ 0 ∧ off.toNat < 32
        · have ho : overlaps buf h = true := by
            rw [overlaps, e3, e4, decide_eq_true ⟨hc, h8⟩]
            show (true && decide (n ≠ 0 ∧ off.toNat < 32)) = true
            rw [decide_eq_true hov]; rfl
          rw [if_pos ho]
          constructor
          · intro x; cases x
          · rintro ⟨-, -, off', n', q1, q2, q3, q4, -⟩
            rw [e3] at q1; rw [e4] at q2
            cases q1; cases q2
            have := hov.2
            omega
        · have ho : ¬ overlaps buf h = true := by
            rw [overlaps, e3, e4, decide_eq_true ⟨hc, h8⟩]
            show ¬ (true && decide (n ≠ 0 ∧ off.toNat < 32)) = true
            rw [decide_eq_false hov]; simp
          rw [if_neg ho, decPayload, if_pos hc, decHello, if_neg h4]
          simp only [e1, e2, e3, e4, Option.bind_eq_bind, Option.bind_some, if_pos h8, if_neg hov]
          by_cases hin : n = 0 ∨ off.toNat + 4 * n.toNat ≤ buf.length
          · obtain ⟨l, hl⟩ : ∃ l, rdCaps off.toNat n.toNat buf = some l := by
              rcases hin with hn | hin
              · subst hn; exact ⟨[], rfl⟩
              · exact rdCaps_in _ _ _ hin
            simp only [hl, Option.bind_some, Option.pure_def]
            constructor
            · intro x; cases x
            · rintro ⟨-, -, off', n', q1, q2, q3, q4, q5⟩
              cases q1; cases q2
              rcases hin with hn | hin
              · exact absurd hn q3
              · omega
          · have hn : n ≠ 0 := fun e => hin (Or.inl e)
            have hout : buf.length < off.toNat + 4 * n.toNat := by
              rcases Nat.lt_or_ge buf.length (off.toNat + 4 * n.toNat) with h | h
              · exact h
              · exact absurd (Or.inr h) hin
            have hn0 : n.toNat ≠ 0 := by
              intro e; exact hn (BitVec.eq_of_toNat_eq (by simpa using e))
            rw [rdCaps_out _ _ _ hn0 hout]
            have hoff : 32 ≤ off.toNat := by
              rcases Nat.lt_or_ge off.toNat 32 with h | h
              · exact absurd ⟨hn, h⟩ hov
              · exact h
            refine ⟨fun _ => ⟨hc, by omega, off, n, rfl, rfl, hn, hoff, hout⟩, fun _ => rfl⟩
      · have ho : ¬ overlaps buf h = true := by
          rw [overlaps, decide_eq_false (by rintro ⟨-, x⟩; exact h8 x)]; simp
        rw [if_neg ho, decPayload, if_pos hc, decHello, if_neg h4]
        simp only [e1, e2, Option.bind_eq_bind, Option.bind_some, if_neg h8, Option.pure_def]
        constructor
        · intro x; cases x
        · rintro ⟨-, h12, -⟩; omega
  · have ho : ¬ overlaps buf h = true := by
      rw [overlaps, decide_eq_false (by rintro ⟨x, -⟩; exact hc x)]; simp
    refine ⟨fun hd => ?_, fun hd => absurd hd.1 hc⟩
    exfalso
    rw [decode] at hd
    split at hd
    · cases hd
    rename_i ha
    have hnone : decPayload buf h = none := by
      cases e : decPayload buf h with
      | none => rfl
      | some r => rw [e] at hd; cases hd
    rw [decPayload, if_neg hc] at hnone
    have r64 (off : Nat) (ho : off ≤ 140) := rd64_in (off := off) (b := buf) (by omega)
    have r32 (off : Nat) (ho : off ≤ 144) := rd32_in (off := off) (b := buf) (by omega)
    obtain ⟨x20, f20⟩ := r64 20 (by omega)
    obtain ⟨x28, f28⟩ := r64 28 (by omega)
    obtain ⟨x36, f36⟩ := r64 36 (by omega)
    obtain ⟨y36, g36⟩ := r32 36 (by omega)
    split at hnone
    · rename_i hrw
      obtain ⟨x44, f44⟩ := r32 44 (by omega)
      obtain ⟨x48, f48⟩ := r32 48 (by omega)
      obtain ⟨x52, f52⟩ := r32 52 (by omega)
      obtain ⟨x56, f56⟩ := rd16_in (off := 56) (b := buf) (by omega)
      obtain ⟨x58, f58⟩ := rd16_in (off := 58) (b := buf) (by omega)
      obtain ⟨x60, f60⟩ := r32 60 (by omega)
      obtain ⟨x64, f64⟩ := r32 64 (by omega)
      obtain ⟨x68, f68⟩ := r32 68 (by omega)
      obtain ⟨x72, f72⟩ := r32 72 (by omega)
      obtain ⟨x76, f76⟩ := r32 76 (by omega)
      rw [asserts, if_neg hc, if_pos hrw, f28] at ha
      have h38 : ¬ h.len.toNat < 38 := by
        intro x; apply ha; rw [decide_eq_true x]; rfl
      rw [decBus, if_neg h38] at hnone
      simp only [f20, f28, f36, f44, f48, f52, f56, f58, f60, f64, f68, f72, f76,
        Option.bind_eq_bind, Option.bind_some] at hnone
      by_cases hx : hasExtBase x28 = true
      · have h60 : ¬ h.len.toNat < 60 := by
          intro x; apply ha
          show (decide (h.len.toNat < 38) || (hasExtBase x28 && decide (h.len.toNat < 60))) = true
          rw [hx, decide_eq_true x]; simp
        rw [if_pos hx, if_neg h60] at hnone
        cases hnone
      · rw [if_neg hx] at hnone
        cases hnone
    · split at hnone
      · obtain ⟨x40, f40⟩ := rd8_in (off := 40) (b := buf) (by omega)
        simp only [f20, f28, g36, f40, Option.bind_eq_bind, Option.bind_some] at hnone
        cases hnone
      · split at hnone
        · simp only [f20, Option.bind_eq_bind, Option.bind_some] at hnone
          cases hnone
        · split at hnone
          · obtain ⟨z20, k20⟩ := rd64raw_in (off := 20) (b := buf) (by omega)
            obtain ⟨x44, f44⟩ := r64 44 (by omega)
            obtain ⟨x52, f52⟩ := r32 52 (by omega)
            simp only [k20, f28, f36, f44, f52, Option.bind_eq_bind, Option.bind_some] at hnone
            cases hnone
          · cases hnone

/-- **C44 (whole packets), partial.** A packet for an existing device number
whose capability list, if it is a hello packet, ends inside the packet is
processed inside the buffer or refused.  Missing: packets for other device
numbers and longer capability lists (`unknown_device_outside`,
`hello_capabilities_outside`). -/
theorem process_in_bounds_partial (buf raw : List Byte) (h : Hdr) (hb : 148 ≤ buf.length)
    (hdev : h.dev.toNat < 512)
    (hcaps : h.cmd = cmdHello → 32 ≤ raw.length ∧ ∀ off n, rd32 24 raw = some off → rd16 28 raw = some n →
      off.toNat + 4 * n.toNat ≤ raw.length) :
    process buf raw h ≠ .outside := by
  intro hp
  rw [process] at hp
  cases hd : decode (fill buf raw) h with
  | val r => rw [hd] at hp; simp only [] at hp; rw [if_pos (show _ < maxDevs from hdev)] at hp; cases hp
  | refused => rw [hd] at hp; cases hp
  | selfOverlap => rw [hd] at hp; cases hp
  | outside =>
    obtain ⟨hc, -, off, n, e1, e2, -, -, h3⟩ := (decode_outside_iff _ h (fill_ge buf raw hb)).1 hd
    obtain ⟨tl, ht⟩ := fill_prefix buf raw
    obtain ⟨hl, hq⟩ := hcaps hc
    rw [ht] at e1 e2
    have := hq off n (by rw [← e1, rd32, rd32, rd_pre (by omega)]) (by rw [← e2, rd16, rd16, rd_pre (by omega)])
    rw [fill_length] at h3
    omega

/-- The receive buffer during a history of packets. -/
def bufAfter (raws : List (List Byte)) : List Byte := raws.foldl fill fresh

/-- **C44 (histories).** The hypothesis on the buffer holds after any history of
packets. -/
theorem bufAfter_ge (raws : List (List Byte)) : 148 ≤ (bufAfter raws).length := by
  have : ∀ (l : List (List Byte)) (b : List Byte), 148 ≤ b.length → 148 ≤ (l.foldl fill b).length := by
    intro l
    induction l with
    | nil => intro b hb; exact hb
    | cons r l ih => intro b hb; exact ih _ (fill_ge b r hb)
  exact this raws fresh (by rw [fresh, alloc_length]; simp)

/-- **C44 (write data).** The data of an accepted write request are exactly the
payload bytes behind its headers, whatever the buffer held before. -/
theorem write_data_in_packet (buf raw : List Byte) (h : Hdr) (b : Body) (used : Nat)
    (hraw : raw.length = 20 + h.len.toNat) (hw : h.cmd = cmdWrite)
    (hd : decode (fill buf raw) h = .val (b, used)) :
    used ≤ h.len.toNat ∧ writeData (fill buf raw) h used = .val (raw.drop (20 + used)) := by
  have hc : ¬ h.cmd = cmdHello := by rw [hw]; decide
  have hu : used ≤ h.len.toNat := by
    rw [decode] at hd
    split at hd
    · cases hd
    split at hd
    · cases hd
    rw [decPayload, if_neg hc, if_pos (Or.inl hw)] at hd
    cases e : decBus (fill buf raw) h with
    | none => rw [e] at hd; cases hd
    | some r =>
      rw [e] at hd
      cases hd
      rw [decBus] at e
      split at e
      · cases e
      · rename_i h38
        simp only [Option.bind_eq_bind, Option.bind_eq_some_iff] at e
        obtain ⟨_, _, _, _, _, _, _, _, _, _, _, _, _, _, e⟩ := e
        split at e
        · split at e
          · simp at e
          · simp only [Option.bind_eq_some_iff] at e
            obtain ⟨_, _, _, _, _, _, _, _, _, _, _, _, e⟩ := e
            cases e; omega
        · cases e; omega
  refine ⟨hu, ?_⟩
  obtain ⟨tl, ht⟩ := fill_prefix buf raw
  rw [writeData, ht, rd_pre (by omega), slice, if_pos (by omega)]
  show Out.val _ = _
  rw [List.take_of_length_le (by rw [List.length_drop]; omega)]

/-- **C44 (no leftovers).** What a complete packet is decoded to does not depend
on the packets received before. -/
theorem decode_independent (raw : List Byte) (h : Hdr) (hc : Complete raw h) (buf buf' : List Byte) :
    decode (fill buf raw) h = decode (fill buf' raw) h := by
  obtain ⟨hl, hm, hcaps⟩ := hc
  have key : ∀ tl, decode (raw ++ tl) h = decode raw h := by
    intro tl
    by_cases h1 : h.cmd = cmdHello
    · rw [minLen, if_pos h1] at hm
      have p16 (off : Nat) (ho : off ≤ 30) : rd16 off (raw ++ tl) = rd16 off raw := by
        rw [rd16, rd16, rd_pre (by omega)]
      have p32 (off : Nat) (ho : off ≤ 28) : rd32 off (raw ++ tl) = rd32 off raw := by
        rw [rd32, rd32, rd_pre (by omega)]
      obtain ⟨off, e3⟩ := rd32_in (off := 24) (b := raw) (by omega)
      obtain ⟨n, e4⟩ := rd16_in (off := 28) (b := raw) (by omega)
      have hin := hcaps h1 off n e3 e4
      have hA : asserts (raw ++ tl) h = asserts raw h := by rw [asserts, asserts, if_pos h1, if_pos h1]
      have hO : overlaps (raw ++ tl) h = overlaps raw h := by
        rw [overlaps, overlaps, p32 24 (by omega), p16 28 (by omega)]
      rw [decode, decode, hA, hO, decPayload, decPayload, if_pos h1, if_pos h1, decHello, decHello,
        p16 20 (by omega), p16 22 (by omega), p32 24 (by omega), p16 28 (by omega), e3, e4]
      simp only [Option.bind_eq_bind, Option.bind_some, rdCaps_pre off.toNat n.toNat raw tl hin]
    · have hO : ∀ b, ¬ overlaps b h = true := by
        intro b
        rw [overlaps, decide_eq_false (by rintro ⟨x, -⟩; exact h1 x)]; simp
      rw [minLen, if_neg h1] at hm
      by_cases h2 : h.cmd = cmdWrite ∨ h.cmd = cmdRead
      · rw [if_pos h2] at hm
        have h38 : 38 ≤ h.len.toNat := by
          have : ∀ b : Bool, 38 ≤ (if b = true then 60 else 38) := by decide
          exact Nat.le_trans (this _) hm
        have p64 (off : Nat) (ho : off ≤ 50) : rd64 off (raw ++ tl) = rd64 off raw := by
          rw [rd64, rd64, rd_pre (by omega)]
        have p32 (off : Nat) (ho : off ≤ 54) : rd32 off (raw ++ tl) = rd32 off raw := by
          rw [rd32, rd32, rd_pre (by omega)]
        have p16 (off : Nat) (ho : off ≤ 56) : rd16 off (raw ++ tl) = rd16 off raw := by
          rw [rd16, rd16, rd_pre (by omega)]
        obtain ⟨attr, ea⟩ := rd64_in (off := 28) (b := raw) (by omega)
        rw [ea] at hm
        have hA : asserts (raw ++ tl) h = asserts raw h := by
          rw [asserts, asserts, if_neg h1, if_neg h1, p64 28 (by omega)]
        have hB : decBus (raw ++ tl) h = decBus raw h := by
          by_cases hx : hasExtBase attr = true
          · have h60 : 60 ≤ h.len.toNat := by
              rw [show (if (match some attr with | some a => hasExtBase a | none => false) = true then 60 else 38) = 60
                from if_pos hx] at hm
              exact hm
            have q32 (off : Nat) (ho : off ≤ 76) : rd32 off (raw ++ tl) = rd32 off raw := by
              rw [rd32, rd32, rd_pre (by omega)]
            have q16 (off : Nat) (ho : off ≤ 76) : rd16 off (raw ++ tl) = rd16 off raw := by
              rw [rd16, rd16, rd_pre (by omega)]
            simp only [decBus, p64 20 (by omega), p64 28 (by omega), p64 36 (by omega), q32 44 (by omega),
              q32 48 (by omega), q32 52 (by omega), q16 56 (by omega), q16 58 (by omega), q32 60 (by omega),
              q32 64 (by omega), q32 68 (by omega), q32 72 (by omega), q32 76 (by omega)]
          · simp only [decBus, p64 20 (by omega), p64 28 (by omega), p64 36 (by omega), p32 44 (by omega),
              p32 48 (by omega), p32 52 (by omega), p16 56 (by omega), ea, Option.bind_eq_bind, Option.bind_some,
              if_neg hx]
        rw [decode, decode, hA, if_neg (hO _), if_neg (hO _), decPayload, decPayload, if_neg h1, if_neg h1,
          if_pos h2, if_pos h2, hB]
      · have hA : ∀ b, asserts b h = false := by
          intro b; rw [asserts, if_neg h1, if_neg h2]
        rw [if_neg h2] at hm
        have hD : decPayload (raw ++ tl) h = decPayload raw h := by
          rw [decPayload, decPayload, if_neg h1, if_neg h1, if_neg h2, if_neg h2]
          by_cases h3 : h.cmd = cmdInterrupt
          · rw [if_pos h3] at hm
            rw [if_pos h3, if_pos h3]
            simp only [rd64, rd32, rd8, rd_pre (tl := tl) (show 20 + 8 ≤ raw.length by omega),
              rd_pre (tl := tl) (show 28 + 8 ≤ raw.length by omega),
              rd_pre (tl := tl) (show 36 + 4 ≤ raw.length by omega),
              rd_pre (tl := tl) (show 40 + 1 ≤ raw.length by omega)]
          · rw [if_neg h3] at hm
            rw [if_neg h3, if_neg h3]
            by_cases h4 : h.cmd = cmdSync
            · rw [if_pos h4] at hm
              rw [if_pos h4, if_pos h4]
              simp only [rd64, rd_pre (tl := tl) (show 20 + 8 ≤ raw.length by omega)]
            · rw [if_neg h4] at hm
              rw [if_neg h4, if_neg h4]
              by_cases h5 : h.cmd = cmdAtsReq ∨ h.cmd = cmdAtsInv
              · rw [if_pos h5] at hm
                rw [if_pos h5, if_pos h5]
                simp only [rd64raw, rd64, rd32, rd_pre (tl := tl) (show 20 + 8 ≤ raw.length by omega),
                  rd_pre (tl := tl) (show 28 + 8 ≤ raw.length by omega),
                  rd_pre (tl := tl) (show 36 + 8 ≤ raw.length by omega),
                  rd_pre (tl := tl) (show 44 + 8 ≤ raw.length by omega),
                  rd_pre (tl := tl) (show 52 + 4 ≤ raw.length by omega)]
              · rw [if_neg h5, if_neg h5]
        rw [decode, decode, hA, hA, if_neg (hO _), if_neg (hO _), hD]
  obtain ⟨t1, e1⟩ := fill_prefix buf raw
  obtain ⟨t2, e2⟩ := fill_prefix buf' raw
  rw [e1, e2, key, key]

/-- **C44 (byte enables), partial.** Byte enables that are handed out lie behind
the packet structure and inside the packet, provided offset plus length does not
exceed 32 bits.  Missing: larger sums (`byte_enables_wrap`). -/
theorem byte_enables_in_packet_partial (buf : List Byte) (h : Hdr) (b : Body) (hb : 20 + h.len.toNat ≤ buf.length)
    (ts attr addr : U64) (len width sw : U32) (mid : U16) (e : BusExt)
    (hbody : b = .bus ts attr addr len width sw mid (some e))
    (hno : e.beOffset.toNat + e.beLen.toNat < 2 ^ 32) :
    byteEn buf h b ≠ .outside ∧
      ∀ d, byteEn buf h b = .val (some d) → d.length = e.beLen.toNat ∧ 80 ≤ e.beOffset.toNat ∧
        e.beOffset.toNat + e.beLen.toNat ≤ 20 + h.len.toNat ∧ d = (buf.drop e.beOffset.toNat).take e.beLen.toNat := by
  subst hbody
  have hs : (e.beOffset + e.beLen).toNat = e.beOffset.toNat + e.beLen.toNat := by
    rw [BitVec.toNat_add, Nat.mod_eq_of_lt hno]
  rw [byteEn, hs]
  by_cases h0 : e.beLen = 0
  · rw [if_pos h0]; exact ⟨by simp, by simp⟩
  · rw [if_neg h0]
    by_cases h1 : e.beOffset.toNat < 80
    · rw [if_pos h1]; exact ⟨by simp, by simp⟩
    · rw [if_neg h1]
      by_cases h2 : e.beOffset.toNat + e.beLen.toNat > h.len.toNat + 20
      · rw [if_pos h2]; exact ⟨by simp, by simp⟩
      · rw [if_neg h2, slice, if_pos (by omega)]
        refine ⟨by simp, ?_⟩
        intro d hd
        cases hd
        refine ⟨?_, by omega, by omega, rfl⟩
        rw [List.length_take, List.length_drop]; omega

/-! ## Where the code falls short -/

/-- A header followed by payload bytes, as received. -/
def mkRaw (h : Hdr) (payload : List Byte) : List Byte := encHdr h ++ payload

/-- **C44 is violated**: a 32-byte hello packet with a large capability offset
makes the receiver read and write outside its buffer. -/
theorem hello_capabilities_outside :
    ∃ raw h, raw.length = 20 + h.len.toNat ∧ decHdr raw = some h ∧ h.dev = 0 ∧ process fresh raw h = .outside :=
  ⟨mkRaw { cmd := cmdHello, len := 12, id := 0, flags := 0, dev := 0 }
      (w16 4 ++ w16 3 ++ w32 0x1000 ++ w16 1 ++ w16 0),
    { cmd := cmdHello, len := 12, id := 0, flags := 0, dev := 0 },
    by decide +kernel, by decide +kernel, rfl, by decide +kernel⟩

/-- **C44 is violated**: the device number of a packet indexes the device table
unchecked. -/
theorem unknown_device_outside :
    ∃ raw h, raw.length = 20 + h.len.toNat ∧ decHdr raw = some h ∧ h.cmd = cmdSync ∧ process fresh raw h = .outside :=
  ⟨mkRaw { cmd := cmdSync, len := 8, id := 0, flags := 0, dev := 512 } (w64 0),
    { cmd := cmdSync, len := 8, id := 0, flags := 0, dev := 512 },
    by decide +kernel, by decide +kernel, rfl, by decide +kernel⟩

/-- **C44 is violated**: a read response is not required to carry the data that
was asked for, so for every response there are request lengths for which the
requester copies bytes from outside the buffer. -/
theorem short_read_response_outside (buf : List Byte) (ts attr addr : U64) (len width sw : U32) (mid : U16)
    (ext : Option BusExt) (n : Nat) (hn : buf.length < n) :
    readData buf (.bus ts attr addr len width sw mid ext) n = .outside := by
  simp only [readData, slice]
  rw [if_neg (by omega)]

/-- The complement: a response that reaches from its data offset far enough is
copied from inside the buffer (partial form of C44 for read responses). -/
theorem read_response_in_bounds_partial (buf : List Byte) (ts attr addr : U64) (len width sw : U32) (mid : U16)
    (ext : Option BusExt) (n : Nat) (h58 : 58 + n ≤ buf.length)
    (he : ∀ e, ext = some e → e.dataOffset.toNat + n ≤ buf.length) :
    ∃ d, readData buf (.bus ts attr addr len width sw mid ext) n = .val d ∧ d.length = n := by
  simp only [readData]
  have key : ∀ off, off + n ≤ buf.length → ∃ d, (match slice off n buf with
      | some d => Out.val d | none => Out.outside) = Out.val d ∧ d.length = n := by
    intro off ho
    rw [slice, if_pos ho]
    exact ⟨_, rfl, by rw [List.length_take, List.length_drop]; omega⟩
  cases ext with
  | none => cases hasExtBase attr <;> exact key 58 h58
  | some e => cases hasExtBase attr
              · exact key 58 h58
              · exact key _ (he e rfl)

/-- **C44 is violated for byte enables whose end exceeds 32 bits**: the check
wraps and the pointer handed out lies outside the buffer. -/
theorem byte_enables_wrap :
    ∃ (h : Hdr) (b : Body), byteEn fresh h b = .outside :=
  ⟨{ cmd := cmdWrite, len := 128, id := 0, flags := 0, dev := 0 },
    .bus 0 4 0 0 0 0 0 (some { dataOffset := 80, nextOffset := 0, beOffset := 0xffffffff, beLen := 2 }),
    by decide +kernel⟩

/-- A packet shorter than its fields is completed from the packet before: an
empty sync packet repeats the previous time stamp. -/
theorem short_packet_uses_leftovers :
    ∃ raw h old, raw.length = 20 + h.len.toNat ∧ decode (fill fresh raw) h ≠ decode (fill (fill fresh old) raw) h :=
  ⟨mkRaw { cmd := cmdSync, len := 0, id := 0, flags := 0, dev := 0 } [],
    { cmd := cmdSync, len := 0, id := 0, flags := 0, dev := 0 }, encSync 0 0 77 0,
    by decide +kernel, by decide +kernel⟩

/-! ## The hypotheses are met -/

example : Complete (encSync 1 2 3 0) { cmd := cmdSync, len := 8, id := 1, flags := 0, dev := 2 } :=
  ⟨by decide +kernel, by decide +kernel, by intro h; exact absurd h (by decide)⟩

example : process fresh (encHello 0 0 4 3 [1, 3, 4]) { cmd := cmdHello, len := 24, id := 0, flags := 0, dev := 0 }
    = .val (.hello 4 3 [1, 3, 4], 24) := by decide +kernel

example : process (bufAfter [encSync 1 2 3 0]) (encInterrupt 1 2 3 4 5 1 0)
    { cmd := cmdInterrupt, len := 21, id := 1, flags := 0, dev := 2 } = .val (.interrupt 3 5 4 1, 21) := by decide +kernel

end Verif.RPBounds
