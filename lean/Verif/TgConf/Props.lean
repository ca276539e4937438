import Verif.TgConf.Text
/-! # Transfers in configuration files: written and read back, complete or reported -/

namespace Verif.TgConf
open Verif Verif.TgTlm

/-! ## Written and read back -/

/-- The values of a transfer fit their types (data-transfer.h 36-67). -/
structure Fits (x : Xfer) : Prop where
  addr : x.addr < 2 ^ 64
  cmd : x.cmd < 2 ^ 32
  length : x.length < 2 ^ 32
  beLength : x.byteEnableLength < 2 ^ 32
  sw : x.sw < 2 ^ 32
  masterId : x.attr.masterId < 2 ^ 64
  burstWidth : x.attr.burstWidth < 2 ^ 32
  transactionId : x.attr.transactionId < 2 ^ 32
  qos : x.attr.qos < 2 ^ 8
  region : x.attr.region < 2 ^ 8

/-- The first `n` bytes of an array, or null if there are none. -/
def prefixBytes (p : Option (List Byte)) (n : Nat) : Option (List (Option Byte)) :=
  match p with
  | none => none
  | some l => if n = 0 then none else some ((l.take n).map some)

/-- What comes back: everything but the attributes that are not written. -/
def back (x : Xfer) : Parsed where
  addr := x.addr
  cmd := x.cmd
  data := prefixBytes x.data x.length
  length := x.length
  byteEnable := prefixBytes x.byteEnable x.byteEnableLength
  byteEnableLength := x.byteEnableLength
  sw := x.sw
  expect := prefixBytes x.expect x.length
  attr := { x.attr with snoop := 0, domain := 0, barrier := false, isRead := false }

theorem bytes_take {p : Option (List Byte)} {n : Nat} {d : List Byte} (h : bytes p n = some d) :
    d.length = n ∧ prefixBytes p n = if d = [] then none else some (d.map some) := by
  cases p with
  | none =>
    unfold bytes at h
    by_cases hn : n = 0
    · rw [if_pos hn] at h
      cases h
      exact ⟨hn.symm, rfl⟩
    · rw [if_neg hn] at h; cases h
  | some l =>
    unfold bytes at h
    by_cases hl : n ≤ l.length
    · simp only [if_pos hl, Option.some.injEq] at h
      subst h
      have hlen : (l.take n).length = n := by rw [List.length_take]; omega
      refine ⟨hlen, ?_⟩
      simp only [prefixBytes]
      by_cases hn : n = 0
      · subst hn; rfl
      · rw [if_neg hn, if_neg (fun h => hn (by rw [h] at hlen; exact hlen.symm))]
    · simp only [if_neg hl] at h; cases h

theorem bytesJson_read (R : Rand) (d : List Byte) :
    readBytes R d.length (arrString (d.map (fun b => Json.str (toHex b.toNat)))).1 = some (if d = [] then none else some (d.map some)) ∧
    (arrString (d.map (fun b => Json.str (toHex b.toNat)))).2 = [] := by
  constructor
  · by_cases hd : d = []
    · subst hd; rfl
    · rw [if_neg hd]
      have := array_exact R (d.map (fun b => (toHex b.toNat, b.toNat))) (by simp [hd]) (by
        intro e he
        obtain ⟨b, _, rfl⟩ := List.mem_map.1 he
        exact ⟨numeral_hex _, by have := b.isLt; show b.toNat < _; omega⟩)
      rw [List.map_map, List.length_map, List.map_map] at this
      have e1 : ((fun e : List Char × Nat => Json.str e.1) ∘ fun b : Byte => (toHex b.toNat, b.toNat)) = fun b => Json.str (toHex b.toNat) := rfl
      have e2 : ((fun e : List Char × Nat => some (BitVec.ofNat 8 e.2)) ∘ fun b : Byte => (toHex b.toNat, b.toNat)) = some := by
        funext b
        show some (BitVec.ofNat 8 b.toNat) = some b
        rw [BitVec.ofNat_toNat]
        simp
      rw [e1, e2] at this
      exact this
  · have := arrString_str (d.map (fun b => toHex b.toNat))
    rw [List.map_map] at this
    exact this

theorem readAttr_back (R : Rand) (x : Xfer) (h : Fits x) (g : List (String × Json)) (hg : attrJson x.attr = .obj g) :
    readAttr R g = some ((back x).attr, []) := by
  have h1 := h.burstWidth
  have h2 := h.transactionId
  have h3 : x.attr.qos < 2 ^ 32 := Nat.lt_trans h.qos (by decide)
  have h4 : x.attr.region < 2 ^ 32 := Nat.lt_trans h.region (by decide)
  cases hg
  simp only [readAttr, attrBool, attrNum, member, List.find?, Option.map, String.reduceBEq, Option.bind_eq_bind,
    Option.bind_some, if_true, reduceCtorEq, if_false, if_pos h1, if_pos h2, if_pos h3, if_pos h4, List.append_nil, Width.bits]
  rw [Nat.mod_eq_of_lt h1, Nat.mod_eq_of_lt h2, Nat.mod_eq_of_lt h.qos, Nat.mod_eq_of_lt h.region]
  rfl

theorem single_back (R : Rand) (x : Xfer) (h : Fits x) (m : List (String × Json)) (hm : serializeMembers x = some m) :
    single R m = some (back x, []) := by
  unfold serializeMembers at hm
  cases hd : bytes x.data x.length with
  | none => rw [hd] at hm; cases hm
  | some d =>
    cases hb : bytes x.byteEnable x.byteEnableLength with
    | none => rw [hd, hb] at hm; cases hm
    | some b =>
      cases he : bytes x.expect x.length with
      | none => rw [hd, hb, he] at hm; cases hm
      | some e =>
        rw [hd, hb, he] at hm
        simp only [Option.some.injEq] at hm
        obtain ⟨hdl, hdp⟩ := bytes_take hd
        obtain ⟨hbl, hbp⟩ := bytes_take hb
        obtain ⟨hel, hep⟩ := bytes_take he
        have h1 : readAddr R m = some (x.addr, []) := by
          subst hm
          simp only [readAddr, member, List.find?, Option.map, String.reduceBEq,
            text_exact_fits R .u64 _ _ (numeral_hex x.addr) h.addr, Option.getD]
        have h2 : readCmd m = (x.cmd, []) := by
          subst hm
          simp only [readCmd, member, List.find?, Option.map, String.reduceBEq, if_pos h.cmd]
        have h3 : readArr R m "data" 5 6 = some (prefixBytes x.data x.length, []) := by
          subst hm
          obtain ⟨a1, a2⟩ := bytesJson_read R d
          simp only [readArr, member, List.find?, Option.map, String.reduceBEq, bytesJson]
          rw [List.length_map, a1, a2, hdp]
        have h4 : readLength R m = some (x.length, []) := by
          subst hm
          simp only [readLength, member, List.find?, Option.map, String.reduceBEq, bytesJson, if_pos h.length]
          rw [List.length_map, if_pos hdl]
        have h5 : readArr R m "byte_enable" 8 9 = some (prefixBytes x.byteEnable x.byteEnableLength, []) := by
          subst hm
          obtain ⟨a1, a2⟩ := bytesJson_read R b
          simp only [readArr, member, List.find?, Option.map, String.reduceBEq, bytesJson]
          rw [List.length_map, a1, a2, hbp]
        have h6 : readBeLength R m = some (x.byteEnableLength, []) := by
          subst hm
          simp only [readBeLength, member, List.find?, Option.map, String.reduceBEq, bytesJson, if_pos h.beLength]
          rw [List.length_map, if_pos hbl]
        have h7 : readSw R m = some (x.sw, []) := by
          subst hm
          simp only [readSw, member, List.find?, Option.map, String.reduceBEq, if_pos h.sw]
        have h8 : readArr R m "expect" 12 13 = some (prefixBytes x.expect x.length, []) := by
          subst hm
          obtain ⟨a1, a2⟩ := bytesJson_read R e
          simp only [readArr, member, List.find?, Option.map, String.reduceBEq, bytesJson]
          rw [List.length_map, a1, a2, hep]
        have h9 : readExt R m = some ((back x).attr, []) := by
          subst hm
          simp only [readExt, member, List.find?, Option.map, String.reduceBEq, attrJson]
          exact readAttr_back R x h _ rfl
        unfold single
        simp only [h1, h2, h3, h4, h5, h6, h7, h8, h9, Option.bind_eq_bind, Option.bind_some, List.append_nil]
        rfl

/-- **What is written is read back**, without an error, but for four attributes. -/
theorem written_read_back_partial (R : Rand) (x : Xfer) (h : Fits x) (j : Json) (hj : serialize x = some j) :
    deserialize R (some j) = some { ok := true, dts := [back x], errs := [] } := by
  unfold serialize at hj
  cases hm : serializeMembers x with
  | none => rw [hm] at hj; cases hj
  | some m =>
    rw [hm] at hj
    cases hj
    simp only [deserialize, single_back R x h m hm, Option.map]

/-- **So are vectors of transfers**, in order. -/
theorem vector_read_back_partial (R : Rand) (xs : List Xfer) (h : ∀ x ∈ xs, Fits x) (j : Json) (hj : serializeVec xs = some j) :
    deserializeVec R (some j) = some { ok := true, dts := xs.map back, errs := [] } := by
  unfold serializeVec at hj
  cases hm : xs.mapM serializeMembers with
  | none => rw [hm] at hj; cases hj
  | some l =>
    rw [hm] at hj
    cases hj
    have key : ∀ (xs : List Xfer) (l : List (List (String × Json))), (∀ x ∈ xs, Fits x) → xs.mapM serializeMembers = some l →
        entries R true (l.map .obj) = some { ok := true, dts := xs.map back, errs := [] } := by
      intro xs
      induction xs with
      | nil => intro l _ hl; simp only [List.mapM_nil, Option.pure_def, Option.some.injEq] at hl; subst hl; rfl
      | cons x xs ih =>
        intro l hx hl
        rw [List.mapM_cons] at hl
        cases hs : serializeMembers x with
        | none => rw [hs] at hl; cases hl
        | some m =>
          cases hr : xs.mapM serializeMembers with
          | none => rw [hs, hr] at hl; cases hl
          | some r =>
            rw [hs, hr] at hl
            cases hl
            simp only [List.map_cons, entries, single_back R x (hx x (by simp)) m hs,
              ih r (fun y hy => hx y (by simp [hy])) hr, Option.bind_eq_bind, Option.bind_some, List.append_nil]
    simp only [deserializeVec, member, List.find?, Option.map, String.reduceBEq]
    exact key xs l h hm

/-- A write with an expectation, as an example. -/
def sample : Xfer where
  addr := 0x1000
  cmd := 1
  data := some [0xde, 0xad]
  length := 2
  byteEnable := some [0xff]
  byteEnableLength := 1
  sw := 2
  expect := some [0xde, 0xad]
  attr := { enabled := true, masterId := 77, secure := true, qos := 3, region := 5, snoop := 9 }

example : Fits sample ∧ (serialize sample).isSome = true ∧ (serializeVec [sample, sample]).isSome = true :=
  ⟨⟨by decide, by decide, by decide, by decide, by decide, by decide, by decide, by decide, by decide, by decide⟩, by decide, by decide⟩

/-- **The attributes not written are lost.** -/
theorem snoop_lost (R : Rand) : ∃ x j p, Fits x ∧ serialize x = some j ∧ deserialize R (some j) = some { ok := true, dts := [p], errs := [] } ∧
    x.attr.snoop = 9 ∧ p.attr.snoop = 0 := by
  have hf : Fits sample := ⟨by decide, by decide, by decide, by decide, by decide, by decide, by decide, by decide, by decide, by decide⟩
  cases hj : serialize sample with
  | none => exact absurd hj (by unfold serialize; intro h; cases h)
  | some j => exact ⟨sample, j, back sample, hf, hj, written_read_back_partial R sample hf j hj, rfl, rfl⟩

/-- **Writing a transfer without data or without an expectation is undefined**: any plain
write or read is one. -/
theorem plain_transfer_undefined (x : Xfer) (hn : x.length ≠ 0) (h : x.data = none ∨ x.expect = none) : serialize x = none := by
  unfold serialize serializeMembers
  rcases h with h | h
  · rw [h]
    simp only [bytes, if_neg hn, Option.map]
  · rw [h]
    simp only [bytes, if_neg hn]
    split
    · contradiction
    · rfl

example : ∃ x : Xfer, x.length ≠ 0 ∧ (x.data = none ∨ x.expect = none) :=
  ⟨{ sample with expect := none }, by decide, .inr rfl⟩

/-! ## Booleans as text -/

/-- **The words true and false, in upper or lower case and with blanks around, are read as
such**, and another word as nothing. -/
theorem bool_text (R : Rand) (a t b : List Char) (ha : ∀ c ∈ a, isBlank c = true) (hb : ∀ c ∈ b, isBlank c = true)
    (ht : ∀ c ∈ t, isBlank c = false ∧ c ≠ '@') (hn : t ≠ []) :
    (t.map Char.toLower = "true".toList → readBool R (a ++ t ++ b) = some (some true)) ∧
    (t.map Char.toLower = "false".toList → readBool R (a ++ t ++ b) = some (some false)) ∧
    ((t.map Char.toLower).take 4 ≠ "true".toList → (t.map Char.toLower).take 5 ≠ "false".toList → readBool R (a ++ t ++ b) = some none) := by
  have hs : a ++ t ++ b ≠ [] := by
    intro h
    exact hn (List.append_eq_nil_iff.1 (List.append_eq_nil_iff.1 h).1).2
  have hp : policy (a ++ t ++ b) = .string := by
    rw [List.append_assoc]
    refine policy_string ha (fun h => hn (List.append_eq_nil_iff.1 h).1) ?_
    cases t with
    | nil => exact absurd rfl hn
    | cons x t =>
      intro c hc
      simp only [List.cons_append, List.head?_cons, Option.mem_def, Option.some.injEq] at hc
      subst hc
      exact ht _ (by simp)
  have htr : trim (a ++ t ++ b) = t := trim_pad ha hb (fun c hc => (ht c hc).1) hn
  have hpre : ∀ w l : List Char, w.isPrefixOf l = true ↔ l.take w.length = w := by
    intro w l
    rw [List.isPrefixOf_iff_prefix, List.prefix_iff_eq_take]
    exact eq_comm
  unfold readBool
  rw [if_neg hs, hp]
  simp only [htr, startsWith, hpre]
  refine ⟨fun h => ?_, fun h => ?_, fun h1 h2 => ?_⟩
  · rw [h, if_pos (by decide)]
  · rw [h, if_neg (by decide), if_pos (by decide)]
  · rw [if_neg (by exact h1), if_neg (by exact h2)]

example (R : Rand) : readBool R " True ".toList = some (some true) ∧ readBool R "FALSE".toList = some (some false) := by
  have hb : ∀ c ∈ [' '], isBlank c = true := by decide
  refine ⟨(bool_text R [' '] "True".toList [' '] hb hb (by decide) (by decide)).1 (by decide), ?_⟩
  exact (bool_text R [] "FALSE".toList [] (by simp) (by simp) (by decide) (by decide)).2.1 (by decide)

end Verif.TgConf
