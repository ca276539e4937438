import Verif.TgConf.Errors
/-! # Configuration files: where the parser does not do what it says -/

namespace Verif.TgConf
open Verif Verif.TgTlm

/-- An entry to vary. -/
def entry : List (String × Json) :=
  [("addr", .str "0x1000".toList), ("cmd", .str "w".toList), ("data", .arr [.str "1".toList, .str "2".toList]), ("length", .num 2),
   ("byte_enable", .arr []), ("byte_enable_length", .num 0), ("streaming_width", .num 2), ("expect", .arr []),
   ("ext", .obj [("gen_attr", attrJson {})])]

/-- The entry with a member replaced. -/
def entryWith (k : String) (j : Json) : List (String × Json) := entry.map (fun p => if p.1 = k then (k, j) else p)

def entryWithout (k : String) : List (String × Json) := entry.filter (fun p => p.1 ≠ k)

def R0 : Rand where
  params := fun _ p => p
  next := fun _ i => i
  time := 0

/-- The entry is complete. -/
example : ∃ r, deserialize R0 (some (.obj entry)) = some r ∧ r.ok = true ∧ r.lastError = 0 ∧
    r.dts.map Parsed.data = [some [some 1, some 2]] ∧ r.dts.map Parsed.addr = [0x1000] :=
  ⟨_, rfl, by decide +kernel⟩

/-- **Numbers in byte arrays are read wrongly**: written in hexadecimal and read as decimal,
only those below ten come out right. -/
theorem array_number_wrong (R : Rand) (n : Nat) (hn : n < 256) :
    readBytes R 1 (arrString [.num n]).1 = some (some [some (BitVec.ofNat 8 n)]) ↔ n < 10 := by
  have key : ∀ n : Fin 256, policy (arrString [.num n.val]).1 = .string ∧
      (fill 1 (splitOn ',' [] (arrString [.num n.val]).1) = [some (BitVec.ofNat 8 n.val)] ↔ n.val < 10) ∧ (arrString [.num n.val]).1 ≠ [] := by
    decide +kernel
  obtain ⟨h1, h2, h3⟩ := key ⟨n, hn⟩
  unfold readBytes
  rw [if_neg (by rintro (h | h); exact h3 h; cases h), h1]
  simp only [Option.some.injEq]
  exact h2

/-- For one: `[16]` is read as the byte 10, with no error, and `[255]` leaves the byte as
allocated. -/
theorem array_number_examples :
    (∃ r, deserialize R0 (some (.obj (entryWith "data" (.arr [.num 16, .num 26])))) = some r ∧ r.ok = true ∧ r.lastError = 0 ∧
      r.dts.map Parsed.data = [some [some 10, some 1]]) ∧
    ∃ r, deserialize R0 (some (.obj (entryWith "data" (.arr [.num 255, .num 1])))) = some r ∧ r.ok = true ∧ r.lastError = 0 ∧
      r.dts.map Parsed.data = [some [none, none]] :=
  ⟨⟨_, rfl, by decide +kernel⟩, ⟨_, rfl, by decide +kernel⟩⟩

/-- **A malformed number is taken as zero, or as what it begins with, and no error is
set.** -/
theorem malformed_number_accepted :
    (∃ r, deserialize R0 (some (.obj (entryWith "addr" (.str "ff00".toList)))) = some r ∧ r.ok = true ∧ r.lastError = 0 ∧
      r.dts.map Parsed.addr = [0]) ∧
    (∃ r, deserialize R0 (some (.obj (entryWith "addr" (.str "12x4".toList)))) = some r ∧ r.ok = true ∧ r.lastError = 0 ∧
      r.dts.map Parsed.addr = [1]) ∧
    ∃ r, deserialize R0 (some (.obj (entryWith "addr" (.str "0x10 or so".toList)))) = some r ∧ r.ok = true ∧ r.lastError = 0 ∧
      r.dts.map Parsed.addr = [16] :=
  ⟨⟨_, rfl, by decide +kernel⟩, ⟨_, rfl, by decide +kernel⟩, ⟨_, rfl, by decide +kernel⟩⟩

/-- **An unknown command is a read**, and the call succeeds. -/
theorem unknown_command_reads :
    ∃ r, deserialize R0 (some (.obj (entryWith "cmd" (.str "write".toList)))) = some r ∧ r.ok = true ∧ r.lastError = 61 ∧
      r.dts.map Parsed.cmd = [0] :=
  ⟨_, rfl, by decide +kernel⟩

/-- **A whole object of nonsense succeeds**: an object without any member gives a transfer of
zeros. -/
theorem empty_object_accepted (R : Rand) : ∃ r, deserialize R (some (.obj [])) = some r ∧ r.ok = true ∧ r.dts.length = 1 :=
  ⟨_, rfl, rfl, rfl⟩

/-- **A streaming width as a text is not read** unless the length of the byte enables is a
text too. -/
theorem width_text_ignored :
    (∃ r, deserialize R0 (some (.obj (entryWith "streaming_width" (.str "2".toList)))) = some r ∧ r.ok = true ∧ r.lastError = 31 ∧
      r.dts.map Parsed.sw = [0]) ∧
    deserialize R0 (some (.obj ((entryWithout "byte_enable_length").map (fun p => if p.1 = "streaming_width" then (p.1, .str "2".toList) else p)))) = none :=
  ⟨⟨_, rfl, by decide +kernel⟩, rfl⟩

/-- **A length of byte enables without byte enables is undefined**, and so is a length with
data that is not an array. -/
theorem lengths_undefined :
    deserialize R0 (some (.obj (entryWithout "byte_enable"))) = none ∧
    deserialize R0 (some (.obj (entryWith "data" (.str "1, 2".toList)))) = none :=
  ⟨rfl, rfl⟩

/-- **A bad entry in a vector goes unnoticed** in the result if a good one follows. -/
theorem bad_entry_masked :
    ∃ r, deserializeVec R0 (some (.obj [("dataTransfers", .arr [.num 1, .obj entry])])) = some r ∧ r.ok = true ∧ r.dts.length = 1 ∧
      r.lastError = 24 :=
  ⟨_, rfl, by decide +kernel⟩

/-- **A quality of service too large is cut**, and no error is set. -/
theorem qos_cut : ∃ r, deserialize R0 (some (.obj (entryWith "ext" (.obj [("gen_attr", attrJson { qos := 257 })])))) = some r ∧
    r.ok = true ∧ r.lastError = 0 ∧ r.dts.map (fun p => p.attr.qos) = [1] :=
  ⟨_, rfl, by decide +kernel⟩

/-! ## Random values -/

/-- **A random value lies from the lower bound on, and as far above as the upper bound
says**: the upper bound bounds the distance. -/
theorem draw_range (R : Rand) (p : Params) (i v : Nat) (h : draw R p i = some v) (hf : p.lBound + p.uBound ≤ 2 ^ 64) :
    p.lBound ≤ v ∧ v < p.lBound + p.uBound := by
  unfold draw at h
  by_cases hu : p.uBound = 0
  · rw [if_pos hu] at h; cases h
  · rw [if_neg hu] at h
    have := Nat.mod_lt (R.next (p.seed % 2 ^ 32) i) (Nat.pos_of_ne_zero hu)
    cases h
    rw [Nat.mod_eq_of_lt (by omega)]
    omega

/-- **With a lower bound, the upper one can be exceeded.** -/
theorem above_upper_bound : ∃ (R : Rand) (p : Params) (v : Nat), p.lBound ≤ p.uBound ∧ draw R p 0 = some v ∧ p.uBound < v :=
  ⟨{ R0 with next := fun _ _ => 15 }, { seed := 0, size := 0, lBound := 10, uBound := 20 }, 25, by decide, by decide, by decide⟩

/-- **Without one, the upper bound itself is never drawn.** -/
theorem upper_bound_never (R : Rand) (p : Params) (i v : Nat) (h : draw R p i = some v) (h0 : p.lBound = 0) (hu : p.uBound < 2 ^ 64) : v ≠ p.uBound := by
  have := draw_range R p i v h (by omega)
  omega

/-- **A random boolean without bounds is always false.** -/
theorem random_bool_false (R : Rand) (s : List Char) (hp : policy s = .random) (hl : hasList s = true)
    (hd : R.params s { seed := R.time, size := 0, lBound := 0, uBound := 1 } = { seed := R.time, size := 0, lBound := 0, uBound := 1 }) :
    readBool R s = some (some false) := by
  unfold readBool
  by_cases hs : s = []
  · subst hs; cases hp
  · rw [if_neg hs, hp]
    simp only
    rw [if_pos hl, hd]
    simp only [draw]
    rw [if_neg (by decide)]
    simp [Nat.mod_one]

example : policy "@Random()".toList = .random ∧ hasList "@Random()".toList = true := by decide

/-- **Random data without a size writes no byte**, and with one no more than the array has
elements. -/
theorem random_data (R : Rand) (n : Nat) (s : List Char) (p : Params) (hn : n ≠ 0) (hp : policy s = .random) (hl : hasList s = true)
    (hd : R.params s { seed := R.time, size := 0, lBound := 0, uBound := 0xff } = p) (hu : p.uBound ≠ 0) :
    ∃ l, readBytes R n s = some (some l) ∧ l.length = n ∧ ∀ i b, l[i]? = some (some b) → i < p.size := by
  unfold readBytes
  have hs : s ≠ [] := by intro h; subst h; cases hp
  rw [if_neg (by rintro (h | h); exact hs h; exact hn h), hp]
  simp only
  rw [if_pos hl, hd]
  unfold randFill
  rw [if_neg (fun h => hu h.2)]
  refine ⟨_, rfl, by simp, ?_⟩
  intro i b hi
  rw [List.getElem?_map] at hi
  cases hr : (List.range n)[i]? with
  | none => rw [hr] at hi; cases hi
  | some k =>
    rw [hr] at hi
    have hk : k = i := by
      have := List.getElem?_eq_some_iff.1 hr
      obtain ⟨h1, h2⟩ := this
      rw [List.getElem_range] at h2
      exact h2.symm
    subst hk
    simp only [Option.map, Option.some.injEq] at hi
    by_cases hk : k < min p.size n
    · omega
    · rw [if_neg hk] at hi; cases hi

/-- **A blank before the parenthesis** is allowed by the pattern and then not found. -/
theorem random_blank_fails (R : Rand) : readNum R .u32 "@Random (seed = 1)".toList = some none := by
  have h1 : policy "@Random (seed = 1)".toList = .random := by decide +kernel
  have h2 : hasList "@Random (seed = 1)".toList = false := by decide +kernel
  unfold readNum
  rw [if_neg (by decide), h1]
  simp only
  rw [h2]
  rfl

/-- **An upper bound of zero divides by zero.** -/
theorem random_zero_bound (R : Rand) (p : Params) (i : Nat) (h : p.uBound = 0) : draw R p i = none := if_pos h

/-! ## Descriptions -/

/-- **Descriptions are of the right error up to code 20 only**; for the last two codes the
table is read past its end. -/
theorem descriptions : (∀ e ∈ List.range 64, describe e = some e ↔ e ≤ 20) ∧ describe 62 = none ∧ describe 63 = none := by
  decide +kernel

end Verif.TgConf
