import Verif.TgConf.Spec
/-! # Numbers and arrays of bytes in texts -/

namespace Verif.TgConf
open Verif Verif.TgTlm

/-! ## Digits -/

theorem digit_all : ∀ d : Fin 16, ∀ c ∈ "0123456789abcdef".toList[d.val]?.toList ++ "0123456789ABCDEF".toList[d.val]?.toList,
    digit c = some d.val ∧ isBlank c = false ∧ c ≠ ',' ∧ c ≠ '@' ∧ isX c = false ∧ (d.val < 10 → isDec c = true) := by
  decide +kernel

theorem digit_facts {b : Nat} (hb : b ≤ 16) {c : Char} {d : Nat} (h : Digit b c d) :
    digit c = some d ∧ isBlank c = false ∧ c ≠ ',' ∧ c ≠ '@' ∧ isX c = false ∧ (d < 10 → isDec c = true) := by
  have := digit_all ⟨d, by have := h.1; omega⟩ c (by
    rcases h.2 with h | h <;> simp only [h, Option.toList_some, List.mem_append, List.mem_singleton, or_true, true_or])
  exact this

theorem reads_foldl {b : Nat} (hb : b ≤ 16) {t : List Char} {n : Nat} (h : Reads b t n) :
    t.foldl (fun a c => a * b + (digit c).getD 0) 0 = n := by
  induction h with
  | one hd => simp [(digit_facts hb hd).1]
  | more _ hd ih => rw [List.foldl_append, ih]; simp [(digit_facts hb hd).1]

theorem reads_chars {b : Nat} (hb : b ≤ 16) {t : List Char} {n : Nat} (h : Reads b t n) :
    t ≠ [] ∧ ∀ c ∈ t, isHex c = true ∧ isBlank c = false ∧ c ≠ ',' ∧ c ≠ '@' ∧ isX c = false ∧ (b ≤ 10 → isDec c = true) := by
  have one : ∀ {c : Char} {d : Nat}, Digit b c d → isHex c = true ∧ isBlank c = false ∧ c ≠ ',' ∧ c ≠ '@' ∧ isX c = false ∧ (b ≤ 10 → isDec c = true) := by
    intro c d hd
    obtain ⟨h1, h2, h3, h4, h5, h6⟩ := digit_facts hb hd
    exact ⟨by simp [isHex, h1], h2, h3, h4, h5, fun h => h6 (by have := hd.1; omega)⟩
  induction h with
  | one hd =>
    refine ⟨by simp, fun c hc => ?_⟩
    rw [List.mem_singleton] at hc
    subst hc
    exact one hd
  | more _ hd ih =>
    refine ⟨by simp, fun c hc => ?_⟩
    rcases List.mem_append.1 hc with hc | hc
    · exact ih.2 c hc
    · rw [List.mem_singleton] at hc
      subst hc
      exact one hd

theorem digitChar_digit : ∀ d : Fin 16, "0123456789abcdef".toList[d.val]? = some (Nat.digitChar d.val) := by decide +kernel

/-- What `std::hex` prints stands for the number. -/
theorem reads_hex (n : Nat) : Reads 16 (hex n) n := by
  induction n using Nat.strongRecOn with
  | ind n ih =>
    unfold hex
    rw [Nat.toDigits_eq_if (by omega)]
    by_cases hn : n < 16
    · rw [if_pos hn]
      exact .one ⟨hn, .inl (digitChar_digit ⟨n, hn⟩)⟩
    · rw [if_neg hn]
      have h := ih (n / 16) (Nat.div_lt_self (by omega) (by omega))
      have hd : Digit 16 (Nat.digitChar (n % 16)) (n % 16) :=
        ⟨Nat.mod_lt _ (by omega), .inl (digitChar_digit ⟨n % 16, Nat.mod_lt _ (by omega)⟩)⟩
      have := Reads.more h hd
      rw [show n / 16 * 16 + n % 16 = n by omega] at this
      exact this

theorem reads_dec (n : Nat) : Reads 10 (Nat.toDigits 10 n) n := by
  induction n using Nat.strongRecOn with
  | ind n ih =>
    rw [Nat.toDigits_eq_if (by omega)]
    by_cases hn : n < 10
    · rw [if_pos hn]
      exact .one ⟨hn, .inl (digitChar_digit ⟨n, by omega⟩)⟩
    · rw [if_neg hn]
      have h := ih (n / 10) (Nat.div_lt_self (by omega) (by omega))
      have hd : Digit 10 (Nat.digitChar (n % 10)) (n % 10) :=
        ⟨Nat.mod_lt _ (by omega), .inl (digitChar_digit ⟨n % 10, by omega⟩)⟩
      have := Reads.more h hd
      rw [show n / 10 * 10 + n % 10 = n by omega] at this
      exact this

/-! ## Blanks -/

theorem blank_iff {c : Char} : isBlank c = true ↔ c = ' ' ∨ c = '\t' := by
  simp [isBlank]

theorem dropWhile_blanks {a : List Char} (h : ∀ c ∈ a, isBlank c = true) (t : List Char) :
    (a ++ t).dropWhile isBlank = t.dropWhile isBlank := by
  induction a with
  | nil => rfl
  | cons c r ih =>
    rw [List.cons_append, List.dropWhile_cons_of_pos (h c (List.mem_cons_self ..))]
    exact ih (fun c hc => h c (List.mem_cons_of_mem _ hc))

theorem dropWhile_none {p : Char → Bool} {t : List Char} (h : ∀ c ∈ t, p c = false) : t.dropWhile p = t := by
  cases t with
  | nil => rfl
  | cons c r => rw [List.dropWhile_cons_of_neg (by rw [h c (List.mem_cons_self ..)]; simp)]

theorem takeWhile_all {p : Char → Bool} {t : List Char} (h : ∀ c ∈ t, p c = true) : t.takeWhile p = t := by
  induction t with
  | nil => rfl
  | cons c r ih =>
    rw [List.takeWhile_cons_of_pos (h c (List.mem_cons_self ..)), ih (fun c hc => h c (List.mem_cons_of_mem _ hc))]

theorem dropWhile_all {p : Char → Bool} {t : List Char} (h : ∀ c ∈ t, p c = true) : t.dropWhile p = [] := by
  induction t with
  | nil => rfl
  | cons c r ih =>
    rw [List.dropWhile_cons_of_pos (h c (List.mem_cons_self ..)), ih (fun c hc => h c (List.mem_cons_of_mem _ hc))]

theorem trim_pad {a t b : List Char} (ha : ∀ c ∈ a, isBlank c = true) (hb : ∀ c ∈ b, isBlank c = true)
    (ht : ∀ c ∈ t, isBlank c = false) (hn : t ≠ []) : trim (a ++ t ++ b) = t := by
  unfold trim
  rw [List.append_assoc, dropWhile_blanks ha]
  have h1 : (t ++ b).dropWhile isBlank = t ++ b := by
    cases t with
    | nil => exact absurd rfl hn
    | cons c r => rw [List.cons_append, List.dropWhile_cons_of_neg (by rw [ht c (List.mem_cons_self ..)]; simp)]
  rw [h1, List.reverse_append, dropWhile_blanks (fun c hc => hb c (List.mem_reverse.1 hc)),
    dropWhile_none (fun c hc => ht c (List.mem_reverse.1 hc)), List.reverse_reverse]

/-! ## Numbers -/

theorem number_hex {x : Char} {u : List Char} {n : Nat} (hx : x = 'x' ∨ x = 'X') (h : Reads 16 u n) :
    number ('0' :: x :: u) = some (min n (2 ^ 64 - 1)) := by
  obtain ⟨hn, hc⟩ := reads_chars (Nat.le_refl _) h
  have htw := takeWhile_all (fun c h => (hc c h).1)
  have hxx : isX x = true := by rcases hx with rfl | rfl <;> rfl
  have hm : hexMatch ('0' :: x :: u) = some u := by
    simp only [hexMatch]
    rw [htw, if_pos ⟨trivial, hxx, hn⟩]
  unfold number
  rw [hm]
  simp only [strtoull]
  rw [reads_foldl (Nat.le_refl _) h]

theorem number_dec {t : List Char} {n : Nat} (h : Reads 10 t n) : number t = some (min n (2 ^ 64 - 1)) := by
  obtain ⟨hn, hc⟩ := reads_chars (by omega) h
  have hd : ∀ c ∈ t, isDec c = true := fun c h => (hc c h).2.2.2.2.2 (Nat.le_refl _)
  have hm : hexMatch t = none := by
    unfold hexMatch
    split
    · rename_i c x r
      rw [if_neg]
      rintro ⟨_, hx, _⟩
      rw [(hc x (by simp)).2.2.2.2.1] at hx
      cases hx
    · rfl
  unfold number
  rw [hm]
  have hdm : decMatch t = some t := by
    unfold decMatch
    rw [takeWhile_all hd, dropWhile_all hd]
    simp [hn]
  rw [hdm]
  simp only [strtoull]
  rw [reads_foldl (by omega) h]

/-- What is inside the blanks of a numeral. -/
theorem numeral_core {s : List Char} {n : Nat} (h : Numeral s n) : ∃ a t b, s = a ++ t ++ b ∧
    (∀ c ∈ a, isBlank c = true) ∧ (∀ c ∈ b, isBlank c = true) ∧ t ≠ [] ∧
    (∀ c ∈ t, isBlank c = false ∧ c ≠ ',' ∧ c ≠ '@') ∧ number t = some (min n (2 ^ 64 - 1)) := by
  obtain ⟨a, t, b, rfl, ha, hb, ht⟩ := h
  refine ⟨a, t, b, rfl, fun c hc => blank_iff.2 (ha c hc), fun c hc => blank_iff.2 (hb c hc), ?_⟩
  rcases ht with ht | ⟨x, u, rfl, hx, hu⟩
  · obtain ⟨hn, hc⟩ := reads_chars (by omega) ht
    exact ⟨hn, fun c h => ⟨(hc c h).2.1, (hc c h).2.2.1, (hc c h).2.2.2.1⟩, number_dec ht⟩
  · obtain ⟨hn, hc⟩ := reads_chars (Nat.le_refl _) hu
    refine ⟨by simp, fun c h => ?_, number_hex hx hu⟩
    rcases List.mem_cons.1 h with rfl | h
    · decide
    rcases List.mem_cons.1 h with rfl | h
    · rcases hx with rfl | rfl <;> decide
    · exact ⟨(hc c h).2.1, (hc c h).2.2.1, (hc c h).2.2.2.1⟩

/-- A text in which no `@` comes first is not annotated. -/
theorem policy_string {a t : List Char} (ha : ∀ c ∈ a, isBlank c = true) (hn : t ≠ [])
    (ht : ∀ c ∈ t.head?, isBlank c = false ∧ c ≠ '@') : policy (a ++ t) = .string := by
  cases t with
  | nil => exact absurd rfl hn
  | cons c r =>
    obtain ⟨h1, h2⟩ := ht c (by simp)
    have hd : (a ++ c :: r).dropWhile isBlank = c :: r := by
      rw [dropWhile_blanks ha, List.dropWhile_cons_of_neg (by rw [h1]; simp)]
    have hx : ∀ name, name.head? = some '@' → annotated name (a ++ c :: r) = false := by
      intro name hname
      unfold annotated
      rw [hd]
      cases name with
      | nil => cases hname
      | cons e es =>
        cases hname
        have : List.isPrefixOf ('@' :: es) (c :: r) = false := by
          rw [List.isPrefixOf_cons_cons]
          have : ('@' == c) = false := by simpa using fun h => h2 h.symm
          rw [this]
          rfl
        simp only [this, Bool.false_and]
    unfold policy
    rw [hx _ (by decide), hx _ (by decide)]
    rfl

theorem head_mem {t b : List Char} (hn : t ≠ []) {c : Char} (h : c ∈ (t ++ b).head?) : c ∈ t := by
  cases t with
  | nil => exact absurd rfl hn
  | cons d r => cases h; exact List.mem_cons_self ..

/-- **A number in a text is read exactly**: decimal or hexadecimal, with blanks around, up
to what 64 bits hold. -/
theorem text_exact (R : Rand) (w : Width) (s : List Char) (n : Nat) (h : Numeral s n) :
    readNum R w s = some (some (min n (2 ^ 64 - 1) % 2 ^ w.bits)) := by
  obtain ⟨a, t, b, rfl, ha, hb, hn, hc, hv⟩ := numeral_core h
  unfold readNum
  have hp : policy (a ++ t ++ b) = .string := by
    rw [List.append_assoc]
    refine policy_string ha (by simp [hn]) ?_
    intro c hc'
    have := hc c (head_mem hn hc')
    exact ⟨this.1, this.2.2⟩
  rw [if_neg (by simp [hn]), hp]
  simp only
  rw [trim_pad ha hb (fun c h => (hc c h).1) hn, hv]
  rfl

/-- Numbers that fit are read as they are. -/
theorem text_exact_fits (R : Rand) (w : Width) (s : List Char) (n : Nat) (h : Numeral s n) (hn : n < 2 ^ w.bits) :
    readNum R w s = some (some n) := by
  have hw : 2 ^ w.bits ≤ 2 ^ 64 := by cases w <;> decide
  rw [text_exact R w s n h, Nat.min_eq_left (by omega), Nat.mod_eq_of_lt hn]

theorem numeral_hex (n : Nat) : Numeral (toHex n) n :=
  ⟨[], toHex n, [], by simp, by simp, by simp, .inr ⟨'x', hex n, rfl, .inl rfl, reads_hex n⟩⟩

theorem numeral_dec (n : Nat) : Numeral (Nat.toDigits 10 n) n :=
  ⟨[], _, [], by simp, by simp, by simp, .inl (reads_dec n)⟩

example : Numeral " 0x1F ".toList 31 :=
  ⟨[' '], ['0', 'x', '1', 'F'], [' '], by decide, by decide, by decide, .inr ⟨'x', ['1', 'F'], rfl, .inl rfl,
    Reads.more (t := ['1']) (n := 1) (c := 'F') (d := 15) (.one (b := 16) ⟨by decide, .inl (by decide)⟩) ⟨by decide, .inr (by decide)⟩⟩⟩

/-! ## Arrays -/

theorem splitOn_token {t : List Char} (h : ∀ c ∈ t, c ≠ ',') (acc r : List Char) :
    splitOn ',' acc (t ++ ',' :: r) = trim (acc.reverse ++ t) :: splitOn ',' [] r := by
  induction t generalizing acc with
  | nil => simp [splitOn]
  | cons c u ih =>
    rw [List.cons_append, splitOn, if_neg (h c (List.mem_cons_self ..)), ih (fun c hc => h c (List.mem_cons_of_mem _ hc))]
    simp

/-- The tokens of an array of texts. -/
theorem tokens (ss : List (List Char)) (hs : ∀ s ∈ ss, ∀ c ∈ s, c ≠ ',') (acc : List Char)
    (hacc : acc = [] ∨ acc = [' ']) (hne : ss ≠ []) :
    ∃ rest, splitOn ',' acc (arrString (ss.map .str)).1 = ss.map trim ++ rest := by
  induction ss generalizing acc with
  | nil => exact absurd rfl hne
  | cons s ss ih =>
    rw [List.map_cons]
    simp only [arrString]
    have hassoc : s ++ [',', ' '] ++ (arrString (ss.map .str)).1 = s ++ ',' :: (' ' :: (arrString (ss.map .str)).1) := by simp
    rw [hassoc, splitOn_token (hs s (List.mem_cons_self ..))]
    have htrim : trim (acc.reverse ++ s) = trim s := by
      rcases hacc with rfl | rfl
      · rfl
      · unfold trim
        rw [dropWhile_blanks (by decide)]
    rw [htrim, splitOn, if_neg (by decide)]
    by_cases hss : ss = []
    · subst hss
      exact ⟨_, rfl⟩
    · obtain ⟨rest, hr⟩ := ih (fun s h => hs s (List.mem_cons_of_mem _ h)) [' '] (.inr rfl) hss
      rw [hr]
      exact ⟨rest, rfl⟩

theorem fill_tokens {ts : List (List Char)} {ns : List Nat} (h : ts.map number = ns.map some) (rest : List (List Char)) :
    fill ts.length (ts ++ rest) = ns.map (fun n => some (BitVec.ofNat 8 n)) := by
  induction ts generalizing ns with
  | nil =>
    cases ns with
    | nil => rfl
    | cons _ _ => cases h
  | cons t ts ih =>
    cases ns with
    | nil => cases h
    | cons n ns =>
      simp only [List.map_cons, List.cons.injEq] at h
      simp only [List.length_cons, List.cons_append, fill, h.1, List.map_cons]
      rw [ih h.2]

/-- **An array of texts is read byte by byte.** -/
theorem array_exact (R : Rand) (es : List (List Char × Nat)) (hne : es ≠ [])
    (h : ∀ e ∈ es, Numeral e.1 e.2 ∧ e.2 < 2 ^ 64) :
    readBytes R es.length (arrString (es.map (fun e => .str e.1))).1 =
      some (some (es.map (fun e => some (BitVec.ofNat 8 e.2)))) := by
  have core := fun e he => numeral_core (h e he).1
  have hmap : es.map (fun e => Json.str e.1) = (es.map Prod.fst).map .str := by rw [List.map_map]; rfl
  rw [hmap]
  have hcomma : ∀ s ∈ es.map Prod.fst, ∀ c ∈ s, c ≠ ',' := by
    intro s hs c hc
    obtain ⟨e, he, rfl⟩ := List.mem_map.1 hs
    obtain ⟨a, t, b, hs', ha, hb, hn, ht, hv⟩ := core e he
    rw [hs'] at hc
    rcases List.mem_append.1 hc with hc | hc
    · rcases List.mem_append.1 hc with hc | hc
      · have := ha c hc
        rintro rfl
        exact absurd this (by decide)
      · exact (ht c hc).2.1
    · have := hb c hc
      rintro rfl
      exact absurd this (by decide)
  obtain ⟨rest, hr⟩ := tokens (es.map Prod.fst) hcomma [] (.inl rfl) (by simp [hne])
  have hnum : (es.map (fun e => trim e.1)).map number = (es.map Prod.snd).map some := by
    rw [List.map_map, List.map_map]
    refine List.map_congr_left ?_
    intro e he
    obtain ⟨a, t, b, hs', ha, hb, hn, ht, hv⟩ := core e he
    show number (trim e.1) = some e.2
    rw [hs', trim_pad ha hb (fun c h => (ht c h).1) hn, hv, Nat.min_eq_left (by have := (h e he).2; omega)]
  obtain ⟨e0, es0, rfl⟩ := List.exists_cons_of_ne_nil hne
  obtain ⟨a, t, b, hs', ha, hb, hn, ht, hv⟩ := core e0 (by simp)
  have hstr : (arrString (((e0 :: es0).map Prod.fst).map .str)).1 =
      a ++ (t ++ (b ++ [',', ' '] ++ (arrString ((es0.map Prod.fst).map .str)).1)) := by
    simp only [List.map_cons, arrString]
    rw [hs']
    simp [List.append_assoc]
  have hpol : policy (arrString (((e0 :: es0).map Prod.fst).map .str)).1 = .string := by
    rw [hstr]
    refine policy_string ha (by simp [hn]) ?_
    intro c hc'
    have := ht c (head_mem hn hc')
    exact ⟨this.1, this.2.2⟩
  unfold readBytes
  rw [if_neg (by rw [hstr]; simp [hn]), hpol]
  simp only
  rw [hr]
  have := fill_tokens hnum rest
  rw [List.length_map] at this
  rw [List.map_map]
  have he : (trim ∘ Prod.fst : List Char × Nat → List Char) = fun e => trim e.1 := rfl
  rw [he, this, List.map_map]
  rfl

theorem arrString_str (ss : List (List Char)) : (arrString (ss.map .str)).2 = [] := by
  induction ss with
  | nil => rfl
  | cons s ss ih => simpa only [List.map_cons, arrString] using ih

end Verif.TgConf
