import Verif.TgConf.Props
/-! # Configuration files: what is reported, and what is not -/

namespace Verif.TgConf
open Verif Verif.TgTlm

/-! ## No error exactly for complete entries -/

theorem attrNum_errs {R : Rand} {w : Width} {g : List (String × Json)} {k : String} {a b : Nat} {v : Nat} {e : List Nat}
    (ha : a ≠ 0) (hb : b ≠ 0) (h : attrNum R w g k a b = some (v, e)) :
    (e = [] ↔ Has g k (if w = .u64 then .num64 else .num32)) ∧ 0 ∉ e := by
  unfold attrNum at h
  unfold Has
  cases hk : member g k with
  | none => rw [hk] at h; cases h; exact ⟨⟨fun h => by (cases h), fun ⟨j, hj, _⟩ => by (cases hj)⟩, by simpa using Ne.symm ha⟩
  | some j =>
    rw [hk] at h
    have wrong : ∀ (x : Json), (∀ n, x ≠ .num n) → (∀ s, x ≠ .str s) →
        (([b] : List Nat) = [] ↔ ∃ j, some x = some j ∧ Kind.ok (if w = .u64 then .num64 else .num32) j) ∧ 0 ∉ ([b] : List Nat) := by
      intro x h1 h2
      refine ⟨⟨fun h => by (cases h), ?_⟩, by simpa using Ne.symm hb⟩
      rintro ⟨j, hj, hok⟩
      cases hj
      by_cases hw : w = .u64
      · rw [if_pos hw] at hok
        rcases hok with ⟨n, hn⟩ | ⟨s, hs⟩
        · exact absurd hn (h1 n)
        · exact absurd hs (h2 s)
      · rw [if_neg hw] at hok
        rcases hok with ⟨n, hn, _⟩ | ⟨s, hs⟩
        · exact absurd hn (h1 n)
        · exact absurd hs (h2 s)
    cases j with
    | num n =>
      simp only at h
      by_cases hw : w = .u64
      · rw [if_pos hw] at h ⊢
        cases h
        exact ⟨⟨fun _ => ⟨_, rfl, .inl ⟨_, rfl⟩⟩, fun _ => rfl⟩, by simp⟩
      · rw [if_neg hw] at h ⊢
        by_cases hn : n < 2 ^ 32
        · rw [if_pos hn] at h
          cases h
          exact ⟨⟨fun _ => ⟨_, rfl, .inl ⟨n, rfl, hn⟩⟩, fun _ => rfl⟩, by simp⟩
        · rw [if_neg hn] at h
          cases h
          refine ⟨⟨fun h => by (cases h), ?_⟩, by simpa using Ne.symm hb⟩
          rintro ⟨j, hj, hok⟩
          cases hj
          rcases hok with ⟨n', hn', hl⟩ | ⟨s, hs⟩
          · cases hn'; exact absurd hl hn
          · cases hs
    | str s =>
      simp only at h
      cases hr : readNum R w s with
      | none => rw [hr] at h; cases h
      | some o =>
        rw [hr] at h
        cases h
        refine ⟨⟨fun _ => ⟨_, rfl, ?_⟩, fun _ => rfl⟩, by simp⟩
        by_cases hw : w = .u64
        · rw [if_pos hw]; exact .inr ⟨s, rfl⟩
        · rw [if_neg hw]; exact .inr ⟨s, rfl⟩
    | null => cases h; exact wrong _ (fun _ h => by (cases h)) (fun _ h => by (cases h))
    | bool _ => cases h; exact wrong _ (fun _ h => by (cases h)) (fun _ h => by (cases h))
    | other => cases h; exact wrong _ (fun _ h => by (cases h)) (fun _ h => by (cases h))
    | arr _ => cases h; exact wrong _ (fun _ h => by (cases h)) (fun _ h => by (cases h))
    | obj _ => cases h; exact wrong _ (fun _ h => by (cases h)) (fun _ h => by (cases h))

theorem attrBool_errs {R : Rand} {g : List (String × Json)} {k : String} {a b : Nat} {v : Bool} {e : List Nat}
    (ha : a ≠ 0) (hb : b ≠ 0) (h : attrBool R g k a b = some (v, e)) :
    (e = [] ↔ Has g k .bool) ∧ 0 ∉ e := by
  unfold attrBool at h
  unfold Has
  cases hk : member g k with
  | none => rw [hk] at h; cases h; exact ⟨⟨fun h => by (cases h), fun ⟨j, hj, _⟩ => by (cases hj)⟩, by simpa using Ne.symm ha⟩
  | some j =>
    rw [hk] at h
    have wrong : ∀ (x : Json), (∀ n, x ≠ .bool n) → (∀ s, x ≠ .str s) →
        (([b] : List Nat) = [] ↔ ∃ j, some x = some j ∧ Kind.ok .bool j) ∧ 0 ∉ ([b] : List Nat) := by
      intro x h1 h2
      refine ⟨⟨fun h => by (cases h), ?_⟩, by simpa using Ne.symm hb⟩
      rintro ⟨j, hj, hok⟩
      cases hj
      rcases hok with ⟨n, hn⟩ | ⟨s, hs⟩
      · exact absurd hn (h1 n)
      · exact absurd hs (h2 s)
    cases j with
    | bool c => cases h; exact ⟨⟨fun _ => ⟨_, rfl, .inl ⟨_, rfl⟩⟩, fun _ => rfl⟩, by simp⟩
    | str s =>
      simp only at h
      cases hr : readBool R s with
      | none => rw [hr] at h; cases h
      | some o => rw [hr] at h; cases h; exact ⟨⟨fun _ => ⟨_, rfl, .inr ⟨s, rfl⟩⟩, fun _ => rfl⟩, by simp⟩
    | null => cases h; exact wrong _ (fun _ h => by (cases h)) (fun _ h => by (cases h))
    | num _ => cases h; exact wrong _ (fun _ h => by (cases h)) (fun _ h => by (cases h))
    | other => cases h; exact wrong _ (fun _ h => by (cases h)) (fun _ h => by (cases h))
    | arr _ => cases h; exact wrong _ (fun _ h => by (cases h)) (fun _ h => by (cases h))
    | obj _ => cases h; exact wrong _ (fun _ h => by (cases h)) (fun _ h => by (cases h))

/-- The attributes as listed in `Complete`. -/
def AttrsComplete (g : List (String × Json)) : Prop :=
  ∀ p ∈ [("enabled", Kind.bool), ("master_id", .num64), ("secure", .bool), ("eop", .bool), ("wrap", .bool),
      ("burst_width", .num32), ("transaction_id", .num32), ("exclusive", .bool), ("locked", .bool), ("bufferable", .bool),
      ("modifiable", .bool), ("read_allocate", .bool), ("write_allocate", .bool), ("qos", .num32), ("region", .num32)], Has g p.1 p.2

theorem readAttr_errs {R : Rand} {g : List (String × Json)} {a : Attr} {e : List Nat} (h : readAttr R g = some (a, e)) :
    (e = [] ↔ AttrsComplete g) ∧ 0 ∉ e := by
  unfold readAttr at h
  simp only [Option.bind_eq_bind, Option.bind_eq_some_iff, Prod.exists, Option.some.injEq, Prod.mk.injEq] at h
  obtain ⟨_, e1, h1, _, e2, h2, _, e3, h3, _, e4, h4, _, e5, h5, _, e6, h6, _, e7, h7, _, e8, h8, _, e9, h9, _, e10, h10,
    _, e11, h11, _, e12, h12, _, e13, h13, _, e14, h14, _, e15, h15, _, e16, h16, _, rfl⟩ := h
  obtain ⟨a1, b1⟩ := attrBool_errs (by decide) (by decide) h1
  obtain ⟨a2, b2⟩ := attrNum_errs (by decide) (by decide) h2
  obtain ⟨a3, b3⟩ := attrBool_errs (by decide) (by decide) h3
  obtain ⟨a4, b4⟩ := attrBool_errs (by decide) (by decide) h4
  obtain ⟨a5, b5⟩ := attrBool_errs (by decide) (by decide) h5
  obtain ⟨a6, b6⟩ := attrBool_errs (by decide) (by decide) h6
  obtain ⟨a7, b7⟩ := attrNum_errs (by decide) (by decide) h7
  obtain ⟨a8, b8⟩ := attrNum_errs (by decide) (by decide) h8
  obtain ⟨a9, b9⟩ := attrBool_errs (by decide) (by decide) h9
  obtain ⟨a10, b10⟩ := attrBool_errs (by decide) (by decide) h10
  obtain ⟨a11, b11⟩ := attrBool_errs (by decide) (by decide) h11
  obtain ⟨a12, b12⟩ := attrBool_errs (by decide) (by decide) h12
  obtain ⟨a13, b13⟩ := attrBool_errs (by decide) (by decide) h13
  obtain ⟨a14, b14⟩ := attrBool_errs (by decide) (by decide) h14
  obtain ⟨a15, b15⟩ := attrNum_errs (by decide) (by decide) h15
  obtain ⟨a16, b16⟩ := attrNum_errs (by decide) (by decide) h16
  simp only [reduceCtorEq, if_false, if_true] at a2 a7 a8 a15 a16
  constructor
  · simp only [List.append_eq_nil_iff, a1, a2, a3, a4, a5, a6, a7, a8, a9, a10, a11, a12, a13, a14, a15, a16,
      AttrsComplete, List.forall_mem_cons, List.not_mem_nil, false_implies, implies_true, and_true]
    constructor
    · rintro ⟨⟨⟨⟨⟨⟨⟨⟨⟨⟨⟨⟨⟨⟨⟨c1, c2⟩, c3⟩, c4⟩, c5⟩, c6⟩, c7⟩, c8⟩, c9⟩, c10⟩, c11⟩, c12⟩, c13⟩, c14⟩, c15⟩, c16⟩
      exact ⟨c1, c2, c3, c5, c6, c7, c8, c9, c10, c11, c12, c13, c14, c15, c16⟩
    · rintro ⟨c1, c2, c3, c5, c6, c7, c8, c9, c10, c11, c12, c13, c14, c15, c16⟩
      exact ⟨⟨⟨⟨⟨⟨⟨⟨⟨⟨⟨⟨⟨⟨⟨c1, c2⟩, c3⟩, c3⟩, c5⟩, c6⟩, c7⟩, c8⟩, c9⟩, c10⟩, c11⟩, c12⟩, c13⟩, c14⟩, c15⟩, c16⟩
  · simp only [List.mem_append, not_or]
    exact ⟨⟨⟨⟨⟨⟨⟨⟨⟨⟨⟨⟨⟨⟨⟨b1, b2⟩, b3⟩, b4⟩, b5⟩, b6⟩, b7⟩, b8⟩, b9⟩, b10⟩, b11⟩, b12⟩, b13⟩, b14⟩, b15⟩, b16⟩

theorem readExt_errs {R : Rand} {m : List (String × Json)} {a : Attr} {e : List Nat} (h : readExt R m = some (a, e)) :
    (e = [] ↔ ∃ e' g, member m "ext" = some (.obj e') ∧ member e' "gen_attr" = some (.obj g) ∧ AttrsComplete g) ∧ 0 ∉ e := by
  unfold readExt at h
  cases hk : member m "ext" with
  | none => rw [hk] at h; cases h; exact ⟨⟨fun h => by (cases h), fun ⟨_, _, h, _⟩ => by (cases h)⟩, by decide⟩
  | some j =>
    rw [hk] at h
    cases j with
    | obj x =>
      simp only at h
      cases hg : member x "gen_attr" with
      | none =>
        rw [hg] at h; cases h
        refine ⟨⟨fun h => by (cases h), ?_⟩, by decide⟩
        rintro ⟨_, _, h, h', _⟩
        cases h
        rw [hg] at h'
        cases h'
      | some y =>
        rw [hg] at h
        have wrong : (∀ g, y ≠ .obj g) → (([17] : List Nat) = [] ↔ ∃ e' g, some (Json.obj x) = some (Json.obj e') ∧ member e' "gen_attr" = some (.obj g) ∧ AttrsComplete g) ∧ 0 ∉ ([17] : List Nat) := by
          intro hy
          refine ⟨⟨fun h => by (cases h), ?_⟩, by decide⟩
          rintro ⟨_, g, h, h', _⟩
          cases h
          rw [hg] at h'
          cases h'
          exact absurd rfl (hy g)
        cases y with
        | obj g =>
          obtain ⟨c1, c2⟩ := readAttr_errs h
          refine ⟨c1.trans ⟨fun hc => ⟨x, g, rfl, hg, hc⟩, ?_⟩, c2⟩
          rintro ⟨_, g', h, h', hc⟩
          cases h
          rw [hg] at h'
          cases h'
          exact hc
        | null => cases h; exact wrong (fun _ h => by (cases h))
        | bool _ => cases h; exact wrong (fun _ h => by (cases h))
        | num _ => cases h; exact wrong (fun _ h => by (cases h))
        | other => cases h; exact wrong (fun _ h => by (cases h))
        | str _ => cases h; exact wrong (fun _ h => by (cases h))
        | arr _ => cases h; exact wrong (fun _ h => by (cases h))
    | null => cases h; exact ⟨⟨fun h => by (cases h), fun ⟨_, _, h, _⟩ => by (cases h)⟩, by decide⟩
    | bool _ => cases h; exact ⟨⟨fun h => by (cases h), fun ⟨_, _, h, _⟩ => by (cases h)⟩, by decide⟩
    | num _ => cases h; exact ⟨⟨fun h => by (cases h), fun ⟨_, _, h, _⟩ => by (cases h)⟩, by decide⟩
    | other => cases h; exact ⟨⟨fun h => by (cases h), fun ⟨_, _, h, _⟩ => by (cases h)⟩, by decide⟩
    | str _ => cases h; exact ⟨⟨fun h => by (cases h), fun ⟨_, _, h, _⟩ => by (cases h)⟩, by decide⟩
    | arr _ => cases h; exact ⟨⟨fun h => by (cases h), fun ⟨_, _, h, _⟩ => by (cases h)⟩, by decide⟩

theorem readAddr_errs {R : Rand} {m : List (String × Json)} {v : Nat} {e : List Nat} (h : readAddr R m = some (v, e)) :
    (e = [] ↔ Has m "addr" .num64) ∧ 0 ∉ e := by
  have : readAddr R m = attrNum R .u64 m "addr" 3 25 := by
    unfold readAddr attrNum
    cases member m "addr" with
    | none => rfl
    | some j => cases j <;> rfl
  rw [this] at h
  exact attrNum_errs (by decide) (by decide) h

theorem readCmd_errs (m : List (String × Json)) : ((readCmd m).2 = [] ↔ Has m "cmd" .cmd) ∧ 0 ∉ (readCmd m).2 := by
  unfold readCmd Has
  cases hk : member m "cmd" with
  | none => exact ⟨⟨fun h => by (cases h), fun ⟨_, h, _⟩ => by (cases h)⟩, by decide⟩
  | some j =>
    have wrong : (∀ n, j ≠ .num n) → (∀ s, j ≠ .str s) → (([29] : List Nat) = [] ↔ ∃ j', some j = some j' ∧ Kind.ok .cmd j') ∧ 0 ∉ ([29] : List Nat) := by
      intro h1 h2
      refine ⟨⟨fun h => by (cases h), ?_⟩, by decide⟩
      rintro ⟨_, hj, hok⟩
      cases hj
      rcases hok with ⟨n, hn, _⟩ | ⟨c, hc, _⟩
      · exact absurd hn (h1 n)
      · exact absurd hc (h2 _)
    cases j with
    | str s =>
      simp only
      by_cases hw : s = ['W'] ∨ s = ['w']
      · rw [if_pos hw]
        refine ⟨⟨fun _ => ⟨_, rfl, .inr ?_⟩, fun _ => rfl⟩, by simp⟩
        rcases hw with rfl | rfl
        · exact ⟨'W', rfl, by decide⟩
        · exact ⟨'w', rfl, by decide⟩
      · rw [if_neg hw]
        by_cases hr : s = ['R'] ∨ s = ['r']
        · rw [if_pos hr]
          refine ⟨⟨fun _ => ⟨_, rfl, .inr ?_⟩, fun _ => rfl⟩, by simp⟩
          rcases hr with rfl | rfl
          · exact ⟨'R', rfl, by decide⟩
          · exact ⟨'r', rfl, by decide⟩
        · rw [if_neg hr]
          refine ⟨⟨fun h => by (cases h), ?_⟩, by decide⟩
          rintro ⟨_, hj, hok⟩
          cases hj
          rcases hok with ⟨n, hn, _⟩ | ⟨c, hc, hm⟩
          · cases hn
          · cases hc
            simp only [List.mem_cons, List.not_mem_nil, or_false] at hm
            rcases hm with rfl | rfl | rfl | rfl <;> simp at hw hr
    | num n =>
      simp only
      by_cases hn : n < 2 ^ 32
      · rw [if_pos hn]
        exact ⟨⟨fun _ => ⟨_, rfl, .inl ⟨n, rfl, hn⟩⟩, fun _ => rfl⟩, by simp⟩
      · rw [if_neg hn]
        refine ⟨⟨fun h => by (cases h), ?_⟩, by decide⟩
        rintro ⟨_, hj, hok⟩
        cases hj
        rcases hok with ⟨n', hn', hl⟩ | ⟨c, hc, _⟩
        · cases hn'; exact absurd hl hn
        · cases hc
    | null => exact wrong (fun _ h => by (cases h)) (fun _ h => by (cases h))
    | bool _ => exact wrong (fun _ h => by (cases h)) (fun _ h => by (cases h))
    | other => exact wrong (fun _ h => by (cases h)) (fun _ h => by (cases h))
    | arr _ => exact wrong (fun _ h => by (cases h)) (fun _ h => by (cases h))
    | obj _ => exact wrong (fun _ h => by (cases h)) (fun _ h => by (cases h))

theorem arrString_errs (l : List Json) :
    ((arrString l).2 = [] ↔ ∀ e ∈ l, (∃ n, e = .num n ∧ n < 2 ^ 32) ∨ ∃ s, e = .str s) ∧ 0 ∉ (arrString l).2 := by
  induction l with
  | nil => exact ⟨by simp [arrString], by simp [arrString]⟩
  | cons j r ih =>
    obtain ⟨i1, i2⟩ := ih
    rw [List.forall_mem_cons]
    have bad : (¬((∃ n, j = .num n ∧ n < 2 ^ 32) ∨ ∃ s, j = .str s)) → (26 :: (arrString r).2 = [] ↔
        ((∃ n, j = .num n ∧ n < 2 ^ 32) ∨ ∃ s, j = .str s) ∧ ∀ e ∈ r, (∃ n, e = .num n ∧ n < 2 ^ 32) ∨ ∃ s, e = .str s) ∧
        0 ∉ 26 :: (arrString r).2 := by
      intro h
      refine ⟨⟨fun h => by (cases h), fun h' => absurd h'.1 h⟩, ?_⟩
      simp only [List.mem_cons, not_or]
      exact ⟨by decide, i2⟩
    cases j with
    | str s =>
      simp only [arrString]
      exact ⟨i1.trans ⟨fun h => ⟨.inr ⟨s, rfl⟩, h⟩, fun h => h.2⟩, i2⟩
    | num n =>
      simp only [arrString]
      by_cases hn : n < 2 ^ 32
      · rw [if_pos hn]
        exact ⟨i1.trans ⟨fun h => ⟨.inl ⟨n, rfl, hn⟩, h⟩, fun h => h.2⟩, i2⟩
      · rw [if_neg hn]
        exact bad (by rintro (⟨_, h, h'⟩ | ⟨_, h⟩) <;> cases h; exact hn h')
    | null => exact bad (by rintro (⟨_, h, h'⟩ | ⟨_, h⟩) <;> cases h)
    | bool _ => exact bad (by rintro (⟨_, h, h'⟩ | ⟨_, h⟩) <;> cases h)
    | other => exact bad (by rintro (⟨_, h, h'⟩ | ⟨_, h⟩) <;> cases h)
    | arr _ => exact bad (by rintro (⟨_, h, h'⟩ | ⟨_, h⟩) <;> cases h)
    | obj _ => exact bad (by rintro (⟨_, h, h'⟩ | ⟨_, h⟩) <;> cases h)

theorem readArr_errs {R : Rand} {m : List (String × Json)} {k : String} {a b : Nat} {v : Option (List (Option Byte))} {e : List Nat}
    (ha : a ≠ 0) (hb : b ≠ 0) (h : readArr R m k a b = some (v, e)) : (e = [] ↔ Has m k .bytes) ∧ 0 ∉ e := by
  unfold readArr at h
  unfold Has
  cases hk : member m k with
  | none => rw [hk] at h; cases h; exact ⟨⟨fun h => by (cases h), fun ⟨_, h, _⟩ => by (cases h)⟩, by simpa using Ne.symm ha⟩
  | some j =>
    rw [hk] at h
    have wrong : (∀ l, j ≠ .arr l) → (([b] : List Nat) = [] ↔ ∃ j', some j = some j' ∧ Kind.ok .bytes j') ∧ 0 ∉ ([b] : List Nat) := by
      intro h1
      refine ⟨⟨fun h => by (cases h), ?_⟩, by simpa using Ne.symm hb⟩
      rintro ⟨_, hj, l, hl, _⟩
      cases hj
      exact absurd hl (h1 l)
    cases j with
    | arr l =>
      simp only at h
      cases hr : readBytes R l.length (arrString l).1 with
      | none => rw [hr] at h; cases h
      | some o =>
        rw [hr] at h
        cases h
        obtain ⟨c1, c2⟩ := arrString_errs l
        refine ⟨c1.trans ⟨fun h => ⟨_, rfl, l, rfl, h⟩, ?_⟩, c2⟩
        rintro ⟨_, hj, l', hl, hok⟩
        cases hj
        cases hl
        exact hok
    | null => cases h; exact wrong (fun _ h => by (cases h))
    | bool _ => cases h; exact wrong (fun _ h => by (cases h))
    | num _ => cases h; exact wrong (fun _ h => by (cases h))
    | other => cases h; exact wrong (fun _ h => by (cases h))
    | str _ => cases h; exact wrong (fun _ h => by (cases h))
    | obj _ => cases h; exact wrong (fun _ h => by (cases h))

theorem has_num32 {m : List (String × Json)} {k : String} {j : Json} (hk : member m k = some j) :
    Has m k .num32 ↔ (∃ n, j = .num n ∧ n < 2 ^ 32) ∨ ∃ s, j = .str s := by
  unfold Has
  rw [hk]
  constructor
  · rintro ⟨_, hj, hok⟩; cases hj; exact hok
  · exact fun h => ⟨_, rfl, h⟩

theorem readLength_errs {R : Rand} {m : List (String × Json)} {v : Nat} {e : List Nat} (h : readLength R m = some (v, e)) :
    (e = [] ↔ Has m "length" .num32 ∧
      ∀ n l, member m "length" = some (.num n) → member m "data" = some (.arr l) → l.length = n) ∧ 0 ∉ e := by
  unfold readLength at h
  cases hk : member m "length" with
  | none =>
    rw [hk] at h; cases h
    exact ⟨⟨fun h => by (cases h), fun ⟨⟨_, h, _⟩, _⟩ => by (rw [hk] at h; cases h)⟩, by decide⟩
  | some j =>
    rw [hk] at h
    have wrong : ¬((∃ n, j = .num n ∧ n < 2 ^ 32) ∨ ∃ s, j = .str s) → (([29] : List Nat) = [] ↔ Has m "length" .num32 ∧
      ∀ n l, some j = some (.num n) → member m "data" = some (.arr l) → l.length = n) ∧ 0 ∉ ([29] : List Nat) :=
      fun hn => ⟨⟨fun h => by (cases h), fun h => absurd ((has_num32 hk).1 h.1) hn⟩, by decide⟩
    cases j with
    | num n =>
      simp only at h
      by_cases hn : n < 2 ^ 32
      · rw [if_pos hn] at h
        have hh : Has m "length" .num32 := (has_num32 hk).2 (.inl ⟨n, rfl, hn⟩)
        cases hd : member m "data" with
        | none => rw [hd] at h; cases h; exact ⟨⟨fun _ => ⟨hh, fun _ _ _ h => by (cases h)⟩, fun _ => rfl⟩, by simp⟩
        | some d =>
          rw [hd] at h
          cases d with
          | arr a =>
            simp only [Option.some.injEq, Prod.mk.injEq] at h
            obtain ⟨rfl, rfl⟩ := h
            by_cases ha : a.length = n
            · rw [if_pos ha]
              exact ⟨⟨fun _ => ⟨hh, fun _ _ h1 h2 => by (cases h1; cases h2; exact ha)⟩, fun _ => rfl⟩, by simp⟩
            · rw [if_neg ha]
              exact ⟨⟨fun h => by (cases h), fun h => absurd (h.2 n a rfl rfl) ha⟩, by decide⟩
          | null => cases h
          | bool _ => cases h
          | num _ => cases h
          | other => cases h
          | str _ => cases h
          | obj _ => cases h
      · rw [if_neg hn] at h
        cases h
        exact wrong (by rintro (⟨_, h, h'⟩ | ⟨_, h⟩) <;> cases h; exact hn h')
    | str s =>
      simp only at h
      cases hr : readNum R .u32 s with
      | none => rw [hr] at h; cases h
      | some o =>
        rw [hr] at h; cases h
        exact ⟨⟨fun _ => ⟨(has_num32 hk).2 (.inr ⟨s, rfl⟩), fun _ _ h => by (cases h)⟩, fun _ => rfl⟩, by simp⟩
    | null => cases h; exact wrong (by rintro (⟨_, h, h'⟩ | ⟨_, h⟩) <;> cases h)
    | bool _ => cases h; exact wrong (by rintro (⟨_, h, h'⟩ | ⟨_, h⟩) <;> cases h)
    | other => cases h; exact wrong (by rintro (⟨_, h, h'⟩ | ⟨_, h⟩) <;> cases h)
    | arr _ => cases h; exact wrong (by rintro (⟨_, h, h'⟩ | ⟨_, h⟩) <;> cases h)
    | obj _ => cases h; exact wrong (by rintro (⟨_, h, h'⟩ | ⟨_, h⟩) <;> cases h)

theorem readBeLength_errs {R : Rand} {m : List (String × Json)} {v : Nat} {e : List Nat} (h : readBeLength R m = some (v, e)) :
    (e = [] ↔ Has m "byte_enable_length" .num32 ∧
      ∀ n l, member m "byte_enable_length" = some (.num n) → member m "byte_enable" = some (.arr l) → l.length = n) ∧ 0 ∉ e := by
  unfold readBeLength at h
  cases hk : member m "byte_enable_length" with
  | none =>
    rw [hk] at h; cases h
    exact ⟨⟨fun h => by (cases h), fun ⟨⟨_, h, _⟩, _⟩ => by (rw [hk] at h; cases h)⟩, by decide⟩
  | some j =>
    rw [hk] at h
    have wrong : ¬((∃ n, j = .num n ∧ n < 2 ^ 32) ∨ ∃ s, j = .str s) → (([30] : List Nat) = [] ↔ Has m "byte_enable_length" .num32 ∧
      ∀ n l, some j = some (.num n) → member m "byte_enable" = some (.arr l) → l.length = n) ∧ 0 ∉ ([30] : List Nat) :=
      fun hn => ⟨⟨fun h => by (cases h), fun h => absurd ((has_num32 hk).1 h.1) hn⟩, by decide⟩
    cases j with
    | num n =>
      simp only at h
      by_cases hn : n < 2 ^ 32
      · rw [if_pos hn] at h
        have hh : Has m "byte_enable_length" .num32 := (has_num32 hk).2 (.inl ⟨n, rfl, hn⟩)
        cases hd : member m "byte_enable" with
        | none => rw [hd] at h; cases h
        | some d =>
          rw [hd] at h
          cases d with
          | arr a =>
            simp only [Option.some.injEq, Prod.mk.injEq] at h
            obtain ⟨rfl, rfl⟩ := h
            by_cases ha : a.length = n
            · rw [if_pos ha]
              exact ⟨⟨fun _ => ⟨hh, fun _ _ h1 h2 => by (cases h1; cases h2; exact ha)⟩, fun _ => rfl⟩, by simp⟩
            · rw [if_neg ha]
              exact ⟨⟨fun h => by (cases h), fun h => absurd (h.2 n a rfl rfl) ha⟩, by decide⟩
          | null => cases h
          | bool _ => cases h
          | num _ => cases h
          | other => cases h
          | str _ => cases h
          | obj _ => cases h
      · rw [if_neg hn] at h
        cases h
        exact wrong (by rintro (⟨_, h, h'⟩ | ⟨_, h⟩) <;> cases h; exact hn h')
    | str s =>
      simp only at h
      cases hr : readNum R .u32 s with
      | none => rw [hr] at h; cases h
      | some o =>
        rw [hr] at h; cases h
        exact ⟨⟨fun _ => ⟨(has_num32 hk).2 (.inr ⟨s, rfl⟩), fun _ _ h => by (cases h)⟩, fun _ => rfl⟩, by simp⟩
    | null => cases h; exact wrong (by rintro (⟨_, h, h'⟩ | ⟨_, h⟩) <;> cases h)
    | bool _ => cases h; exact wrong (by rintro (⟨_, h, h'⟩ | ⟨_, h⟩) <;> cases h)
    | other => cases h; exact wrong (by rintro (⟨_, h, h'⟩ | ⟨_, h⟩) <;> cases h)
    | arr _ => cases h; exact wrong (by rintro (⟨_, h, h'⟩ | ⟨_, h⟩) <;> cases h)
    | obj _ => cases h; exact wrong (by rintro (⟨_, h, h'⟩ | ⟨_, h⟩) <;> cases h)

theorem readSw_errs {R : Rand} {m : List (String × Json)} {v : Nat} {e : List Nat} (h : readSw R m = some (v, e)) :
    (e = [] ↔ Has m "streaming_width" .num32 ∧
      ∀ s, member m "streaming_width" = some (.str s) → ∃ t, member m "byte_enable_length" = some (.str t)) ∧ 0 ∉ e := by
  unfold readSw at h
  cases hk : member m "streaming_width" with
  | none =>
    rw [hk] at h; cases h
    exact ⟨⟨fun h => by (cases h), fun ⟨⟨_, h, _⟩, _⟩ => by (rw [hk] at h; cases h)⟩, by decide⟩
  | some j =>
    rw [hk] at h
    have wrong : ¬((∃ n, j = .num n ∧ n < 2 ^ 32) ∨ ∃ s, j = .str s) →
        (match member m "byte_enable_length" with
          | none => none
          | some (.str _) => none
          | some _ => some (0, [31])) = some (v, e) →
        (e = [] ↔ Has m "streaming_width" .num32 ∧
          ∀ s, some j = some (.str s) → ∃ t, member m "byte_enable_length" = some (.str t)) ∧ 0 ∉ e := by
      intro hn he
      have : e = [31] := by
        split at he
        · cases he
        · cases he
        · cases he; rfl
      subst this
      exact ⟨⟨fun h => by (cases h), fun h => absurd ((has_num32 hk).1 h.1) hn⟩, by decide⟩
    cases j with
    | num n =>
      simp only at h
      by_cases hn : n < 2 ^ 32
      · rw [if_pos hn] at h
        cases h
        exact ⟨⟨fun _ => ⟨(has_num32 hk).2 (.inl ⟨_, rfl, hn⟩), fun _ h => by (cases h)⟩, fun _ => rfl⟩, by simp⟩
      · rw [if_neg hn] at h
        exact wrong (by rintro (⟨_, h, h'⟩ | ⟨_, h⟩) <;> cases h; exact hn h') h
    | str s =>
      simp only at h
      cases hb : member m "byte_enable_length" with
      | none => rw [hb] at h; cases h
      | some b =>
        rw [hb] at h
        have no : (∀ t, b ≠ .str t) → (([31] : List Nat) = [] ↔ Has m "streaming_width" .num32 ∧
            ∀ s', some (Json.str s) = some (.str s') → ∃ t, some b = some (.str t)) ∧ 0 ∉ ([31] : List Nat) := by
          intro hb'
          refine ⟨⟨fun h => by (cases h), fun h => ?_⟩, by decide⟩
          obtain ⟨t, ht⟩ := h.2 s rfl
          cases ht
          exact absurd rfl (hb' t)
        cases b with
        | str t =>
          simp only at h
          cases hr : readNum R .u32 s with
          | none => rw [hr] at h; cases h
          | some o =>
            rw [hr] at h; cases h
            exact ⟨⟨fun _ => ⟨(has_num32 hk).2 (.inr ⟨s, rfl⟩), fun _ _ => ⟨t, rfl⟩⟩, fun _ => rfl⟩, by simp⟩
        | null => cases h; exact no (fun _ h => by (cases h))
        | bool _ => cases h; exact no (fun _ h => by (cases h))
        | num _ => cases h; exact no (fun _ h => by (cases h))
        | other => cases h; exact no (fun _ h => by (cases h))
        | arr _ => cases h; exact no (fun _ h => by (cases h))
        | obj _ => cases h; exact no (fun _ h => by (cases h))
    | null => exact wrong (by rintro (⟨_, h, h'⟩ | ⟨_, h⟩) <;> cases h) h
    | bool _ => exact wrong (by rintro (⟨_, h, h'⟩ | ⟨_, h⟩) <;> cases h) h
    | other => exact wrong (by rintro (⟨_, h, h'⟩ | ⟨_, h⟩) <;> cases h) h
    | arr _ => exact wrong (by rintro (⟨_, h, h'⟩ | ⟨_, h⟩) <;> cases h) h
    | obj _ => exact wrong (by rintro (⟨_, h, h'⟩ | ⟨_, h⟩) <;> cases h) h

theorem single_errs {R : Rand} {m : List (String × Json)} {p : Parsed} {e : List Nat} (h : single R m = some (p, e)) :
    (e = [] ↔ Complete m) ∧ 0 ∉ e := by
  unfold single at h
  simp only [Option.bind_eq_bind, Option.bind_eq_some_iff, Prod.exists, Option.some.injEq, Prod.mk.injEq] at h
  obtain ⟨_, e1, h1, _, e3, h3, _, e4, h4, _, e5, h5, _, e6, h6, _, e7, h7, _, e8, h8, _, e9, h9, _, rfl⟩ := h
  obtain ⟨a1, b1⟩ := readAddr_errs h1
  obtain ⟨a2, b2⟩ := readCmd_errs m
  obtain ⟨a3, b3⟩ := readArr_errs (by decide) (by decide) h3
  obtain ⟨a4, b4⟩ := readLength_errs h4
  obtain ⟨a5, b5⟩ := readArr_errs (by decide) (by decide) h5
  obtain ⟨a6, b6⟩ := readBeLength_errs h6
  obtain ⟨a7, b7⟩ := readSw_errs h7
  obtain ⟨a8, b8⟩ := readArr_errs (by decide) (by decide) h8
  obtain ⟨a9, b9⟩ := readExt_errs h9
  constructor
  · simp only [List.append_eq_nil_iff, a1, a2, a3, a4, a5, a6, a7, a8, a9]
    constructor
    · rintro ⟨⟨⟨⟨⟨⟨⟨⟨c1, c2⟩, c3⟩, c4, d4⟩, c5⟩, c6, d6⟩, c7, d7⟩, c8⟩, c9⟩
      refine ⟨?_, d4, d6, d7, c9⟩
      simp only [List.forall_mem_cons, List.not_mem_nil, false_implies, implies_true, and_true]
      exact ⟨c1, c2, c3, c4, c5, c6, c7, c8⟩
    · rintro ⟨c, d4, d6, d7, c9⟩
      simp only [List.forall_mem_cons, List.not_mem_nil, false_implies, implies_true, and_true] at c
      obtain ⟨c1, c2, c3, c4, c5, c6, c7, c8⟩ := c
      exact ⟨⟨⟨⟨⟨⟨⟨⟨c1, c2⟩, c3⟩, c4, d4⟩, c5⟩, c6, d6⟩, c7, d7⟩, c8⟩, c9⟩
  · simp only [List.mem_append, not_or]
    exact ⟨⟨⟨⟨⟨⟨⟨⟨b1, b2⟩, b3⟩, b4⟩, b5⟩, b6⟩, b7⟩, b8⟩, b9⟩

theorem lastError_zero {r : Result} (h : 0 ∉ r.errs) : r.lastError = 0 ↔ r.errs = [] := by
  unfold Result.lastError
  constructor
  · intro h0
    rcases List.eq_nil_or_concat r.errs with hn | ⟨l, x, hl⟩
    · exact hn
    · rw [hl] at h0 h
      simp only [List.concat_eq_append, List.getLast?_append, List.getLast?_singleton, Option.some_or, Option.getD_some] at h0
      subst h0
      exact absurd (by simp) h
  · intro h; rw [h]; rfl

/-- **An entry is read without an error exactly if it is complete.** -/
theorem complete_iff_no_error (R : Rand) (m : List (String × Json)) (r : Result) (h : deserialize R (some (.obj m)) = some r) :
    r.ok = true ∧ (r.lastError = 0 ↔ Complete m) := by
  simp only [deserialize] at h
  cases hs : single R m with
  | none => rw [hs] at h; cases h
  | some pe =>
    obtain ⟨p, e⟩ := pe
    rw [hs] at h
    cases h
    obtain ⟨c1, c2⟩ := single_errs hs
    exact ⟨rfl, (lastError_zero c2).trans c1⟩

/-- **All entries of a vector that are objects are read, in order**; no error exactly if
each is a complete object. The result is about the last one only. -/
theorem vector_partial (R : Rand) (js : List Json) (b : Bool) (r : Result) (h : entries R b js = some r) :
    (∃ ps : List (Parsed × List Nat), (js.filterMap (fun j => match j with | .obj m => some m | _ => none)).map (single R) = ps.map some ∧
      r.dts = ps.map Prod.fst) ∧
    (r.lastError = 0 ↔ ∀ j ∈ js, ∃ m, j = .obj m ∧ Complete m) ∧
    (r.ok = true ↔ match js.getLast? with | none => b = true | some j => ∃ m, j = .obj m) := by
  suffices H : (∃ ps : List (Parsed × List Nat), (js.filterMap (fun j => match j with | .obj m => some m | _ => none)).map (single R) = ps.map some ∧
      r.dts = ps.map Prod.fst) ∧
    (r.errs = [] ↔ ∀ j ∈ js, ∃ m, j = .obj m ∧ Complete m) ∧ 0 ∉ r.errs ∧
    (r.ok = true ↔ match js.getLast? with | none => b = true | some j => ∃ m, j = .obj m) by
    exact ⟨H.1, (lastError_zero H.2.2.1).trans H.2.1, H.2.2.2⟩
  induction js generalizing b r with
  | nil =>
    cases h
    exact ⟨⟨[], rfl, rfl⟩, by simp, by simp, Iff.rfl⟩
  | cons j js ih =>
    have bad : (∀ m, j ≠ .obj m) → (do let u ← entries R false js; some { u with errs := 24 :: u.errs }) = some r →
        (∃ ps : List (Parsed × List Nat), (js.filterMap (fun j => match j with | .obj m => some m | _ => none)).map (single R) = ps.map some ∧
      r.dts = ps.map Prod.fst) ∧
        (r.errs = [] ↔ ∀ j' ∈ j :: js, ∃ m, j' = .obj m ∧ Complete m) ∧ 0 ∉ r.errs ∧
        (r.ok = true ↔ match (j :: js).getLast? with | none => b = true | some j => ∃ m, j = .obj m) := by
      intro hj h
      simp only [Option.bind_eq_bind, Option.bind_eq_some_iff, Option.some.injEq] at h
      obtain ⟨u, hu, rfl⟩ := h
      obtain ⟨i1, i2, i3, i4⟩ := ih _ _ hu
      refine ⟨i1, ⟨fun h => by (cases h), fun h => ?_⟩, ?_, ?_⟩
      · obtain ⟨m, hm, _⟩ := h j (List.mem_cons_self ..)
        exact absurd hm (hj m)
      · simp only [List.mem_cons, not_or]
        exact ⟨by decide, i3⟩
      · show u.ok = true ↔ _
        rw [i4]
        cases js with
        | nil =>
          constructor
          · intro h; cases h
          · rintro ⟨m, hm⟩; exact absurd hm (hj m)
        | cons k ks => rw [List.getLast?_cons_cons]; rw [List.getLast?_cons]
    cases j with
    | obj m =>
      simp only [entries, Option.bind_eq_bind, Option.bind_eq_some_iff, Option.some.injEq] at h
      obtain ⟨⟨p, e⟩, hp, u, hu, rfl⟩ := h
      obtain ⟨⟨ps, q1, q2⟩, i2, i3, i4⟩ := ih _ _ hu
      obtain ⟨c1, c2⟩ := single_errs hp
      refine ⟨⟨(p, e) :: ps, ?_, ?_⟩, ?_, ?_, ?_⟩
      · simp only [List.filterMap_cons, List.map_cons, hp, q1]
      · simp only [List.map_cons, q2]
      · show e ++ u.errs = [] ↔ _
        rw [List.append_eq_nil_iff, List.forall_mem_cons, c1, i2]
        refine and_congr_left fun _ => ⟨fun h => ⟨m, rfl, h⟩, ?_⟩
        rintro ⟨m', hm', h⟩
        cases hm'
        exact h
      · show 0 ∉ e ++ u.errs
        simp only [List.mem_append, not_or]
        exact ⟨c2, i3⟩
      · show u.ok = true ↔ _
        rw [i4]
        cases js with
        | nil => exact ⟨fun _ => ⟨m, rfl⟩, fun _ => rfl⟩
        | cons k ks => rw [List.getLast?_cons_cons]; rw [List.getLast?_cons]
    | null => exact bad (fun _ h => by (cases h)) h
    | bool _ => exact bad (fun _ h => by (cases h)) h
    | num _ => exact bad (fun _ h => by (cases h)) h
    | other => exact bad (fun _ h => by (cases h)) h
    | str _ => exact bad (fun _ h => by (cases h)) h
    | arr _ => exact bad (fun _ h => by (cases h)) h

end Verif.TgConf
