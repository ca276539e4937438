import Verif.RtlRam.Model

/-!
# The data RAM allocator: counting and ranks

Helper lemmas: `count` over the 16 nodes, one-hot vectors, and the numbering
of the nodes of the list by their place in it.
-/

namespace Verif.RtlRam

theorem countP_or {α : Type} (p q r : α → Bool) (l : List α)
    (h : ∀ x, r x = (p x || q x)) (d : ∀ x, p x = true → q x = false) :
    l.countP r = l.countP p + l.countP q := by
  induction l with
  | nil => rfl
  | cons x t ih =>
    rw [List.countP_cons, List.countP_cons, List.countP_cons, ih, h x]
    have := d x
    cases hp : p x <;> cases hq : q x <;> simp_all <;> omega

theorem count_or (p q r : Nat → Bool) (h : ∀ x, r x = (p x || q x))
    (d : ∀ x, p x = true → q x = false) : count r = count p + count q :=
  countP_or p q r _ h d

theorem count_le (p : Nat → Bool) : count p ≤ 16 := by
  have := List.countP_le_length (p := p) (l := List.range 16)
  simpa [count] using this

theorem count_false {p : Nat → Bool} (h : ∀ x, p x = false) : count p = 0 := by
  unfold count
  rw [List.countP_eq_zero]
  intro x _
  simp [h x]

theorem count_mono {p q : Nat → Bool} (h : ∀ x, p x = true → q x = true) : count p ≤ count q := by
  unfold count
  exact List.countP_mono_left (fun x _ => h x)

theorem count_one {p : Nat → Bool} {a : Nat} (ha : a < 16) (h : ∀ x, p x = true ↔ x = a) :
    count p = 1 := by
  have : p = fun x => x == a := by
    funext x
    by_cases e : x = a
    · subst e; simp [(h x).mpr rfl]
    · have : p x = false := by
        cases hp : p x with
        | false => rfl
        | true => exact absurd ((h x).mp hp) e
      simp [this, e]
  subst this
  have : ∀ a, a < 16 → count (fun x => x == a) = 1 := by decide
  exact this a ha

theorem count_lt {p : Nat → Bool} {a : Nat} (ha : a < 16) (h : p a = false) : count p ≤ 15 := by
  have e := count_or p (fun x => x == a) (fun x => p x || x == a) (fun _ => rfl) (by
    intro x hx
    by_cases e : x = a
    · subst e; rw [h] at hx; cases hx
    · simp [e])
  rw [count_one (p := fun x => x == a) ha (fun x => by simp)] at e
  have := count_le (fun x => p x || x == a)
  omega

theorem any_iff {v : Nat → Bool} : any v = true ↔ ∃ i, i < 16 ∧ v i = true := by
  unfold any
  rw [List.any_eq_true]
  constructor
  · rintro ⟨x, h, e⟩; exact ⟨x, List.mem_range.mp h, e⟩
  · rintro ⟨x, h, e⟩; exact ⟨x, List.mem_range.mpr h, e⟩

/-- The lowest bit set. -/
theorem exists_low {v : Nat → Bool} {i : Nat} (h : v i = true) :
    ∃ k, k ≤ i ∧ v k = true ∧ ∀ j, j < k → v j = false := by
  induction i using Nat.strongRecOn with
  | ind i ih =>
    by_cases e : ∃ j, j < i ∧ v j = true
    · obtain ⟨j, hj, hv⟩ := e
      obtain ⟨k, a, b, d⟩ := ih j hj hv
      exact ⟨k, by omega, b, d⟩
    · refine ⟨i, Nat.le_refl _, h, fun j hj => ?_⟩
      cases hv : v j with
      | false => rfl
      | true => exact absurd ⟨j, hj, hv⟩ e

/-- The decoded index of a vector with exactly one bit set. -/
theorem decode_one {v : Nat → Bool} {a : Nat} (ha : a < 16)
    (h : ∀ j, j < 16 → (v j = true ↔ j = a)) : decode v = some a := by
  unfold decode
  have hp : ∀ i, i < 16 →
      (v i && (List.range 16).all (fun j => j == i || !v j)) = decide (i = a) := by
    intro i hi
    by_cases e : i = a
    · subst e
      have : (List.range 16).all (fun j => j == i || !v j) = true := by
        rw [List.all_eq_true]
        intro j hj
        have hj := List.mem_range.mp hj
        by_cases e : j = i
        · simp [e]
        · have : v j = false := by
            cases hv : v j with
            | false => rfl
            | true => exact absurd ((h j hj).mp hv) e
          simp [this]
      simp [(h i hi).mpr rfl, this]
    · have : v i = false := by
        cases hv : v i with
        | false => rfl
        | true => exact absurd ((h i hi).mp hv) e
      simp [this, e]
  cases hf : (List.range 16).find? (fun i => v i && (List.range 16).all (fun j => j == i || !v j)) with
  | some b =>
    have hm := List.mem_of_find?_eq_some hf
    have hs := List.find?_some hf
    rw [hp b (List.mem_range.mp hm)] at hs
    rw [of_decide_eq_true hs]
  | none =>
    rw [List.find?_eq_none] at hf
    have := hf a (List.mem_range.mpr ha)
    rw [hp a ha] at this
    simp at this

theorem decode_none {v : Nat → Bool} (h : ∀ j, j < 16 → v j = false) : decode v = none := by
  unfold decode
  rw [List.find?_eq_none]
  intro i hi
  simp [h i (List.mem_range.mp hi)]

theorem lowBit_decode {v : Nat → Bool} (h : any v = true) :
    ∃ i, i < 16 ∧ decode (lowBit v) = some i ∧ v i = true := by
  obtain ⟨i, hi, hv⟩ := any_iff.mp h
  obtain ⟨k, hk, hv', hl⟩ := exists_low hv
  refine ⟨k, by omega, decode_one (by omega) (fun j _ => ?_), hv'⟩
  unfold lowBit
  rw [Bool.and_eq_true, List.all_eq_true]
  constructor
  · rintro ⟨a, b⟩
    by_cases e : j < k
    · rw [hl j e] at a; cases a
    · by_cases e2 : k < j
      · have := b k (List.mem_range.mpr e2)
        rw [hv'] at this
        cases this
      · omega
  · rintro rfl
    refine ⟨hv', fun m hm => ?_⟩
    rw [hl m (List.mem_range.mp hm)]
    rfl

/-- The nodes of `v` are numbered from 0 without a gap. -/
structure Order (v : Nat → Bool) (ll : Nat → Nat) : Prop where
  lt : ∀ i, v i = true → i < 16
  inj : ∀ i j, v i = true → v j = true → ll i = ll j → i = j
  down : ∀ i k, v i = true → k < ll i → ∃ j, v j = true ∧ ll j = k

/-- How many nodes of `v` have a number below `k`. -/
def below (v : Nat → Bool) (ll : Nat → Nat) (k : Nat) : Nat :=
  count (fun j => v j && decide (ll j < k))

theorem below_zero (v : Nat → Bool) (ll : Nat → Nat) : below v ll 0 = 0 :=
  count_false (fun x => by simp)

theorem below_succ (v : Nat → Bool) (ll : Nat → Nat) (k : Nat) :
    below v ll (k + 1) = below v ll k + count (fun j => v j && decide (ll j = k)) := by
  unfold below
  apply count_or
  · intro x
    have : decide (ll x < k + 1) = (decide (ll x < k) || decide (ll x = k)) := by
      by_cases a : ll x < k
      · simp [a, Nat.lt_succ_of_lt a]
      · by_cases b : ll x = k
        · simp [b]
        · have : ¬ ll x < k + 1 := by omega
          simp [a, b, this]
    rw [this]
    cases v x <;> simp
  · intro x h
    simp at h
    simp
    intro _
    omega

theorem below_mono (v : Nat → Bool) (ll : Nat → Nat) {k m : Nat} (h : k ≤ m) :
    below v ll k ≤ below v ll m := by
  apply count_mono
  intro x hx
  simp at hx ⊢
  exact ⟨hx.1, by omega⟩

theorem below_hit {v : Nat → Bool} {ll : Nat → Nat} {i : Nat} (hi : i < 16) (hv : v i = true)
    (inj : ∀ j, v j = true → ll j = ll i → j = i) :
    below v ll (ll i + 1) = below v ll (ll i) + 1 := by
  rw [below_succ, count_one hi]
  intro x
  simp
  constructor
  · rintro ⟨a, b⟩; exact inj x a b
  · rintro rfl; exact ⟨hv, rfl⟩

theorem below_miss {v : Nat → Bool} {ll : Nat → Nat} {k : Nat}
    (h : ¬ ∃ j, v j = true ∧ ll j = k) : below v ll (k + 1) = below v ll k := by
  rw [below_succ, count_false]
  · rfl
  · intro x
    cases hv : v x with
    | false => rfl
    | true =>
      by_cases e : ll x = k
      · exact absurd ⟨x, hv, e⟩ h
      · simp [e]

/-- In a numbering without gaps the count below a number is that number. -/
theorem Order.below_eq {v : Nat → Bool} {ll : Nat → Nat} (o : Order v ll) {i : Nat}
    (hv : v i = true) (k : Nat) (hk : k ≤ ll i + 1) : below v ll k = k := by
  induction k with
  | zero => exact below_zero v ll
  | succ k ih =>
    have : ∃ j, v j = true ∧ ll j = k := by
      by_cases e : k = ll i
      · exact ⟨i, hv, e.symm⟩
      · exact o.down i k hv (by omega)
    obtain ⟨j, hj, e⟩ := this
    subst e
    rw [below_hit (o.lt j hj) hj (fun x hx he => o.inj x j hx hj he), ih (by omega)]

theorem Order.le15 {v : Nat → Bool} {ll : Nat → Nat} (o : Order v ll) {i : Nat}
    (hv : v i = true) : ll i ≤ 15 := by
  have a := o.below_eq hv (ll i + 1) (Nat.le_refl _)
  have b := count_le (fun j => v j && decide (ll j < ll i + 1))
  unfold below at a
  omega

theorem Order.le14 {v : Nat → Bool} {ll : Nat → Nat} (o : Order v ll) {i n : Nat}
    (hv : v i = true) (hn : n < 16) (hf : v n = false) : ll i ≤ 14 := by
  have a := o.below_eq hv (ll i + 1) (Nat.le_refl _)
  have b := count_lt (p := fun j => v j && decide (ll j < ll i + 1)) hn (by simp [hf])
  unfold below at a
  omega

/-- The numbers after the nodes `r` have gone. -/
theorem Order.remove {v r : Nat → Bool} {ll ll' : Nat → Nat}
    (o : Order (fun n => v n || r n) ll) (d : ∀ n, v n = true → r n = false)
    (h : ∀ n, v n = true → ll' n = ll n - below r ll (ll n)) :
    Order v ll' ∧ (∀ i j, v i = true → v j = true → (ll' i < ll' j ↔ ll i < ll j)) ∧
      (∀ n, v n = true → below r ll (ll n) ≤ ll n) := by
  have hsum : ∀ k, below (fun n => v n || r n) ll k = below v ll k + below r ll k := by
    intro k
    apply count_or
    · intro x; cases hv : v x <;> cases hr : r x <;> simp [hv, hr]
    · intro x hx
      simp at hx ⊢
      intro hr
      rw [d x hx.1] at hr
      cases hr
  have vr : ∀ n, v n = true → (v n || r n) = true := fun n hn => by simp [hn]
  have hll : ∀ n, v n = true → ll' n = below v ll (ll n) ∧ below r ll (ll n) ≤ ll n := by
    intro n hn
    have a := o.below_eq (i := n) (vr n hn) (ll n) (by omega)
    rw [hsum] at a
    rw [h n hn]
    omega
  have hlt : ∀ i j, v i = true → v j = true → ll i < ll j → ll' i < ll' j := by
    intro i j hi hj e
    rw [(hll i hi).1, (hll j hj).1]
    have a := below_hit (ll := ll) (o.lt i (vr i hi)) hi
      (fun x hx he => o.inj x i (vr x hx) (vr i hi) he)
    have b := below_mono v ll (show ll i + 1 ≤ ll j from e)
    omega
  refine ⟨⟨fun i hi => o.lt i (vr i hi), ?_, ?_⟩, ?_, fun n hn => (hll n hn).2⟩
  · intro i j hi hj e
    rcases Nat.lt_trichotomy (ll i) (ll j) with a | a | a
    · have := hlt i j hi hj a; omega
    · exact o.inj i j (vr i hi) (vr j hj) a
    · have := hlt j i hj hi a; omega
  · intro i k hi hk
    rw [(hll i hi).1] at hk
    have key : ∀ m, k < below v ll m → ∃ j, v j = true ∧ below v ll (ll j) = k := by
      intro m
      induction m with
      | zero => intro hm; rw [below_zero] at hm; omega
      | succ m ih =>
        intro hm
        by_cases e : k < below v ll m
        · exact ih e
        · by_cases x : ∃ j, v j = true ∧ ll j = m
          · obtain ⟨j, hj, ej⟩ := x
            refine ⟨j, hj, ?_⟩
            have a := below_hit (ll := ll) (o.lt j (vr j hj)) hj
              (fun x hx he => o.inj x j (vr x hx) (vr j hj) he)
            rw [ej] at a ⊢
            omega
          · rw [below_miss x] at hm
            omega
    obtain ⟨j, hj, e⟩ := key _ hk
    exact ⟨j, hj, by rw [(hll j hj).1]; exact e⟩
  · intro i j hi hj
    constructor
    · intro e
      rcases Nat.lt_trichotomy (ll i) (ll j) with a | a | a
      · exact a
      · have := o.inj i j (vr i hi) (vr j hj) a
        subst this; omega
      · have := hlt j i hj hi a; omega
    · exact hlt i j hi hj

end Verif.RtlRam
