import Verif.RtlRam.Fsm

/-!
# The data RAM allocator: a node is added

Helper lemmas on the order, the pointers and the places of the nodes.
-/

namespace Verif.RtlRam

/-- The numbers once node `n` stands after node `p`. -/
structure Inserted (v : Nat → Bool) (ll : Nat → Nat) (p n : Nat) (ll' : Nat → Nat) : Prop where
  new : ll' n = ll p + 1
  old : ∀ k, v k = true → ll' k = if ll k > ll p then ll k + 1 else ll k

theorem put_self {α : Type} (f : Nat → α) (i : Nat) (x : α) : put f i x i = x := if_pos rfl

theorem put_ne {α : Type} (f : Nat → α) {i j : Nat} (x : α) (h : j ≠ i) : put f i x j = f j := if_neg h

theorem put_true {v : Nat → Bool} {n k : Nat} (h : put v n true k = true) : k = n ∨ (k ≠ n ∧ v k = true) := by
  by_cases e : k = n
  · exact Or.inl e
  · rw [put_ne v true e] at h; exact Or.inr ⟨e, h⟩

theorem Order.insert {v : Nat → Bool} {ll ll' : Nat → Nat} {p n : Nat} (o : Order v ll)
    (hp : v p = true) (hn : n < 16) (x : Inserted v ll p n ll') :
    Order (put v n true) ll' := by
  refine ⟨?_, ?_, ?_⟩
  · intro i h
    rcases put_true h with e | ⟨_, h⟩
    · omega
    · exact o.lt i h
  · intro i j hi hj e
    rcases put_true hi with e1 | ⟨n1, hi⟩
    · rcases put_true hj with e2 | ⟨n2, hj⟩
      · omega
      · rw [e1, x.new, x.old j hj] at e
        split at e <;> omega
    · rcases put_true hj with e2 | ⟨n2, hj⟩
      · rw [e2, x.new, x.old i hi] at e
        split at e <;> omega
      · rw [x.old i hi, x.old j hj] at e
        apply o.inj i j hi hj
        split at e <;> split at e <;> omega
  · intro i k hi hk
    have hpn : p ≠ n ∨ p = n := by omega
    have old : ∀ q, v q = true → q ≠ n → put v n true q = true := fun q hq e => by rw [put_ne v true e]; exact hq
    have hb : k < ll p + 1 ∨ k = ll p + 1 ∨ (ll p + 1 < k ∧ ∃ q, v q = true ∧ q ≠ n ∧ ll q + 1 = ll' i ∧ ll p < ll q) := by
      rcases put_true hi with e1 | ⟨n1, hi'⟩
      · rw [e1, x.new] at hk; omega
      · rw [x.old i hi'] at hk
        by_cases c : ll i > ll p
        · rw [if_pos c] at hk
          by_cases d : k ≤ ll p + 1
          · omega
          · exact Or.inr (Or.inr ⟨by omega, i, hi', n1, by rw [x.old i hi', if_pos c], c⟩)
        · rw [if_neg c] at hk; omega
    rcases hb with h | h | ⟨h, q, hq, _, e, hlt⟩
    · have : ∃ j, v j = true ∧ ll j = k := by
        by_cases c : k = ll p
        · exact ⟨p, hp, c.symm⟩
        · exact o.down p k hp (by omega)
      obtain ⟨j, hj, ej⟩ := this
      by_cases c : j = n
      · exfalso
        have a := x.old j hj
        rw [c, x.new, ← c] at a
        split at a <;> omega
      · exact ⟨j, old j hj c, by rw [x.old j hj, if_neg (by omega)]; exact ej⟩
    · exact ⟨n, put_self v n true, by rw [x.new, h]⟩
    · obtain ⟨j, hj, ej⟩ := o.down q (k - 1) hq (by omega)
      by_cases c : j = n
      · exfalso
        have a := x.old j hj
        rw [c, x.new, ← c] at a
        split at a <;> omega
      · exact ⟨j, old j hj c, by rw [x.old j hj, if_pos (by omega)]; omega⟩

/-- The pointers once node `n` stands after node `p`. -/
structure Chained (v : Nat → Bool) (next : Nat → Nat) (nextVld : Nat → Bool) (p n : Nat)
    (next' : Nat → Nat) (nextVld' : Nat → Bool) : Prop where
  here : next' p = n ∧ nextVld' p = true
  new : nextVld' n = nextVld p ∧ (nextVld p = true → next' n = next p)
  old : ∀ k, v k = true → k ≠ p → next' k = next k ∧ nextVld' k = nextVld k

theorem Links.insert {v nextVld nextVld' : Nat → Bool} {ll ll' next next' : Nat → Nat} {head p n : Nat}
    {hv : Bool} (o : Order v ll) (l : Links v ll next nextVld head hv)
    (hp : v p = true) (hf : v n = false)
    (x : Inserted v ll p n ll') (y : Chained v next nextVld p n next' nextVld') :
    Links (put v n true) ll' next' nextVld' head true := by
  have nn : ∀ k, v k = true → k ≠ n := fun k hk e => by rw [e, hf] at hk; cases hk
  have old : ∀ q, v q = true → put v n true q = true := fun q hq => by rw [put_ne v true (nn q hq)]; exact hq
  have hh := l.head (l.some p hp)
  refine ⟨fun _ => ⟨old _ hh.1, ?_⟩, fun _ _ => rfl, ?_, ?_⟩
  · rw [x.old _ hh.1, hh.2, if_neg (by omega)]
  · intro i hi hnv
    rcases put_true hi with e | ⟨_, hi⟩
    · subst e
      rw [y.new.1] at hnv
      have := l.next p hp hnv
      rw [y.new.2 hnv, x.new, x.old _ this.1, this.2, if_pos (by omega)]
      exact ⟨old _ this.1, rfl⟩
    · by_cases e : i = p
      · subst e
        rw [y.here.1, x.new, x.old i hi, if_neg (by omega)]
        exact ⟨put_self v n true, rfl⟩
      · rw [(y.old i hi e).2] at hnv
        have := l.next i hi hnv
        rw [(y.old i hi e).1, x.old _ this.1, this.2, x.old i hi]
        refine ⟨old _ this.1, ?_⟩
        have : ll i ≠ ll p := fun h => e (o.inj i p hi hp h)
        split <;> split <;> omega
  · intro i hi hnv j hj
    rcases put_true hi with e | ⟨_, hi⟩
    · subst e
      rw [y.new.1] at hnv
      rcases put_true hj with e | ⟨_, hj⟩
      · subst e; omega
      · have := l.last p hp hnv j hj
        rw [x.new, x.old j hj]
        split <;> omega
    · by_cases e : i = p
      · subst e; rw [y.here.2] at hnv; cases hnv
      · rw [(y.old i hi e).2] at hnv
        have h := l.last i hi hnv
        have : ll i ≠ ll p := fun h => e (o.inj i p hi hp h)
        have hip := h p hp
        rw [x.old i hi, if_pos (by omega)]
        rcases put_true hj with e | ⟨_, hj⟩
        · rw [e, x.new]; omega
        · have := h j hj
          rw [x.old j hj]
          split <;> omega

/-- Where the piece after `p` starts on the unrolled RAM. -/
def limit (m : Nat) (a : Nat → Nat) (nextVld : Nat → Bool) (next : Nat → Nat) (head p : Nat) : Nat :=
  if nextVld p then a (next p) else a head + m

theorem limit_bounds {m : Nat} {v nextVld : Nat → Bool} {ll strt fin a len next : Nat → Nat} {head p : Nat}
    {hv : Bool} (o : Order v ll) (g : Geo m v ll strt fin a len) (l : Links v ll next nextVld head hv)
    (hp : v p = true) :
    a p + len p ≤ limit m a nextVld next head p ∧ limit m a nextVld next head p < a p + len p + m := by
  have pp := g.pos p hp
  unfold limit
  cases hnv : nextVld p with
  | true =>
    have := l.next p hp hnv
    have x := g.apart p (next p) hp this.1 (by omega)
    have y := g.pos (next p) this.1
    simp
    omega
  | false =>
    have hh := l.head (l.some p hp)
    simp
    by_cases e : ll head < ll p
    · have x := g.apart head p hh.1 hp e
      have y := g.pos head hh.1
      omega
    · have : head = p := o.inj head p hh.1 hp (by omega)
      subst this
      omega

theorem limit_strt {s : Regs} {m : Nat} {a len : Nat → Nat} {p : Nat}
    (g : Geo m s.vld s.ll s.strt s.fin a len)
    (l : Links s.vld s.ll s.next s.nextVld s.head s.headVld) (hp : s.vld p = true) :
    after s p = limit m a s.nextVld s.next s.head p % m := by
  unfold after limit
  cases hnv : s.nextVld p with
  | true => simp; exact g.strt _ (l.next p hp hnv).1
  | false => simp; exact g.strt _ (l.head (l.some p hp)).1

theorem trueGap_limit {s : Regs} {w : Nat} {a len : Nat → Nat} {p : Nat} (o : Order s.vld s.ll)
    (g : Geo (2 ^ w) s.vld s.ll s.strt s.fin a len)
    (l : Links s.vld s.ll s.next s.nextVld s.head s.headVld) (hp : s.vld p = true) :
    trueGap w (s.fin p) (after s p) = limit (2 ^ w) a s.nextVld s.next s.head p - (a p + len p) := by
  have b := limit_bounds o g l hp
  have pp := g.pos p hp
  rw [limit_strt g l hp, g.fin p hp]
  exact trueGap_eq (by omega) b.1 b.2

theorem Geo.insert {m : Nat} {v nextVld : Nat → Bool} {ll ll' strt fin a len next : Nat → Nat} {head p n z : Nat}
    {hv : Bool} (o : Order v ll) (g : Geo m v ll strt fin a len) (l : Links v ll next nextVld head hv)
    (hp : v p = true) (hf : v n = false) (x : Inserted v ll p n ll')
    (room : a p + len p + (z + 1) ≤ limit m a nextVld next head p) :
    Geo m (put v n true) ll' (put strt n ((fin p + 1) % m)) (put fin n ((fin p + 1 + z) % m))
      (put a n (a p + len p)) (put len n (z + 1)) := by
  have pp := g.pos p hp
  have b := limit_bounds o g l hp
  have nn : ∀ k, v k = true → k ≠ n := fun k hk e => by rw [e, hf] at hk; cases hk
  have hfin : ∀ q, (fin p + 1 + q) % m = (a p + len p + q) % m := by
    intro q
    rw [g.fin p hp, Nat.add_assoc, Nat.mod_add_mod]
    congr 1
    omega
  -- the pieces up to `p` and those after it
  have before : ∀ j, v j = true → ll j ≤ ll p → a j + len j ≤ a p + len p ∧ limit m a nextVld next head p ≤ a j + m := by
    intro j hj h
    have hb : a j + len j ≤ a p + len p ∧ a p + len p ≤ a j + m := by
      by_cases e : ll j < ll p
      · have := g.apart j p hj hp e
        omega
      · have : j = p := o.inj j p hj hp (by omega)
        subst this; omega
    refine ⟨hb.1, ?_⟩
    unfold limit
    cases hnv : nextVld p with
    | true =>
      have := l.next p hp hnv
      have y := g.apart j (next p) hj this.1 (by omega)
      simp
      omega
    | false =>
      have hh := l.head (l.some p hp)
      simp
      by_cases e : ll head < ll j
      · have y := g.apart head j hh.1 hj e
        omega
      · have : head = j := o.inj head j hh.1 hj (by omega)
        subst this; omega
  have behind : ∀ j, v j = true → ll p < ll j →
      limit m a nextVld next head p ≤ a j ∧ a j + len j ≤ a p + len p + m := by
    intro j hj h
    have y := g.apart p j hp hj h
    refine ⟨?_, by omega⟩
    unfold limit
    cases hnv : nextVld p with
    | true =>
      have := l.next p hp hnv
      simp
      by_cases e : ll (next p) < ll j
      · have z := g.apart (next p) j this.1 hj e
        omega
      · have : next p = j := o.inj _ j this.1 hj (by omega)
        subst this; omega
    | false =>
      have := l.last p hp hnv j hj
      omega
  refine ⟨?_, ?_, ?_, ?_⟩
  · intro i hi
    rcases put_true hi with e | ⟨e, hi⟩
    · subst e; rw [put_self]; omega
    · rw [put_ne len _ e]; exact g.pos i hi
  · intro i j hi hj h
    rcases put_true hi with e | ⟨e, hi⟩
    · subst e
      rcases put_true hj with e2 | ⟨e2, hj⟩
      · subst e2; omega
      · rw [x.new, x.old j hj] at h
        have h : ll p < ll j := by split at h <;> omega
        rw [put_self, put_self, put_ne a _ e2, put_ne len _ e2]
        have := behind j hj h
        omega
    · rcases put_true hj with e2 | ⟨e2, hj⟩
      · rw [e2, x.new, x.old i hi] at h
        have h : ll i ≤ ll p := by split at h <;> omega
        rw [e2, put_self, put_self, put_ne a _ e, put_ne len _ e]
        have := before i hi h
        omega
      · rw [x.old i hi, x.old j hj] at h
        have h : ll i < ll j := by split at h <;> split at h <;> omega
        rw [put_ne a _ e, put_ne len _ e, put_ne a _ e2, put_ne len _ e2]
        exact g.apart i j hi hj h
  · intro i hi
    rcases put_true hi with e | ⟨e, hi⟩
    · subst e; rw [put_self, put_self]; exact hfin 0
    · rw [put_ne a _ e, put_ne strt _ e]; exact g.strt i hi
  · intro i hi
    rcases put_true hi with e | ⟨e, hi⟩
    · subst e; rw [put_self, put_self, put_self]; exact hfin z
    · rw [put_ne a _ e, put_ne fin _ e, put_ne len _ e]; exact g.fin i hi

end Verif.RtlRam
