import Verif.RtlRdata.Spec

/-! # The words of the bursts, one by one -/

namespace Verif.RtlRdata

open RtlFifo (Queue)

/-- The word `j` of a burst. -/
structure Item (δ σ : Type) where
  a : Ask δ σ
  j : Nat
  x : δ

section
variable {δ σ : Type}

def Item.last (t : Item δ σ) : Bool := decide (t.j + 1 = t.a.data.length)

def Item.side (t : Item δ σ) : Side σ := ⟨t.a.idx, t.a.resp, t.last⟩

def Item.beat (t : Item δ σ) : Beat δ σ := ⟨t.a.idx, t.a.resp, t.last, t.x⟩

def itemsFrom (a : Ask δ σ) : Nat → List δ → List (Item δ σ)
  | _, [] => []
  | j, x :: t => ⟨a, j, x⟩ :: itemsFrom a (j + 1) t

def items (a : Ask δ σ) : List (Item δ σ) := itemsFrom a 0 a.data

theorem itemsFrom_beats (a : Ask δ σ) (l : List δ) : ∀ j, j + l.length = a.data.length →
    (itemsFrom a j l).map Item.beat = beatsOf a.idx a.resp l := by
  induction l with
  | nil => intro j _; rfl
  | cons x t ih =>
    intro j h
    simp only [List.length_cons] at h
    have h1 := ih (j + 1) (by omega)
    cases t with
    | nil =>
      simp only [List.length_nil] at h
      have : j + 1 = a.data.length := by omega
      simp [itemsFrom, beatsOf, Item.beat, Item.last, this]
    | cons y t =>
      simp only [List.length_cons] at h
      have : j + 1 ≠ a.data.length := by omega
      rw [itemsFrom, List.map_cons, h1]
      simp [beatsOf, Item.beat, Item.last, this]

theorem items_beats (a : Ask δ σ) : (items a).map Item.beat = a.beats := itemsFrom_beats a a.data 0 (by omega)

theorem due_items (l : List (Ask δ σ)) : (l.flatMap items).map Item.beat = l.flatMap Ask.beats := by
  induction l with
  | nil => rfl
  | cons a t ih => rw [List.flatMap_cons, List.map_append, items_beats, ih, List.flatMap_cons]

theorem mem_itemsFrom {a : Ask δ σ} {t : Item δ σ} (l : List δ) : ∀ j, a.data.drop j = l → t ∈ itemsFrom a j l →
    t.a = a ∧ a.data[t.j]? = some t.x := by
  induction l with
  | nil => intro j _ h; cases h
  | cons x l ih =>
    intro j hd h
    rcases List.mem_cons.1 h with rfl | h
    · refine ⟨rfl, ?_⟩
      have := congrArg (fun l => l[0]?) hd
      simpa [List.getElem?_drop] using this
    · refine ih (j + 1) ?_ h
      have := congrArg (List.drop 1) hd
      rw [List.drop_drop] at this
      exact this

theorem mem_items {a : Ask δ σ} {t : Item δ σ} (h : t ∈ items a) : t.a = a ∧ a.data[t.j]? = some t.x :=
  mem_itemsFrom a.data 0 rfl h

theorem lasts_from (a : Ask δ σ) (l : List δ) : ∀ j, j + l.length = a.data.length → l ≠ [] →
    (itemsFrom a j l).countP Item.last = 1 := by
  induction l with
  | nil => intro j _ h; exact absurd rfl h
  | cons x t ih =>
    intro j h _
    simp only [List.length_cons] at h
    rw [itemsFrom, List.countP_cons]
    cases t with
    | nil =>
      simp only [List.length_nil] at h
      have : j + 1 = a.data.length := by omega
      simp [itemsFrom, Item.last, this]
    | cons y t =>
      rw [ih (j + 1) (by omega) (by simp)]
      simp only [List.length_cons] at h
      have : j + 1 ≠ a.data.length := by omega
      simp [Item.last, this]

theorem none_before (a : Ask δ σ) (l : List δ) : ∀ j p t q, j + l.length = a.data.length → itemsFrom a j l = p ++ t :: q →
    p.countP Item.last = 0 ∧ t.a = a := by
  induction l with
  | nil => intro j p t q _ h; cases p <;> cases h
  | cons x l ih =>
    intro j p t q h e
    simp only [List.length_cons] at h
    cases p with
    | nil =>
      rw [itemsFrom, List.nil_append, List.cons.injEq] at e
      obtain ⟨rfl, _⟩ := e
      exact ⟨rfl, rfl⟩
    | cons b p =>
      rw [itemsFrom, List.cons_append, List.cons.injEq] at e
      obtain ⟨h1, h2⟩ := ih (j + 1) p t q (by omega) e.2
      refine ⟨?_, h2⟩
      rw [List.countP_cons, h1, ← e.1]
      have : l ≠ [] := by
        rintro rfl
        have := e.2
        rw [itemsFrom] at this
        cases p <;> cases this
      have : 0 < l.length := List.length_pos_iff.2 this
      have : j + 1 ≠ a.data.length := by omega
      simp [Item.last, this]

/-- A word which is not taken belongs to an open burst. -/
theorem open_of (l : List (Ask δ σ)) : ∀ (p : List (Item δ σ)) (t : Item δ σ) (q : List (Item δ σ)), (∀ a ∈ l, a.data ≠ []) →
    l.flatMap items = p ++ t :: q → t.a ∈ l.drop (p.countP Item.last) := by
  induction l with
  | nil => intro p t q _ h; cases p <;> cases h
  | cons a l ih =>
    intro p t q hd h
    rw [List.flatMap_cons] at h
    have hl : ∀ b ∈ l, b.data ≠ [] := fun b hb => hd b (List.mem_cons_of_mem _ hb)
    have h1 : (items a).countP Item.last = 1 := lasts_from a a.data 0 (by omega) (hd a (List.mem_cons_self ..))
    have whole : ∀ p', p = items a ++ p' → l.flatMap items = p' ++ t :: q → t.a ∈ (a :: l).drop (p.countP Item.last) := by
      intro p' e1 e2
      rw [e1, List.countP_append, h1, Nat.add_comm, List.drop_succ_cons]
      exact ih p' t q hl e2
    rcases List.append_eq_append_iff.1 h with ⟨p', e1, e2⟩ | ⟨c, e1, e2⟩
    · exact whole p' e1 e2
    · cases c with
      | nil => exact whole [] (by simpa using e1.symm) (by simpa using e2.symm)
      | cons b c =>
        rw [List.cons_append, List.cons.injEq] at e2
        obtain ⟨rfl, _⟩ := e2
        obtain ⟨h2, h3⟩ := none_before a a.data 0 p t c (by omega) e1
        rw [h2, h3]
        exact List.mem_cons_self ..

/-! ## The fields -/

theorem beats_eq {c : Cfg} (hc : 0 < c.bytes ∧ c.bytes < 256) (i : In δ σ) (d : Nat) (h : i.len d < 256) : beats c i d = i.len d + 1 := by
  unfold beats size Cfg.dw
  have e1 : (i.len d + 1) * (8 * c.bytes) / 8 = (i.len d + 1) * c.bytes := by
    rw [Nat.mul_left_comm, Nat.mul_div_cancel_left _ (by omega)]
  have h2 : (i.len d + 1) * c.bytes < 65536 := by
    have h3 : (i.len d + 1) * c.bytes ≤ 256 * c.bytes := Nat.mul_le_mul_right _ (by omega)
    omega
  rw [e1, Nat.mod_eq_of_lt h2, Nat.mul_assoc, Nat.mul_comm c.bytes 8]
  exact Nat.mul_div_cancel _ (by omega)

theorem base_eq (c : Cfg) (i : In δ σ) (d : Nat) : base c i d = i.off d / c.bytes := by
  unfold base Cfg.dw
  rw [Nat.mul_comm]
  exact Nat.mul_div_mul_left _ _ (by omega)

theorem askOf_len (c : Cfg) (i : In δ σ) (d : Nat) : (askOf c i d).data.length = i.len d + 1 := by simp [askOf]

theorem askOf_word (c : Cfg) (i : In δ σ) (d j : Nat) (x : δ) (h : (askOf c i d).data[j]? = some x) :
    x = i.ram (((askOf c i d).place + j) % c.words) := by
  unfold askOf at h ⊢
  dsimp only at h ⊢
  rw [List.getElem?_map] at h
  cases hj : (List.range (i.len d + 1))[j]? with
  | none => rw [hj] at h; cases h
  | some k =>
    rw [hj] at h
    have hk : j = k := by
      rw [List.getElem?_eq_some_iff] at hj
      obtain ⟨_, hj⟩ := hj
      simpa using hj
    subst hk
    simpa using h.symm

end

end Verif.RtlRdata
