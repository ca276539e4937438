import Verif.PcAce.Model

/-! # Queues per identifier

A list of outstanding transactions, searched by identifier, behaves like one queue for each identifier. -/

namespace Verif.PcAce

/-- Transactions `T` opened by requests `A` and answered by `R`. -/
structure Keyed (T A R : Type) where
  key : T → Nat
  ka : A → Nat
  kr : R → Nat
  opened : A → T
  aok : List T → A → Bool
  rok : T → R → Bool
  upd : T → R → T
  last : R → Bool
  hmk : ∀ a, key (opened a) = ka a
  hupd : ∀ t r, key (upd t r) = key t

variable {T A R : Type}

/-- The common list; `aok` sees the transactions of the same identifier. -/
def Keyed.run (m : Keyed T A R) (depth : Nat) : List T → List (A ⊕ R) → Bool
  | _, [] => true
  | l, .inl a :: t =>
    decide (l.length < depth) && m.aok (l.filter fun t => m.key t == m.ka a) a && m.run depth (l ++ [m.opened a]) t
  | l, .inr r :: t =>
    match l.find? fun t => m.key t == m.kr r with
    | none => false
    | some x => m.rok x r &&
      m.run depth (updFirst (fun t => m.key t == m.kr r) (fun t => if m.last r then none else some (m.upd t r)) l) t

/-- The queue of one identifier. -/
def Keyed.one (m : Keyed T A R) : List T → List (A ⊕ R) → Bool
  | _, [] => true
  | l, .inl a :: t => m.aok l a && m.one (l ++ [m.opened a]) t
  | [], .inr _ :: _ => false
  | x :: l, .inr r :: t => m.rok x r && m.one (if m.last r then l else m.upd x r :: l) t

def Keyed.kev (m : Keyed T A R) : A ⊕ R → Nat
  | .inl a => m.ka a
  | .inr r => m.kr r

def Keyed.isA : A ⊕ R → Bool
  | .inl _ => true
  | .inr _ => false

def Keyed.isLast (m : Keyed T A R) : A ⊕ R → Bool
  | .inl _ => false
  | .inr r => m.last r

theorem updFirst_filter_same {α : Type} (p : α → Bool) (f : α → Option α) (hf : ∀ t t', p t = true → f t = some t' → p t' = true)
    (l : List α) : (updFirst p f l).filter p = match l.filter p with
      | [] => []
      | t :: r => (f t).toList ++ r := by
  induction l with
  | nil => rfl
  | cons t l ih =>
    unfold updFirst
    by_cases c : p t = true
    · rw [if_pos c]
      cases h : f t with
      | none => simp [c, h]
      | some t' => simp [c, h, hf t t' c h]
    · rw [if_neg c]
      simp [c, ih]

theorem updFirst_filter_other {α : Type} (p q : α → Bool) (f : α → Option α)
    (h1 : ∀ t, p t = true → q t = false) (h2 : ∀ t t', p t = true → f t = some t' → q t' = false) (l : List α) :
    (updFirst p f l).filter q = l.filter q := by
  induction l with
  | nil => rfl
  | cons t l ih =>
    unfold updFirst
    by_cases c : p t = true
    · rw [if_pos c]
      cases h : f t with
      | none => simp [h1 t c]
      | some t' => simp [h1 t c, h2 t t' c h]
    · rw [if_neg c]
      by_cases c' : q t = true <;> simp [c', ih]

theorem updFirst_length {α : Type} (p : α → Bool) (f : α → Option α) (l : List α) (t : α) (h : l.find? p = some t) :
    (updFirst p f l).length + 1 = l.length + (f t).toList.length := by
  induction l with
  | nil => simp at h
  | cons u l ih =>
    unfold updFirst
    by_cases c : p u = true
    · rw [if_pos c]
      have : u = t := by simpa [c] using h
      subst this
      cases f u <;> simp
    · rw [if_neg c]
      have := ih (by simpa [c] using h)
      simp only [List.length_cons]
      omega

theorem Keyed.run_iff (m : Keyed T A R) (depth : Nat) (evs : List (A ⊕ R)) (l : List T)
    (hd : ∀ pre, pre <+: evs → l.length + pre.countP Keyed.isA ≤ pre.countP m.isLast + depth) :
    m.run depth l evs = true ↔
      ∀ k, m.one (l.filter fun t => m.key t == k) (evs.filter fun e => m.kev e == k) = true := by
  induction evs generalizing l with
  | nil => simp [Keyed.run, Keyed.one]
  | cons e t ih =>
    cases e with
    | inl a =>
      have hlt : l.length < depth := by
        have := hd [.inl a] (List.prefix_cons_inj _ |>.mpr List.nil_prefix)
        simp [Keyed.isA, Keyed.isLast] at this
        omega
      have hd' : ∀ pre, pre <+: t → (l ++ [m.opened a]).length + pre.countP Keyed.isA ≤ pre.countP m.isLast + depth := by
        intro pre hp
        have := hd (.inl a :: pre) (List.prefix_cons_inj _ |>.mpr hp)
        simp [List.countP_cons, Keyed.isA, Keyed.isLast] at this ⊢
        omega
      unfold Keyed.run
      simp only [hlt, decide_true, Bool.true_and, Bool.and_eq_true, ih _ hd']
      constructor
      · rintro ⟨h1, h2⟩ k
        have := h2 k
        by_cases c : m.ka a = k
        · subst c
          simp [Keyed.kev, Keyed.one, m.hmk] at this ⊢
          exact ⟨h1, this⟩
        · simpa [Keyed.kev, m.hmk, c] using this
      · intro h
        refine ⟨?_, fun k => ?_⟩
        · have := h (m.ka a)
          simp [Keyed.kev, Keyed.one] at this
          exact this.1
        · have := h k
          by_cases c : m.ka a = k
          · subst c
            simp [Keyed.kev, Keyed.one, m.hmk] at this ⊢
            exact this.2
          · simpa [Keyed.kev, m.hmk, c] using this
    | inr r =>
      have hfind : l.find? (fun t => m.key t == m.kr r) = (l.filter fun t => m.key t == m.kr r).head? :=
        (List.head?_filter ..).symm
      cases hq : l.filter (fun t => m.key t == m.kr r) with
      | nil =>
        rw [hq] at hfind
        unfold Keyed.run
        rw [hfind]
        constructor
        · intro h; simp at h
        · intro h
          have := h (m.kr r)
          rw [hq] at this
          simp [Keyed.kev, Keyed.one] at this
      | cons x rest =>
        rw [hq] at hfind
        simp only [List.head?_cons] at hfind
        have hkx : m.key x = m.kr r := by
          have := List.find?_some hfind
          simpa using this
        have hlen := updFirst_length _ (fun t => if m.last r then none else some (m.upd t r)) l x hfind
        have hd' : ∀ pre, pre <+: t →
            (updFirst (fun t => m.key t == m.kr r) (fun t => if m.last r then none else some (m.upd t r)) l).length +
              pre.countP Keyed.isA ≤ pre.countP m.isLast + depth := by
          intro pre hp
          have := hd (.inr r :: pre) (List.prefix_cons_inj _ |>.mpr hp)
          cases hl : m.last r <;> simp [List.countP_cons, Keyed.isA, Keyed.isLast, hl] at this hlen ⊢ <;> omega
        have hsame := updFirst_filter_same (fun t => m.key t == m.kr r)
          (fun t => if m.last r then none else some (m.upd t r))
          (by
            intro t t' h e
            split at e
            · cases e
            · cases e; simpa [m.hupd] using h) l
        rw [hq] at hsame
        have hsame' : (updFirst (fun t => m.key t == m.kr r)
            (fun t => if m.last r then none else some (m.upd t r)) l).filter (fun t => m.key t == m.kr r) =
            if m.last r then rest else m.upd x r :: rest := by
          rw [hsame]
          cases m.last r <;> rfl
        have hother : ∀ k, k ≠ m.kr r → (updFirst (fun t => m.key t == m.kr r)
            (fun t => if m.last r then none else some (m.upd t r)) l).filter (fun t => m.key t == k) =
            l.filter (fun t => m.key t == k) := by
          intro k hk
          apply updFirst_filter_other
          · intro t h
            have : m.key t = m.kr r := by simpa using h
            simp [this]; exact fun e => hk e.symm
          · intro t t' h e
            have : m.key t = m.kr r := by simpa using h
            split at e
            · cases e
            · cases e
              simp [m.hupd, this]; exact fun e => hk e.symm
        unfold Keyed.run
        rw [hfind]
        simp only [Bool.and_eq_true, ih _ hd']
        constructor
        · rintro ⟨h1, h2⟩ k
          have := h2 k
          by_cases c : m.kr r = k
          · subst c
            rw [hsame'] at this
            rw [hq]
            simp [Keyed.kev, Keyed.one]
            exact ⟨h1, this⟩
          · rw [hother k (fun e => c e.symm)] at this
            simpa [Keyed.kev, c] using this
        · intro h
          have h0 := h (m.kr r)
          rw [hq] at h0
          simp [Keyed.kev, Keyed.one] at h0
          refine ⟨h0.1, fun k => ?_⟩
          by_cases c : m.kr r = k
          · subst c
            rw [hsame']
            exact h0.2
          · rw [hother k (fun e => c e.symm)]
            have := h k
            simpa [Keyed.kev, c] using this

end Verif.PcAce
