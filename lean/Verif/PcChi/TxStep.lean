import Verif.PcChi.TxLemmas

/-! # Transactions: one flit -/

namespace Verif.PcChi

def toFwd (x : SOpen) : SFwd := ⟨x.snp, decide (M.copy ∈ x.word), decide (M.fwded ∈ x.word)⟩
def toStash (x : SOpen) : SStash := ⟨x.snp, decide (M.pull ∈ x.word), decide (M.pull ∈ x.word), decide (M.copy ∈ x.word), false, x.ids, x.pull⟩
def toPlain (x : SOpen) : SPlain := ⟨x.snp, false⟩

def toSt (S : Spec) : St :=
  ⟨fun i => (S.req i).map toTxn, S.fwd.map toFwd, S.stash.map toStash, S.plain.map toPlain⟩

structure Inv (S : Spec) : Prop where
  lt : ∀ i o, S.req i = some o → i < 256
  told : ∀ i o, S.req i = some o → (o.ids.isSome = Told o.word o.kind)
  fwd : ∀ x ∈ S.fwd, x.word = [] ∨ x.word = [.fwded]
  stash : ∀ x ∈ S.stash, (x.word = [] ∧ x.ids = none) ∨ (x.word = [.pull] ∧ x.ids = none) ∨ (x.word = [.pull, .copy] ∧ x.ids ≠ none)
  plain : ∀ x ∈ S.plain, x.snp.op ≠ 0xd → x.word = []

/-! ## Lists of snoops -/

section
variable {α : Type} (p : α → Bool) (f : α → Option α) (over : α → Bool)

theorem handle_none (l : List α) (h : ∀ x ∈ l, p x = true → f x = none) : handle p f over l = none := by
  induction l with
  | nil => rfl
  | cons x l ih =>
    rw [handle]
    by_cases hp : p x = true
    · rw [if_pos hp, h x (by simp) hp]; rfl
    · rw [if_neg hp, ih (fun y hy => h y (by simp [hy]))]; rfl

theorem handle_at (a : List α) (x : α) (b : List α) (h : ∀ z ∈ a, p z = false) (hx : p x = true) :
    handle p f over (a ++ x :: b) = (f x).map fun y => a ++ if over y then b else y :: b := by
  induction a with
  | nil => rw [List.nil_append, handle, if_pos hx]; rfl
  | cons z a ih =>
    rw [List.cons_append, handle, if_neg (by rw [h z (by simp)]; exact Bool.false_ne_true), ih (fun y hy => h y (by simp [hy]))]
    cases f x <;> rfl

theorem handle_split (l l' : List α) (h : handle p f over l = some l') :
    ∃ a x b, l = a ++ x :: b ∧ (∀ z ∈ a, p z = false) ∧ p x = true := by
  induction l generalizing l' with
  | nil => cases h
  | cons x l ih =>
    rw [handle] at h
    by_cases hp : p x = true
    · exact ⟨[], x, l, rfl, by simp, hp⟩
    · rw [if_neg hp] at h
      rcases hh : handle p f over l with _ | l2
      · rw [hh] at h; cases h
      · obtain ⟨a, y, b, e, h1, h2⟩ := ih _ hh
        refine ⟨x :: a, y, b, by rw [e]; rfl, ?_, h2⟩
        intro z hz
        rcases List.mem_cons.mp hz with hz | hz
        · rw [hz]; simpa using hp
        · exact h1 z hz

end

/-- The first of a list that matches, and the only one. -/
theorem turns_iff {α : Type} (p : α → Bool) (f : α → Option α) (over : α → Bool) (g : SOpen → α) (P : SOpen → Prop)
    (y : SOpen → Option SOpen) (l : List SOpen)
    (h1 : ∀ x ∈ l, P x → p (g x) = true)
    (h2 : ∀ x ∈ l, P x → ∃ z, f (g x) = some z ∧ (if over z then [] else [z]) = (y x).toList.map g)
    (h3 : ∀ x ∈ l, p (g x) = true → ¬ P x → f (g x) = none)
    (h4 : l.countP (fun x => p (g x)) ≤ 1) :
    (∀ l', Turns l l' P y → handle p f over (l.map g) = some (l'.map g)) ∧
    (∀ m', handle p f over (l.map g) = some m' → ∃ l', Turns l l' P y ∧ m' = l'.map g) := by
  have key : ∀ a x b, l = a ++ x :: b → (∀ z ∈ a, p (g z) = false) → p (g x) = true → P x →
      handle p f over (l.map g) = some ((a ++ (y x).toList ++ b).map g) := by
    intro a x b e ha hp hP
    obtain ⟨z, e1, e2⟩ := h2 x (by rw [e]; simp) hP
    rw [e, List.map_append, List.map_cons, handle_at p f over _ _ _ (by
      intro z hz; obtain ⟨w, hw, rfl⟩ := List.mem_map.mp hz; exact ha w hw) hp, e1]
    simp only [Option.map_some, List.map_append, List.append_assoc]
    rw [← e2]
    by_cases o : over z = true <;> simp [o]
  constructor
  · rintro l' ⟨a, x, b, e, hP, rfl⟩
    have hp := h1 x (by rw [e]; simp) hP
    refine key a x b e ?_ hp hP
    intro z hz
    rcases hh : p (g z)
    · rfl
    · exfalso
      rw [e, List.countP_append, List.countP_cons, if_pos hp] at h4
      have : 0 < a.countP (fun x => p (g x)) := List.countP_pos_iff.mpr ⟨z, hz, hh⟩
      omega
  · intro m' hm
    obtain ⟨a', x', b', e, ha, hp⟩ := handle_split _ _ _ _ _ hm
    obtain ⟨a, r, e0, ea, er⟩ := List.map_eq_append_iff.mp e
    obtain ⟨x, b, e1, ex, eb⟩ := List.map_eq_cons_iff.mp er
    subst e1 ea eb
    subst ex
    have ha' : ∀ z ∈ a, p (g z) = false := fun z hz => ha _ (List.mem_map.mpr ⟨z, hz, rfl⟩)
    by_cases hP : P x
    · have := key a x b e0 ha' hp hP
      rw [this] at hm
      exact ⟨_, ⟨a, x, b, e0, hP, rfl⟩, (Option.some.inj hm).symm⟩
    · have := h3 x (by rw [e0]; simp) hp hP
      rw [e, handle_at p f over _ _ _ ha hp, this] at hm
      cases hm

theorem turns_mem {l l' : List SOpen} {P : SOpen → Prop} {y : SOpen → Option SOpen} (h : Turns l l' P y) :
    ∀ z ∈ l', z ∈ l ∨ ∃ x ∈ l, P x ∧ y x = some z := by
  obtain ⟨a, x, b, e, hP, rfl⟩ := h
  intro z hz
  rw [List.mem_append, List.mem_append, Option.mem_toList] at hz
  rcases hz with (hz | hz) | hz
  · left; rw [e]; simp [hz]
  · right; exact ⟨x, by rw [e]; simp, hP, hz⟩
  · left; rw [e]; simp [hz]

/-! ## Requests -/

theorem put_to (S : Spec) (i : Nat) (o : Open) :
    (toSt S).put i (toTxn o) = toSt { S with req := fun j => if j = i then (if Over o.req o.word o.kind then none else some o) else S.req j } := by
  unfold St.put toSt
  simp only [done_to, St.mk.injEq, and_true]
  funext j
  by_cases hj : j = i
  · simp only [hj, if_true]
    by_cases ho : Over o.req o.word o.kind <;> simp [ho]
  · simp only [hj, if_false]

open Classical in
theorem at_to (S : Spec) (i : Nat) (o : Open) (f : Txn → Option Txn) (lo : Option L) (ids : Option (Nat × Nat)) (hi : S.req i = some o)
    (hf : f (toTxn o) = lo.bind fun l => if Next o.req o.word o.kind l then some (toTxn (adv o l ids)) else none) :
    (∀ l S', lo = some l → Goes S i l ids S' → (toSt S).at (some i) f = some (toSt S')) ∧
    (∀ s', (toSt S).at (some i) f = some s' → ∃ l S', lo = some l ∧ Goes S i l ids S' ∧ s' = toSt S') := by
  have e : (toSt S).at (some i) f = (f (toTxn o)).map ((toSt S).put i) := by
    unfold St.at toSt; simp only [hi, Option.map_some]
  constructor
  · rintro l S' hl ⟨o', ho', hn, rfl⟩
    rw [hi] at ho'; cases ho'
    rw [e, hf, hl, Option.bind_some, if_pos hn, Option.map_some, put_to]; rfl
  · intro s' hs
    rw [e, hf] at hs
    rcases lo with _ | l
    · cases hs
    · rw [Option.bind_some] at hs
      by_cases hn : Next o.req o.word o.kind l
      · rw [if_pos hn, Option.map_some, put_to] at hs
        exact ⟨l, _, rfl, ⟨o, hi, hn, rfl⟩, (Option.some.inj hs).symm⟩
      · rw [if_neg hn] at hs; cases hs

theorem withIds_some (S : Spec) (a b i : Nat) (h : (toSt S).withIds a b = some i) : ∃ o, S.req i = some o ∧ o.ids = some (a, b) := by
  have := List.find?_some h
  unfold toSt at this
  dsimp only at this
  rcases ho : S.req i with _ | o
  · rw [ho] at this; cases this
  · rw [ho] at this
    exact ⟨o, rfl, by simpa [toTxn] using this⟩

theorem withIds_of (S : Spec) (hS : Inv S) (a b i : Nat) (o : Open) (ho : S.req i = some o) (hi : o.ids = some (a, b)) :
    ∃ j, (toSt S).withIds a b = some j := by
  unfold St.withIds
  rcases h : List.find? _ (List.range 256) with _ | j
  · exfalso
    rw [List.find?_eq_none] at h
    have := h i (List.mem_range.mpr (hS.lt i o ho))
    simp [toSt, ho, toTxn, hi] at this
  · exact ⟨j, rfl⟩

theorem withIds_none (S : Spec) (hS : Inv S) (a b : Nat) (h : ∀ i o, S.req i = some o → o.ids ≠ some (a, b)) : (toSt S).withIds a b = none := by
  rcases hw : (toSt S).withIds a b with _ | i
  · rfl
  · obtain ⟨o, ho, hi⟩ := withIds_some S a b i hw
    exact absurd hi (h i o ho)

/-- Flits that name a request by the home and the `DBID`. -/
theorem named_to (S : Spec) (hS : Inv S) (a b : Nat) (f : Txn → Option Txn) (lo : Option L) (hl : ∀ l, lo = some l → Sole S (a, b) l)
    (hf : ∀ o, Told o.word o.kind = true → (∀ l, lo = some l → ¬ Missed o.req o.word o.kind l) →
      f (toTxn o) = lo.bind fun l => open Classical in if Next o.req o.word o.kind l then some (toTxn (adv o l none)) else none) :
    (∀ l i o S', lo = some l → S.req i = some o → o.ids = some (a, b) → Goes S i l none S' → (toSt S).at ((toSt S).withIds a b) f = some (toSt S')) ∧
    (∀ s', (toSt S).at ((toSt S).withIds a b) f = some s' → ∃ l i o S', lo = some l ∧ S.req i = some o ∧ o.ids = some (a, b) ∧ Goes S i l none S' ∧ s' = toSt S') := by
  have told : ∀ i o, S.req i = some o → o.ids = some (a, b) → Told o.word o.kind = true := by
    intro i o ho hi; rw [← hS.told i o ho, hi]; rfl
  constructor
  · intro l i o S' el ho hi hg
    obtain ⟨j, hj⟩ := withIds_of S hS a b i o ho hi
    obtain ⟨o', ho', hi'⟩ := withIds_some S a b j hj
    have : i = j := (hl l el).2 i j o o' ho ho' hi hi'
    subst this
    rw [hj]
    exact (at_to S i o f lo none ho (hf o (told i o ho hi) (fun l e => (hl l e).1 i o ho hi))).1 l S' el hg
  · intro s' hs
    rcases hw : (toSt S).withIds a b with _ | i
    · rw [hw] at hs; cases hs
    · obtain ⟨o, ho, hi⟩ := withIds_some S a b i hw
      rw [hw] at hs
      obtain ⟨l, S', el, hg, e⟩ := (at_to S i o f lo none ho (hf o (told i o ho hi) (fun l e => (hl l e).1 i o ho hi))).2 s' hs
      exact ⟨l, i, o, S', el, ho, hi, hg, e⟩

end Verif.PcChi
