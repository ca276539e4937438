import Verif.RtlTx.Spec

/-!
The invariant of a link which stays up: the places given and not yet sent are
the owned ones.
-/

namespace Verif.RtlTx

/-- Place `k` has one of the numbers from `p` to `g`. -/
def Seg (p g k : Nat) : Prop := (k + 15 - p % 15) % 15 < g - p

theorem ring_seg (g n k : Nat) (hk : k < 15) : ring g n k = true ↔ Seg g (g + n) k := by
  unfold ring Seg
  simp only [List.any_eq_true, List.mem_range, decide_eq_true_eq]
  constructor
  · rintro ⟨j, hj, e⟩; omega
  · intro h
    exact ⟨(k + 15 - g % 15) % 15, by omega, by omega⟩

/-- The places given and the flits still to send; `p` flits were read from the
RAM and `g1` places given before the last cycle. -/
structure Inv {α : Type} (w : World α) (p g1 : Nat) : Prop where
  ordered : p ≤ g1 ∧ g1 ≤ w.given.length ∧ w.given.length ≤ p + 15
  busy : w.s.st = .send ∨ w.s.st = .check → 1 ≤ p ∧ w.given.length ≤ p + 14
  addr : w.s.addr = p % 15
  own : ∀ k < 15, w.s.own k = true ↔ Seg p g1 k ∨ (w.s.st = .send ∧ k = (p + 14) % 15)
  flip : ∀ k < 15, w.s.flip k = true → w.s.own k = true ∨ Seg g1 w.given.length k
  fresh : ∀ k < 15, Seg g1 w.given.length k → w.s.flip k = true ∧ w.s.own k = false
  clear : ∀ k < 15, w.s.clear k = true → w.s.own k = true ∧ ¬(w.s.st = .send ∧ k = (p + 14) % 15)
  cleared : ∀ k < 15, w.s.own k = true → w.s.flip k = true → w.s.clear k = true
  phase : w.s.clear (p % 15) = true → w.s.st ≠ .wait ∧ (w.wrote = false → ¬(w.s.st = .read ∧ w.s.prg = true))
  prg : w.s.st = .read ∨ w.s.st = .idle → w.s.prg = true → p < g1
  wait : w.s.st = .wait → p < g1
  upd : ∀ k < 15, w.s.upd k = true ↔ (w.s.st = .send ∨ w.s.st = .check) ∧ k = (p + 14) % 15
  req : w.s.req = decide (w.s.st = .wait)
  valid : w.s.valid = decide (w.s.st = .check)
  mem : ∀ j, p ≤ j → j < w.given.length → w.given[j]? = some (w.s.mem (j % 15))
  memreg : w.s.st = .send → w.s.memreg = w.given[p - 1]?
  outreg : w.s.st = .check → w.s.outreg = w.given[p - 1]?
  sent : w.sent = (w.given.take (if w.s.st = .send ∨ w.s.st = .check then p - 1 else p)).map some
  returned : w.returned = 0
  credit : w.granted = w.s.credit + w.sent.length
  most : w.s.credit ≤ 15
  avail : w.s.avail = decide (w.s.credit ≠ 0)
  held : w.s.st = .wait ∨ w.s.st = .send ∨ w.s.st = .check → w.s.credit ≠ 0

theorem inv_start {α : Type} (m : Nat → α) : Inv (World.start m) 0 0 where
  ordered := by simp [World.start]
  busy := by simp [World.start, reset]
  addr := by simp [World.start, reset]
  own := by simp [World.start, reset, Seg]
  flip := by simp [World.start, reset]
  fresh := by simp [World.start, Seg]
  clear := by simp [World.start, reset]
  cleared := by simp [World.start, reset]
  phase := by simp [World.start, reset]
  prg := by simp [World.start, reset]
  wait := by simp [World.start, reset]
  upd := by simp [World.start, reset]
  req := by simp [World.start, reset]
  valid := by simp [World.start, reset]
  mem := by simp [World.start]
  memreg := by simp [World.start, reset]
  outreg := by simp [World.start, reset]
  sent := by simp [World.start]
  returned := by simp [World.start]
  credit := by simp [World.start, reset]
  most := by simp [World.start, reset]
  avail := by simp [World.start, reset]
  held := by simp [World.start, reset]

/-- What a good write of the flip register does. -/
theorem flip_step {α : Type} {w : World α} {i : In α} (g : Good w i) (k : Nat) (hk : k < 15) :
    (Seg w.given.length (w.given.length + (gives w i).length) k →
      flipNext w.s i k = true ∧ w.s.own k = false ∧ w.s.flip k = false) ∧
    (flipNext w.s i k = true → Seg w.given.length (w.given.length + (gives w i).length) k ∨
      (w.s.flip k = true ∧ (i.wr = true ∨ w.s.clear k = false))) := by
  unfold gives flipNext
  cases hw : i.wr with
  | false =>
    simp only [Seg, List.length_nil, Nat.add_zero, Nat.sub_self, Nat.not_lt_zero, false_implies, true_and,
      Bool.false_eq_true, if_false, false_or]
    cases hc : w.s.clear k <;> simp
  | true =>
    cases hf : i.flip with
    | none => simp [Seg]
    | some f =>
      obtain ⟨_, ho⟩ := g.inOrder f hw hf
      have e := ring_seg w.given.length (bits f) k hk
      rw [← ho k hk] at e
      simp only [List.length_map, List.length_range, if_true]
      exact ⟨fun h => ⟨e.2 h, g.free f k hw hf hk (e.2 h)⟩, fun h => Or.inl (e.1 h)⟩

theorem gives_le {α : Type} {w : World α} {i : In α} (g : Good w i) : (gives w i).length ≤ 15 := by
  unfold gives
  cases hw : i.wr with
  | false => simp
  | true =>
    cases hf : i.flip with
    | none => simp
    | some f => simpa using (g.inOrder f hw hf).1

theorem gives_get {α : Type} (w : World α) (i : In α) (j : Nat) (h : j < (gives w i).length) :
    (gives w i)[j]? = some (w.s.mem ((w.given.length + j) % 15)) := by
  unfold gives at h ⊢
  cases hw : i.wr with
  | false => simp [hw] at h
  | true =>
    cases hf : i.flip with
    | none => simp [hw, hf] at h
    | some f =>
      simp only [hw, hf, List.length_map, List.length_range] at h
      simp [h]

theorem any_own {α : Type} {w : World α} {p g1 : Nat} (h : Inv w p g1) (e : w.s.st ≠ .send)
    (a : any w.s.own = true) : p < g1 := by
  unfold any at a
  simp only [List.any_eq_true, List.mem_range] at a
  obtain ⟨k, hk, hko⟩ := a
  rcases (h.own k hk).1 hko with h1 | ⟨h1, _⟩
  · unfold Seg at h1; omega
  · exact absurd h1 e

/-- The counter of credits, as long as there is one to spend and room for one
more. -/
theorem count_exact (k : Kind) (c : Nat) (av incr dec : Bool) (hc : c ≤ 15) (ha : av = decide (c ≠ 0))
    (hd : dec = true → c ≠ 0) (hi : incr = true → c < 15) :
    (count k c av incr dec).1 + (if dec then 1 else 0) = c + (if incr then 1 else 0) ∧
    (count k c av incr dec).2 = decide ((count k c av incr dec).1 ≠ 0) := by
  subst ha
  have h16 : c < 16 := by omega
  clear hc
  revert hd hi
  have key : ∀ c : Fin 16, ∀ incr dec : Bool, ∀ k : Bool, (dec = true → c.val ≠ 0) → (incr = true → c.val < 15) →
      (count (if k then .chi else .cxs) c.val (decide (c.val ≠ 0)) incr dec).1 + (if dec then 1 else 0) = c.val + (if incr then 1 else 0) ∧
      (count (if k then .chi else .cxs) c.val (decide (c.val ≠ 0)) incr dec).2 =
        decide ((count (if k then .chi else .cxs) c.val (decide (c.val ≠ 0)) incr dec).1 ≠ 0) := by
    decide +kernel
  intro hd hi
  cases k with
  | chi => exact key ⟨c, h16⟩ incr dec true hd hi
  | cxs => exact key ⟨c, h16⟩ incr dec false hd hi

end Verif.RtlTx
