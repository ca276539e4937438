import Verif.RtlRx.Spec
import Verif.RtlTx.Lemmas

/-!
The invariant of a link which stays up: the places with flits which software
did not give back are the ones it owns or is about to own.
-/

namespace Verif.RtlRx

open Verif.RtlTx (Kind ring bits Seg ring_seg)

/-- `f` flits were given back before the last cycle, `a` are in the RAM, `b` of
them since before the last cycle, and `o` credits given back were not given
out again. -/
structure Inv {α : Type} (k : Kind) (w : World α) (f b a o : Nat) : Prop where
  ordered : f ≤ w.got.length ∧ w.got.length ≤ b ∧ b ≤ a ∧ a ≤ b + 1
  total : w.total ≤ 15
  came : w.sent.length = a + (if w.s.second.isSome then 1 else 0) + (if w.s.first.isSome then 1 else 0)
  allowed : w.sent.length + w.returned ≤ w.granted
  room : w.granted + w.s.left + (if w.s.give then 1 else 0) + o = w.total + f + w.returned
  owed : o ≤ w.returned ∧ (w.s.back = true → 1 ≤ o)
  credit : w.s.credit + w.granted + (if w.s.back then 1 else 0) = w.total + a + w.returned
  avail : w.s.avail = decide (w.s.credit ≠ 0)
  addr : w.s.addr = a % 15
  upd : ∀ k < 15, w.s.upd k = true ↔ Seg b a k
  own : ∀ k < 15, w.s.own k = true ↔ Seg f b k
  fresh : ∀ k < 15, pulse w.s k = true ↔ Seg f w.got.length k
  second : ∀ x, w.s.second = some x → w.sent[a]? = some x
  first : ∀ x, w.s.first = some x → w.sent[a + (if w.s.second.isSome then 1 else 0)]? = some x
  mem : ∀ j, f ≤ j → j < a → w.sent[j]? = some (w.s.mem (j % 15))
  got : w.got = w.sent.take w.got.length
  quiet : k = .chi → w.s.back = false ∧ w.s.lpd = false
  apart : w.s.back = true → w.s.second = none

theorem inv_start {α : Type} (k : Kind) (m : Nat → α) : Inv k (World.start m) 0 0 0 0 where
  ordered := by simp [World.start]
  total := by simp [World.start]
  came := by simp [World.start, reset]
  allowed := by simp [World.start]
  room := by simp [World.start, reset]
  owed := by simp [World.start, reset]
  credit := by simp [World.start, reset]
  avail := by simp [World.start, reset]
  addr := by simp [World.start, reset]
  upd := by simp [World.start, reset, Seg]
  own := by simp [World.start, reset, Seg]
  fresh := by simp [World.start, reset, Seg, pulse]
  second := by simp [World.start, reset]
  first := by simp [World.start, reset]
  mem := by simp
  got := by simp [World.start]
  quiet := by simp [World.start, reset]
  apart := by simp [World.start, reset]

theorem ring_mod (g n k : Nat) : ring g n k = ring (g % 15) n k := by
  unfold ring
  congr 1
  funext j
  rw [Nat.mod_add_mod]

theorem bits_ring (g n : Nat) (hn : n ≤ 15) : bits (ring g n) = n := by
  have key : ∀ g < 15, ∀ n < 16, bits (ring g n) = n := by decide +kernel
  rw [show ring g n = ring (g % 15) n from funext fun k => ring_mod g n k]
  exact key (g % 15) (Nat.mod_lt _ (by omega)) n (by omega)

/-- The number of places in a part of the ring. -/
theorem seg_count (q : Nat → Bool) (f g : Nat) (h : f ≤ g) (hl : g ≤ f + 15)
    (hq : ∀ k < 15, q k = true ↔ Seg f g k) : ((List.range 15).filter q).length = g - f := by
  have e : (List.range 15).filter q = (List.range 15).filter (ring f (g - f)) := by
    apply List.filter_congr
    intro k hk
    rw [List.mem_range] at hk
    have a := hq k hk
    have b := ring_seg f (g - f) k hk
    rw [show f + (g - f) = g by omega] at b
    rw [Bool.eq_iff_iff, a, b]
  rw [e]
  exact bits_ring f (g - f) (by omega)

theorem seg_any (q : Nat → Bool) (f g : Nat) (h : f ≤ g)
    (hq : ∀ k < 15, q k = true ↔ Seg f g k) : (List.range 15).any q = decide (f < g) := by
  rw [Bool.eq_iff_iff, decide_eq_true_eq, List.any_eq_true]
  constructor
  · rintro ⟨k, hk, e⟩
    have := (hq k (List.mem_range.1 hk)).1 e
    unfold Seg at this; omega
  · intro hl
    have hk : f % 15 < 15 := Nat.mod_lt _ (by omega)
    refine ⟨f % 15, List.mem_range.2 hk, (hq _ hk).2 ?_⟩
    unfold Seg; omega

theorem takes_le {α : Type} {w : World α} {i : In α} (g : Good w i) : (takes w i).length ≤ 15 := by
  unfold takes
  cases hw : i.wr with
  | false => simp
  | true =>
    cases hf : i.flip with
    | none => simp
    | some f => simpa using (g.inOrder f hw hf).1

theorem takes_get {α : Type} (w : World α) (i : In α) (j : Nat) (h : j < (takes w i).length) :
    (takes w i)[j]? = some (w.s.mem ((w.got.length + j) % 15)) := by
  unfold takes at h ⊢
  cases hw : i.wr with
  | false => simp [hw] at h
  | true =>
    cases hf : i.flip with
    | none => simp [hw, hf] at h
    | some f =>
      simp only [hw, hf, List.length_map, List.length_range] at h
      simp [h]

/-- What a good write of the flip register does. -/
theorem pulse_step {α : Type} {c : Kind} {w : World α} {i : In α} (g : Good w i) (k : Nat) (hk : k < 15) :
    (pulse (step c w.s i) k = true ↔ Seg w.got.length (w.got.length + (takes w i).length) k) ∧
    (Seg w.got.length (w.got.length + (takes w i).length) k → w.s.own k = true ∧ w.s.flip k = false) := by
  unfold takes pulse step flipNext
  dsimp only
  cases hw : i.wr with
  | false =>
    simp only [Seg, List.length_nil, Nat.add_zero, Nat.sub_self, Nat.not_lt_zero, false_implies,
      Bool.false_eq_true, if_false, and_true, iff_false]
    cases hc : w.s.clear k <;> cases hf : w.s.flip k <;> simp
  | true =>
    cases hf : i.flip with
    | none => simp [Seg]
    | some f =>
      obtain ⟨_, ho⟩ := g.inOrder f hw hf
      have e := ring_seg w.got.length (bits f) k hk
      rw [← ho k hk] at e
      simp only [List.length_map, List.length_range, if_true]
      have o := g.owned f k hw hf hk
      refine ⟨?_, fun h => o (e.2 h)⟩
      rw [← e]
      constructor
      · intro h; simp only [Bool.and_eq_true] at h; exact h.1
      · intro h; rw [h, (o h).2]; rfl

/-- The counter of credits, as long as there is one to spend and room for one
more. -/
theorem count_exact (k : Kind) (c : Nat) (av incr dec : Bool) (hc : c ≤ 15) (ha : av = decide (c ≠ 0))
    (hd : dec = true → c ≠ 0) (hi : incr = true → c < 15) :
    (count k c av incr dec none).1 + (if dec then 1 else 0) = c + (if incr then 1 else 0) ∧
    (count k c av incr dec none).2 = decide ((count k c av incr dec none).1 ≠ 0) := by
  subst ha
  have h16 : c < 16 := by omega
  clear hc
  revert hd hi
  have key : ∀ c : Fin 16, ∀ incr dec : Bool, ∀ k : Bool, (dec = true → c.val ≠ 0) → (incr = true → c.val < 15) →
      (count (if k then .chi else .cxs) c.val (decide (c.val ≠ 0)) incr dec none).1 + (if dec then 1 else 0) = c.val + (if incr then 1 else 0) ∧
      (count (if k then .chi else .cxs) c.val (decide (c.val ≠ 0)) incr dec none).2 =
        decide ((count (if k then .chi else .cxs) c.val (decide (c.val ≠ 0)) incr dec none).1 ≠ 0) := by
    decide +kernel
  intro hd hi
  cases k with
  | chi => exact key ⟨c, h16⟩ incr dec true hd hi
  | cxs => exact key ⟨c, h16⟩ incr dec false hd hi

/-- Putting places into use. -/
theorem count_refill (k : Kind) (r : Nat) (hr : r ≤ 15) :
    count k 0 false false false (some r) = (r, decide (r ≠ 0)) := by
  have : r % 16 = r := by omega
  cases k <;> simp [count, this]

end Verif.RtlRx
