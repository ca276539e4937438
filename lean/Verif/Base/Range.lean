import Verif.Base.Tlm
/-!
Plain accesses (no byte enables, streaming width = length) to the reference
memory, in terms of address ranges.
-/
namespace Verif

/-- The bytes of a range. -/
def Mem.range (m : Mem) (a n : Nat) : List Byte := (List.range n).map fun i => m (a + i)

/-- A range overwritten. -/
def Mem.store (m : Mem) (a : Nat) (d : List Byte) : Mem := fun x =>
  if a ≤ x ∧ x < a + d.length then d.getD (x - a) 0#8 else m x

@[simp] theorem Mem.range_length (m : Mem) (a n : Nat) : (m.range a n).length = n := by
  simp [Mem.range]

theorem Mem.store_nil (m : Mem) (a : Nat) : m.store a [] = m := by
  funext x; unfold Mem.store; rw [if_neg (by simp)]

theorem Mem.store_store (m : Mem) (a : Nat) (d e : List Byte) :
    (m.store a d).store (a + d.length) e = m.store a (d ++ e) := by
  funext x
  unfold Mem.store
  by_cases h1 : a ≤ x ∧ x < a + d.length
  · rw [if_neg (by omega), if_pos h1, if_pos (by rw [List.length_append]; omega)]
    simp [List.getElem?_append_left (show x - a < d.length by omega)]
  · by_cases h2 : a + d.length ≤ x ∧ x < a + d.length + e.length
    · rw [if_pos h2, if_pos (by rw [List.length_append]; omega)]
      simp only [List.getD_eq_getElem?_getD]
      rw [List.getElem?_append_right (by omega), show x - a - d.length = x - (a + d.length) by omega]
    · rw [if_neg h2, if_neg h1, if_neg (by rw [List.length_append]; omega)]

theorem writeFrom_store (d : List Byte) : ∀ (m : Mem) (a n i : Nat), i + d.length ≤ n →
    writeFrom m a n [] i d = m.store (a + i) d := by
  induction d with
  | nil => intro m a n i _; rw [Mem.store_nil]; rfl
  | cons c cs ih =>
    intro m a n i h
    simp only [List.length_cons] at h
    have : beEnabled [] i = true := rfl
    rw [writeFrom, this, if_pos rfl, ih _ _ _ _ (by omega), Nat.mod_eq_of_lt (by omega)]
    have w1 : m.set (a + i) c = m.store (a + i) [c] := by
      funext x
      unfold Mem.set Mem.store
      by_cases hx : x = a + i
      · rw [if_pos hx, if_pos (by simp; omega)]; simp [hx]
      · rw [if_neg hx, if_neg (by simp; omega)]
    rw [w1]
    have := m.store_store (a + i) [c] cs
    simpa [Nat.add_assoc] using this

theorem readFrom_range (m : Mem) (d : List Byte) : ∀ (a n i : Nat), i + d.length ≤ n →
    readFrom m a n [] i d = m.range (a + i) d.length := by
  induction d with
  | nil => intros; rfl
  | cons c cs ih =>
    intro a n i h
    simp only [List.length_cons] at h
    have : beEnabled [] i = true := rfl
    rw [readFrom, this, if_pos rfl, ih _ _ _ (by omega), Nat.mod_eq_of_lt (by omega)]
    unfold Mem.range
    rw [List.length_cons, List.range_succ_eq_map, List.map_cons, List.map_map]
    congr 1
    apply List.map_congr_left
    intro j _
    simp only [Function.comp]
    congr 1
    omega

theorem Gp.run_write (m : Mem) (a : Nat) (d : List Byte) :
    Gp.run ⟨.write, a, d, [], d.length⟩ m = (m.store a d, d) := by
  simp only [Gp.run]
  rw [writeFrom_store d m a d.length 0 (by omega)]
  rfl

theorem Gp.run_read (m : Mem) (a : Nat) (d : List Byte) :
    Gp.run ⟨.read, a, d, [], d.length⟩ m = (m, m.range a d.length) := by
  simp only [Gp.run]
  rw [readFrom_range m d a d.length 0 (by omega)]
  rfl

/-- Reading and writing back elsewhere. -/
theorem Mem.store_range (m m' : Mem) (s d n x : Nat) :
    (m.store d (m'.range s n)) x = if d ≤ x ∧ x < d + n then m' (s + (x - d)) else m x := by
  unfold Mem.store
  rw [Mem.range_length]
  split
  · next h => simp [Mem.range, show x - d < n by omega]
  · rfl

/-- Reading back exactly what was stored. -/
theorem Mem.range_store (m : Mem) (a : Nat) (d : List Byte) : (m.store a d).range a d.length = d := by
  apply List.ext_getElem
  · simp
  · intro i h1 h2
    simp [Mem.range, Mem.store, h2]

/-- A store elsewhere does not matter. -/
theorem Mem.range_store_of_disjoint (m : Mem) (a b n : Nat) (d : List Byte)
    (h : a + d.length ≤ b ∨ b + n ≤ a) : (m.store a d).range b n = m.range b n := by
  apply List.map_congr_left
  intro i hi
  have := List.mem_range.1 hi
  unfold Mem.store
  rw [if_neg (by omega)]

end Verif
