import Verif.Axi2Tlm.Model
import Verif.Tlm2Axi.Lemmas

namespace Verif.Axi2Tlm
open Verif Verif.Axi Verif.Tlm2Axi

theorem sub_align (x to : Nat) : x - align x to = x % to := by
  unfold align
  have := Nat.div_add_mod x to
  rw [Nat.mul_comm] at this
  omega

/-- Writes of the bytes `l`, the first being byte `p`, byte `i` going to `A i`. -/
def writesAt (A : Nat → Nat) (p : Nat) (l : List (Option Byte)) : List (Nat × Byte) :=
  (List.range' p l.length).filterMap fun i => (l.getD (i - p) none).map fun b => (A i, b)

theorem writesAt_append (A : Nat → Nat) (p : Nat) (l m : List (Option Byte)) :
    writesAt A p (l ++ m) = writesAt A p l ++ writesAt A (p + l.length) m := by
  unfold writesAt
  rw [List.length_append, ← List.range'_append_1, List.filterMap_append]
  congr 1
  · apply filterMap_congr'
    intro i hi
    rw [List.mem_range'_1] at hi
    rw [List.getD_eq_getElem?_getD, List.getD_eq_getElem?_getD, List.getElem?_append_left (by omega)]
  · apply filterMap_congr'
    intro i hi
    rw [List.mem_range'_1] at hi
    rw [List.getD_eq_getElem?_getD, List.getD_eq_getElem?_getD, List.getElem?_append_right (by omega)]
    rw [show i - p - l.length = i - (p + l.length) by omega]

/-- What one beat adds to the payload, against what it means on the bus. -/
theorem beat_writes (db : Nat) (a : Ax) (n : Nat) (w : WBeat) (A : Nat → Nat) (p i k : Nat) (hk : i + k = db)
    (hlow : ∀ l, l < i → w.strb l = false) (hA : ∀ j, j < k → A (p + j) = a.laneAddr db n (i + j)) :
    writesAt A p ((List.range' i k).map fun l => if w.strb l then some (w.data l) else none) = a.beatWrites db n w := by
  unfold writesAt Ax.beatWrites
  rw [List.length_map, List.length_range']
  symm
  apply window _ _ db i k p (by omega)
  · intro l hl hout
    have : l < i := by omega
    simp [hlow l this]
  · intro j hj
    have : ((List.range' i k).map fun l => if w.strb l then some (w.data l) else none).getD (p + j - p) none =
        if w.strb (i + j) then some (w.data (i + j)) else none := by
      rw [List.getD_eq_getElem?_getD, List.getElem?_map, show p + j - p = j by omega,
        List.getElem?_range' hj]
      simp
    rw [this]
    cases w.strb (i + j)
    · simp
    · simp [hA j hj]

/-- The payload as a whole means the writes of its bytes. -/
theorem spec_of_bytes (p : Tlm2Axi.Gp) (acc : List (Option Byte)) (hlen : acc.length = p.len)
    (hdata : ∀ i, p.data i = (acc.getD i none).getD 0) (hbe : p.be = tryDropBE (acc.map Option.isSome)) :
    specWrites p = writesAt (tlmAddr p) 0 acc := by
  unfold specWrites writesAt
  rw [hlen, List.range_eq_range']
  apply filterMap_congr'
  intro i hi
  rw [List.mem_range'_1] at hi
  have hil : i < acc.length := by omega
  have hen : beEnabled p.be i = (acc[i]).isSome := by
    rw [hbe, tryDropBE]
    split
    · rename_i hall
      rw [List.all_eq_true] at hall
      have := hall (acc[i]).isSome (by rw [List.mem_map]; exact ⟨_, List.getElem_mem hil, rfl⟩)
      simp only [id] at this
      rw [this]; rfl
    · unfold beEnabled
      rw [List.length_map, Nat.mod_eq_of_lt hil, List.getElem?_map, List.getElem?_eq_getElem hil]
      rfl
  rw [hen, hdata i, Nat.sub_zero, List.getD_eq_getElem?_getD, List.getElem?_eq_getElem hil]
  cases acc[i] <;> simp

end Verif.Axi2Tlm
