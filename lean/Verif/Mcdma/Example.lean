import Verif.Mcdma.Props
/-! A program that meets the hypotheses of `mm2s_exact`. -/
namespace Verif.Mcdma
open Verif

/-! ### A program -/

/-- Two descriptors on channel 0 and one on channel 1. -/
def exMem : Mem := fun a =>
  if a = 0x100 then 0x40#8 else if a = 0x101 then 0x01#8   -- next = 0x140
  else if a = 0x109 then 0x10#8                             -- buffer = 0x1000
  else if a = 0x114 then 3#8                                -- length 3, not last
  else if a = 0x149 then 0x20#8                             -- buffer = 0x2000
  else if a = 0x154 then 2#8 else if a = 0x157 then 0x40#8  -- length 2, last
  else if a = 0x209 then 0x30#8
  else if a = 0x214 then 1#8 else if a = 0x217 then 0x40#8
  else if 0x1000 ≤ a then BitVec.ofNat 8 (a + a / 4096)
  else 0#8

def exSt : St :=
  { ccr := 1#32, chen := 3#32, mem := exMem, out := []
    ch := fun c => if c = 0 then ⟨1#32, 0#32, 0x100#32, 0#32, 0x140#32, 0#32⟩
      else ⟨1#32, 0#32, 0x200#32, 0#32, 0x200#32, 0#32⟩ }

def exDescs : Nat → List Desc := fun c =>
  if c = 0 then [⟨0x100, 0x140, 0x1000, 3, false, 0, [1#8, 2#8, 3#8]⟩, ⟨0x140, 0, 0x2000, 2, true, 0, [2#8, 3#8]⟩]
  else if c = 1 then [⟨0x200, 0, 0x3000, 1, true, 0, [3#8]⟩]
  else []

example : Program exSt exDescs 2 := by
  have two : ∀ {P : Nat → Prop}, P 0 → P 1 → ∀ c, c < 2 → P c := by
    intro P h0 h1 c hc
    rcases (show c = 0 ∨ c = 1 by omega) with e | e <;> subst e <;> assumption
  have e0 : exDescs 0 = [⟨0x100, 0x140, 0x1000, 3, false, 0, [1#8, 2#8, 3#8]⟩, ⟨0x140, 0, 0x2000, 2, true, 0, [2#8, 3#8]⟩] := rfl
  have e1 : exDescs 1 = [⟨0x200, 0, 0x3000, 1, true, 0, [3#8]⟩] := rfl
  have get0 : ∀ (i : Nat) d, (exDescs 0)[i]? = some d → (i = 0 ∧ d = ⟨0x100, 0x140, 0x1000, 3, false, 0, [1#8, 2#8, 3#8]⟩) ∨
      (i = 1 ∧ d = ⟨0x140, 0, 0x2000, 2, true, 0, [2#8, 3#8]⟩) := by
    intro i d h
    rw [e0] at h
    match i, h with
    | 0, h => left; simpa using h.symm
    | 1, h => right; simpa using h.symm
    | i + 2, h => simp at h
  have get1 : ∀ (i : Nat) d, (exDescs 1)[i]? = some d → i = 0 ∧ d = ⟨0x200, 0, 0x3000, 1, true, 0, [3#8]⟩ := by
    intro i d h
    rw [e1] at h
    match i, h with
    | 0, h => simpa using h.symm
    | i + 1, h => simp at h
  have mem0 : ∀ d ∈ exDescs 0, d = ⟨0x100, 0x140, 0x1000, 3, false, 0, [1#8, 2#8, 3#8]⟩ ∨
      d = ⟨0x140, 0, 0x2000, 2, true, 0, [2#8, 3#8]⟩ := by intro d hd; simpa [e0] using hd
  have mem1 : ∀ d ∈ exDescs 1, d = ⟨0x200, 0, 0x3000, 1, true, 0, [3#8]⟩ := by intro d hd; simpa [e1] using hd
  constructor
  · refine two ?_ ?_ <;> intro h <;> exact absurd h (by decide)
  · refine two ?_ ?_ <;> intro _ h
    · rw [e0] at h; exact absurd h (by simp)
    · rw [e1] at h; exact absurd h (by simp)
  · refine two ?_ ?_ <;> intro _ <;> decide
  · refine two ?_ ?_ <;> intro d hd
    · rcases get0 0 d hd with ⟨_, e⟩ | ⟨h, _⟩
      · subst e; decide
      · omega
    · rw [(get1 0 d hd).2]; decide
  · refine two ?_ ?_ <;> intro i d e hd he
    · rcases get0 i d hd with ⟨h1, e1⟩ | ⟨h1, e1⟩ <;> rcases get0 _ e he with ⟨h2, e2⟩ | ⟨h2, e2⟩
      · omega
      · subst e1 e2; decide
      · omega
      · omega
    · have := (get1 _ e he).1; omega
  · refine two ?_ ?_ <;> intro i d hd he
    · rcases get0 i d hd with ⟨h1, e1⟩ | ⟨h1, e1⟩
      · subst h1; rw [e0] at he; simp at he
      · subst e1; decide
    · rw [(get1 i d hd).2]; decide
  · refine two ?_ ?_ <;> intro d hd
    · rcases mem0 d hd with e | e <;> subst e <;> constructor <;> decide +kernel
    · rw [mem1 d hd]; constructor <;> decide +kernel
  · refine two ?_ ?_ <;> intro d hd
    · rcases mem0 d hd with e | e <;> subst e <;> decide
    · rw [mem1 d hd]; decide
  · refine two ?_ ?_ <;> intro d hd <;> refine two ?_ ?_ <;> intro d' hd'
    · rcases mem0 d hd with e | e <;> rcases mem0 d' hd' with e' | e' <;> subst e e' <;> decide
    · rw [mem1 d' hd']; rcases mem0 d hd with e | e <;> subst e <;> decide
    · rw [mem1 d hd]; rcases mem0 d' hd' with e | e <;> subst e <;> decide
    · rw [mem1 d hd, mem1 d' hd']; decide
  · refine two ?_ ?_ <;> intro i d hd <;> refine two ?_ ?_ <;> intro i' d' hd'
    · rcases get0 i d hd with ⟨h, e⟩ | ⟨h, e⟩ <;> rcases get0 i' d' hd' with ⟨h', e'⟩ | ⟨h', e'⟩ <;>
        subst h e h' e' <;> decide
    · rw [(get1 i' d' hd').2]; rcases get0 i d hd with ⟨h, e⟩ | ⟨h, e⟩ <;> subst h e <;> simp
    · rw [(get1 i d hd).2]; rcases get0 i' d' hd' with ⟨h, e⟩ | ⟨h, e⟩ <;> subst h e <;> simp
    · left; exact ⟨rfl, by rw [(get1 i d hd).1, (get1 i' d' hd').1]⟩

end Verif.Mcdma
