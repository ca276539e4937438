import Verif.Ccix.Props

/-! C62: answers and snoops between two chips. -/
namespace Verif.Ccix
open Spec

/-- The length the answer to a request has. -/
def answerLen (q : ChiReq) : Nat := if q.opcode = 0x39 then q.len / 2 else q.len

theorem answer_window (q : ChiReq) (mt : Nat) (hm : memType q = some mt) (hl : PartLen (answerLen q)) (i : Nat) (hi : i < 64) :
    decide ((window (isCompare q.opcode) mt q.addr.toNat (answerLen q)).1 ≤ i ∧
      i < (window (isCompare q.opcode) mt q.addr.toNat (answerLen q)).1 +
        (window (isCompare q.opcode) mt q.addr.toNat (answerLen q)).2) = answered q i :=
  window_about { q with len := answerLen q } mt hm hl i hi

theorem len_eq (q : ChiReq) : (if isCompare q.opcode then q.len / 2 else q.len) = answerLen q := by
  unfold isCompare answerLen
  by_cases h : q.opcode = 0x39 <;> simp [h]

theorem smallOff_zero (cmp : Bool) (a n : Nat) (h : a % 4 = 0) : smallOff cmp a n = 0 := by
  unfold smallOff; rw [h]; cases cmp <;> simp

/-- What the home's port sends of a line. -/
theorem shrink_eq (q : ChiReq) (mt : Nat) (hl : PartLen (answerLen q)) (d : List Byte) (hd : d.length = 64)
    (da : Nat) (h4 : da % 4 = 0) :
    ∃ b w, shrink (isCompare q.opcode) mt q.addr.toNat q.len da d = some b ∧
      b.length ≤ 64 ∧
      w.length = (window (isCompare q.opcode) mt q.addr.toNat (answerLen q)).2 ∧
      (∀ i, i < w.length → w.getD i 0 = d.getD ((window (isCompare q.opcode) mt q.addr.toNat (answerLen q)).1 + i) 0) ∧
      fetch (line b) 0 w.length = some w := by
  obtain ⟨w0, w1, -⟩ := window_ok (isCompare q.opcode) mt q.addr.toNat (answerLen q) hl
  have hlt : answerLen q ≠ 0 := by rcases hl with e | e | e | e | e | e <;> omega
  unfold shrink
  simp only [len_eq, if_neg hlt]
  generalize hw : window (isCompare q.opcode) mt q.addr.toNat (answerLen q) = x at w0 w1
  obtain ⟨off, n⟩ := x
  simp only at w0 w1 ⊢
  obtain ⟨wd, f1, f2, f3⟩ := fetch_some (src := d) (o := off) (n := n) (by omega)
  have hpl : ∃ o, place (List.replicate 64 0) 0 wd = some o := ⟨_, if_pos (by simp; omega)⟩
  obtain ⟨o, ho⟩ := hpl
  have hol : o.length = 64 := by rw [length_place ho]; simp
  have hat : (if n < 8 then smallOff (isCompare q.opcode) da n else 0) = 0 := by
    rw [smallOff_zero _ _ _ h4]; split <;> rfl
  simp only [if_neg (show ¬ n = 0 by omega), f1, Option.bind_eq_bind, Option.bind_some, hat, ho]
  refine ⟨_, wd, rfl, by simp; omega, f2, fun i hi => f3 i (by omega), ?_⟩
  apply fetch_line (by simp; omega)
  have hf := fetch_place ho
  unfold fetch at hf ⊢
  rw [if_pos (by omega)] at hf
  have hle : n ≤ if n < 8 then 8 else n := by split <;> omega
  have hle2 : (if n < 8 then 8 else n) ≤ 64 := by split <;> omega
  rw [if_pos (by rw [List.length_take]; omega)]
  rw [List.drop_zero] at hf ⊢
  rw [List.take_take, Nat.min_eq_left (by omega)]
  exact hf

/-- **C62 (data of an answer).** The bytes a request asked for arrive in their places
in the requester's line, with exactly these bytes enabled. The addresses of the data
messages themselves (`da`, `ra`) are zero in this library; other multiples of four do
too. Missing: requests to normal memory, and compares, that are not aligned to their
size (see `unaligned_answer_lost`). -/
theorem answer_data_partial (q : ChiReq) (mt : Nat) (hm : memType q = some mt) (hl : PartLen (answerLen q))
    (hal : (q.device = true ∧ q.opcode ≠ 0x39) ∨ q.addr.toNat % answerLen q = 0)
    (d : List Byte) (hd : d.length = 64) (da ra : Nat) (h4 : da % 4 = 0) (h4' : ra % 4 = 0) :
    ∃ b o e, shrink (isCompare q.opcode) mt q.addr.toNat q.len da d = some b ∧ b.length ≤ 64 ∧
      expand (isCompare q.opcode) mt q.addr.toNat q.len ra b = some (o, e) ∧
      ∀ i, i < 64 → e.getD i false = answered q i ∧ (answered q i = true → o.getD i 0 = d.getD i 0) := by
  obtain ⟨b, w, s1, s2, s3, s4, s5⟩ := shrink_eq q mt hl d hd da h4
  obtain ⟨w0, w1, -⟩ := window_ok (isCompare q.opcode) mt q.addr.toNat (answerLen q) hl
  have hlt : answerLen q ≠ 0 := by rcases hl with e | e | e | e | e | e <;> omega
  have hoff : q.addr.toNat % 64 = (window (isCompare q.opcode) mt q.addr.toNat (answerLen q)).1 := by
    unfold window
    rcases hal with ⟨h1, h2⟩ | h
    · have hc : ¬ isCompare q.opcode = true ∧ mt < 3 := by
        unfold isCompare
        rw [memType_device q mt hm]
        exact ⟨by simpa using h2, h1⟩
      rw [if_pos hc]
    · have : q.addr.toNat / answerLen q * answerLen q = q.addr.toNat := Nat.div_mul_cancel (Nat.dvd_of_mod_eq_zero h)
      split
      · rfl
      · simp only [this]
  have hans := fun i hi => answer_window q mt hm hl i hi
  generalize hw : window (isCompare q.opcode) mt q.addr.toNat (answerLen q) = x at *
  obtain ⟨off, n⟩ := x
  simp only at *
  have hpl : ∃ o, place (List.replicate 64 0) off w = some o := ⟨_, if_pos (by simp; omega)⟩
  obtain ⟨o, ho⟩ := hpl
  refine ⟨b, o, (List.range 64).map (fun i => decide (off ≤ i ∧ i < off + n)), s1, s2, ?_, fun i hi => ?_⟩
  · unfold expand
    have hat : (if n < 8 then smallOff (isCompare q.opcode) ra n else 0) = 0 := by
      rw [smallOff_zero _ _ _ h4']; split <;> rfl
    simp only [len_eq, if_neg hlt, hw, if_neg (show ¬ n = 0 by omega), hat]
    rw [s3] at s5
    simp only [s5, hoff, Option.bind_eq_bind, Option.bind_some, ho]
    rfl
  · rw [← hans i hi]
    refine ⟨by simp [List.getD_eq_getElem?_getD, hi], fun h => ?_⟩
    obtain ⟨h1, h2⟩ := of_decide_eq_true h
    rw [place_getD ho i, if_pos ⟨h1, by omega⟩, s4 (i - off) (by omega)]
    congr 1; omega

/-- Two bytes of device memory at an odd place, and a four-byte read of normal memory. -/
example : ∃ q q' : ChiReq, memType q = some 0 ∧ PartLen (answerLen q) ∧ (q.device = true ∧ q.opcode ≠ 0x39) ∧
    answered q 18 = true ∧ answered q 17 = false ∧ answered q 20 = false ∧
    PartLen (answerLen q') ∧ q'.addr.toNat % answerLen q' = 0 ∧ answered q' 20 = true :=
  ⟨{ opcode := 0x04, addr := 0x1012, len := 4, tgtID := 5, device := true, order := 3 },
    { opcode := 0x04, addr := 0x1014, len := 4, tgtID := 5 }, by decide, by unfold PartLen answerLen; decide,
    by decide, by decide, by decide, by decide, by unfold PartLen answerLen; decide, by decide, by decide⟩

/-- **C62 fault.** The answer to a request to normal memory that is not aligned to its
size: if it reaches over the end of the line the requester's port writes beyond its
buffer; otherwise the first byte asked for is not among the bytes the answer enables.
The port overwrites the place it computed with the request's address
(`/repo/tlm-modules/private/ccix/ccixport.h` 1515-1518). -/
theorem unaligned_answer_lost (q : ChiReq) (mt : Nat) (hm : memType q = some mt) (hl : PartLen (answerLen q))
    (hn : ¬ (q.device = true ∧ q.opcode ≠ 0x39)) (hal : q.addr.toNat % answerLen q ≠ 0) (ra : Nat) (b : List Byte) :
    (64 < q.addr.toNat % 64 + answerLen q → expand (isCompare q.opcode) mt q.addr.toNat q.len ra b = none) ∧
    ∀ o e, expand (isCompare q.opcode) mt q.addr.toNat q.len ra b = some (o, e) →
      ∃ i, i < 64 ∧ answered q i = true ∧ e.getD i false = false := by
  have hlt : answerLen q ≠ 0 := by rcases hl with e | e | e | e | e | e <;> omega
  have hwin : window (isCompare q.opcode) mt q.addr.toNat (answerLen q) =
      (q.addr.toNat / answerLen q * answerLen q % 64, answerLen q) := by
    unfold window
    rw [if_neg]
    unfold isCompare
    rw [memType_device q mt hm]
    intro ⟨h1, h2⟩
    exact hn ⟨h2, by simpa using h1⟩
  unfold expand
  simp only [len_eq, if_neg hlt, hwin]
  cases hf : fetch (line b) (if answerLen q < 8 then smallOff (isCompare q.opcode) ra (answerLen q) else 0) (answerLen q) with
  | none => simp
  | some w =>
    have hwl : w.length = answerLen q := by
      unfold fetch at hf
      by_cases h : (if answerLen q < 8 then smallOff (isCompare q.opcode) ra (answerLen q) else 0) + answerLen q ≤ (line b).length
      · rw [if_pos h] at hf; cases hf
        rw [List.length_take, List.length_drop]; omega
      · rw [if_neg h] at hf; cases hf
    simp only [Option.bind_eq_bind, Option.bind_some]
    refine ⟨fun h => ?_, fun o e h => ?_⟩
    · have : place (List.replicate 64 0) (q.addr.toNat % 64) w = none := if_neg (by simp; omega)
      rw [this]; rfl
    · cases hp : place (List.replicate 64 0) (q.addr.toNat % 64) w with
      | none => rw [hp] at h; cases h
      | some z =>
        rw [hp] at h
        have he : e = (List.range 64).map (fun i => decide (q.addr.toNat % 64 ≤ i ∧ i < q.addr.toNat % 64 + answerLen q)) :=
          (Prod.mk.inj (Option.some.inj h)).2.symm
        have hb : q.addr.toNat / answerLen q * answerLen q % 64 < q.addr.toNat % 64 ∧
            q.addr.toNat / answerLen q * answerLen q % 64 < 64 := by
          rcases hl with x | x | x | x | x | x <;> rw [x] at hal ⊢ <;> omega
        refine ⟨q.addr.toNat / answerLen q * answerLen q % 64, hb.2, ?_, ?_⟩
        · rw [← answer_window q mt hm hl _ hb.2, hwin]
          apply decide_eq_true
          exact ⟨Nat.le_refl _, by show _ < _ + answerLen q; omega⟩
        · rw [he, List.getD_eq_getElem?_getD]
          simp [hb.2]; omega

/-- A four-byte read of normal memory at an address ending in 3F. -/
example : ∃ q : ChiReq, memType q = some 3 ∧ PartLen (answerLen q) ∧ ¬ (q.device = true ∧ q.opcode ≠ 0x39) ∧
    q.addr.toNat % answerLen q ≠ 0 ∧ 64 < q.addr.toNat % 64 + answerLen q :=
  ⟨{ opcode := 0x04, addr := 0x103F, len := 4, tgtID := 5 }, by decide, by unfold PartLen answerLen; decide, by decide,
    by decide, by decide⟩

/-! ### State -/

/-- **C62 (state of an answer).** Every state an answer with data can give is
translated, and arrives as itself; except that an answer that gives no copy arrives
as one that gives a unique one, there being no other in CCIX. -/
theorem answer_state : ∀ r : BitVec 8, (r = 0 ∨ r = 1 ∨ r = 2 ∨ r = 6 ∨ r = 7) →
    (toResp false r).bind (fun p => ofResp p.1 p.2) = some (if r = 0 then 2 else r) := by
  decide +kernel

/-- The answer to an atomic gives no copy of the line, and arrives as unique. -/
theorem atomic_state : ∀ r : BitVec 8, (toResp true r).bind (fun p => ofResp p.1 p.2) = some 2 := by
  decide +kernel

/-- Other states are refused. -/
theorem answer_refused : ∀ r : BitVec 8, toResp false r = none ↔ ¬ (r = 0 ∨ r = 1 ∨ r = 2 ∨ r = 6 ∨ r = 7) := by
  decide +kernel

/-! ### Snoops -/

/-- **C62 (snoops).** A snoop that crosses makes on the caches of the other chip the
demand it was to make; the stashing and forwarding snoops are refused. -/
theorem snoop_demand : ∀ op : BitVec 8, demand op = (toSnpOp op).bind (fun c => (ofSnpOp c).bind demand) ∧
    ((toSnpOp op).isSome = true ↔ demand op ≠ none) := by
  decide +kernel

/-- The two with which a cache keeps no dirty copy still forbid one. -/
theorem clean_forbids_dirty : ∀ op : BitVec 8, demand op = some .clean ∨ demand op = some .discarded →
    (toSnpOp op).bind ofSnpOp = some op ∧ snpNoSD op = true := by
  decide +kernel

theorem answers_back : ∀ a ∈ answers, a ≠ .resp 3 → (toSnpResp a).bind (fun p => ofSnpResp p.1 p.2) = some a := by
  decide +kernel

/-- **C62 (answers to snoops).** Every answer a cache gives to a snoop arrives as
itself, with the state and the responsibility for dirty data that it carries. Missing:
`SnpResp_SD`, see below. -/
theorem snoop_answers_partial : ∀ a ∈ answers, a ≠ .resp 3 →
    ∃ p, toSnpResp a = some p ∧ ofSnpResp p.1 p.2 = some a := by
  intro a h1 h2
  have h := answers_back a h1 h2
  cases hp : toSnpResp a with
  | none => rw [hp] at h; cases h
  | some p => rw [hp] at h; exact ⟨p, rfl, h⟩

/-- **C62 fault.** The answer of a cache that keeps a shared dirty copy and was not
asked for data is refused. -/
theorem shared_dirty_refused : SnpAns.resp 3 ∈ answers ∧ toSnpResp (.resp 3) = none := by decide +kernel

/-- Nothing that is not an answer comes out of the translation back. -/
theorem snoop_answer_sound : ∀ op attr : BitVec 8, ∀ a, ofSnpResp op attr = some a → a ∈ answers := by
  intro op attr a h
  unfold ofSnpResp at h
  by_cases c1 : op.toNat < 2
  · rw [if_pos c1] at h
    by_cases c2 : op.toNat < 1
    · rw [if_pos c2] at h
      split at h <;> first | (cases h; decide) | cases h
    · rw [if_neg c2] at h
      split at h <;> first | (cases h; decide) | cases h
  · rw [if_neg c1] at h
    by_cases c2 : op = 2 ∨ op = 3
    · rw [if_pos c2] at h
      split at h <;> first | (cases h; decide) | cases h
    · rw [if_neg c2] at h
      by_cases c3 : op = 4
      · rw [if_pos c3] at h
        split at h <;> first | (cases h; decide) | cases h
      · rw [if_neg c3] at h
        by_cases c4 : op = 6 ∧ attr = 0
        · rw [if_pos c4] at h; cases h; decide
        · rw [if_neg c4] at h; cases h

end Verif.Ccix
