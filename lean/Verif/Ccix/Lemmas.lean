import Verif.Ccix.Spec
import Verif.Cxs.Spec

namespace Verif.Ccix
open Spec
open Verif.Cxs (Msg Attr)

/-! ### Opcodes: tables over all 256 values -/

theorem opt_all {α : Type} {o : Option α} {p : α → Bool} (h : o.all p = true) {c : α} (hc : o = some c) : p c = true := by
  subst hc; exact h

theorem reqOp_table : ∀ op : BitVec 8, (toReqOp op).all (fun c =>
    toChi c == some op && isCcixAtomic c == false && isCcixSnpMe c == false && isWrite op == false) = true := by
  decide +kernel

theorem reqOp_back {op c : BitVec 8} (h : toReqOp op = some c) :
    toChi c = some op ∧ isCcixAtomic c = false ∧ isCcixSnpMe c = false ∧ isWrite op = false := by
  have := opt_all (reqOp_table op) h
  simp only [Bool.and_eq_true, beq_iff_eq] at this
  exact ⟨this.1.1.1, this.1.1.2, this.1.2, this.2⟩

theorem writeOp_table : ∀ op : BitVec 8, ∀ r : BitVec 3, (toWriteReqOp op (r.setWidth 8)).all (fun c =>
    toChi c == some op && isCcixAtomic c == false && isCcixSnpMe c == false && isWrite op == true &&
      isCcixCompare c == false && isCompare op == false && isAtomic op == false) = true := by
  decide +kernel

theorem resp3 (r : BitVec 8) (h : r.toNat < 8) : ∃ s : BitVec 3, r = s.setWidth 8 :=
  ⟨r.setWidth 3, by apply BitVec.eq_of_toNat_eq; simp; omega⟩

theorem writeOp_back {op c r : BitVec 8} (hr : r.toNat < 8) (h : toWriteReqOp op r = some c) :
    toChi c = some op ∧ isCcixAtomic c = false ∧ isCcixSnpMe c = false ∧ isWrite op = true ∧
      isCcixCompare c = false ∧ isCompare op = false ∧ isAtomic op = false := by
  obtain ⟨s, rfl⟩ := resp3 r hr
  have := opt_all (writeOp_table op s) h
  simp only [Bool.and_eq_true, beq_iff_eq] at this
  grind

theorem atomicOp_table : ∀ op : BitVec 8, ∀ s : Bool, (toAtomicReqOp op s).all (fun c =>
    toChi c == some op && isCcixAtomic c == true && isCcixSnpMe c == s && isCcixCompare c == isCompare op &&
      hasByteEnables c == false && isAtomic op == true) = true := by
  decide +kernel

theorem atomicOp_back {op c : BitVec 8} {s : Bool} (h : toAtomicReqOp op s = some c) :
    toChi c = some op ∧ isCcixAtomic c = true ∧ isCcixSnpMe c = s ∧ isCcixCompare c = isCompare op ∧
      hasByteEnables c = false ∧ isAtomic op = true := by
  have := opt_all (atomicOp_table op s) h
  simp only [Bool.and_eq_true, beq_iff_eq] at this
  grind

theorem size_back (len : Nat) (h : len = 1 ∨ len = 2 ∨ len = 4 ∨ len = 8 ∨ len = 16 ∨ len = 32 ∨ len = 64) :
    2 ^ sizeCode len = len ∧ sizeCode len < 7 := by
  rcases h with rfl | rfl | rfl | rfl | rfl | rfl | rfl <;> decide

theorem memType_lt (q : ChiReq) (mt : Nat) (h : memType q = some mt) : mt < 6 := by
  unfold memType at h
  grind

theorem memType_some (q : ChiReq) (h : MemOk q) : ∃ mt, memType q = some mt := by
  have := h.early
  cases e : memType q with
  | some mt => exact ⟨mt, rfl⟩
  | none => unfold memType at e; grind

theorem mem_back (q : ChiReq) (h : MemOk q) (mt : Nat) (hm : memType q = some mt) :
    ∃ dv ew ca al od, chiMem mt = some (dv, ew, ca, al, od) ∧ dv = q.device ∧ ca = q.cacheable ∧ al = q.allocate ∧
      (q.device = true → ew = q.ewa ∧ (od = 3 ↔ q.order = 3)) := by
  have h1 := h.device
  have h2 := h.early
  have h3 := h.allocate
  unfold memType at hm
  by_cases hd : q.device = true
  · rw [if_pos hd] at hm
    obtain ⟨hc, ha⟩ := h1 hd
    by_cases ho : q.order = 3
    · rw [if_pos ho] at hm
      by_cases he : q.ewa = true
      · rw [if_pos he] at hm; cases hm
        exact ⟨_, _, _, _, _, rfl, by rw [hd], by rw [hc], by rw [ha], fun _ => ⟨he.symm, by simp [ho]⟩⟩
      · rw [if_neg he] at hm; cases hm
        exact ⟨_, _, _, _, _, rfl, by rw [hd], by rw [hc], by rw [ha], fun _ => ⟨by simpa using he, by simp [ho]⟩⟩
    · have he := h2 hd ho
      rw [if_neg ho, if_pos he] at hm; cases hm
      refine ⟨_, _, _, _, _, rfl, by rw [hd], by rw [hc], by rw [ha], fun _ => ⟨he.symm, ?_⟩⟩
      exact ⟨fun x => absurd x (by decide), fun x => absurd x ho⟩
  · rw [if_neg hd] at hm
    have hd' : q.device = false := by simpa using hd
    cases hc : q.cacheable <;> cases ha : q.allocate <;> simp [hc, ha] at hm <;> subst hm
    · exact ⟨_, _, _, _, _, rfl, hd'.symm, rfl, rfl, fun x => absurd x hd⟩
    · rw [hc] at h3; exact absurd (h3 ha) (by decide)
    · exact ⟨_, _, _, _, _, rfl, hd'.symm, rfl, rfl, fun x => absurd x hd⟩
    · exact ⟨_, _, _, _, _, rfl, hd'.symm, rfl, rfl, fun x => absurd x hd⟩

theorem memType_device (q : ChiReq) (mt : Nat) (hm : memType q = some mt) : mt < 3 ↔ q.device = true := by
  unfold memType at hm
  grind

/-! ### Windows -/

theorem window_ok (cmp : Bool) (mt a len : Nat)
    (h : len = 1 ∨ len = 2 ∨ len = 4 ∨ len = 8 ∨ len = 16 ∨ len = 32) :
    0 < (window cmp mt a len).2 ∧ (window cmp mt a len).1 + (window cmp mt a len).2 ≤ 64 ∧
    ((window cmp mt a len).2 < 8 →
      smallOff cmp a (window cmp mt a len).2 + (window cmp mt a len).2 ≤ 8) := by
  unfold window
  by_cases hc : ¬ cmp ∧ mt < 3
  · simp only [if_pos hc]
    have : cmp = false := by simpa using hc.1
    subst this
    simp only [smallOff]
    rcases h with rfl | rfl | rfl | rfl | rfl | rfl <;> simp <;> omega
  · simp only [if_neg hc]
    unfold smallOff
    cases cmp <;> rcases h with rfl | rfl | rfl | rfl | rfl | rfl <;> simp <;> omega

theorem length_place {dst src out : List Byte} {n : Nat} (h : place dst n src = some out) : out.length = dst.length := by
  unfold place at h
  by_cases hh : n + src.length ≤ dst.length
  · rw [if_pos hh] at h; cases h; simp; omega
  · rw [if_neg hh] at h; cases h

theorem place_getD {dst src out : List Byte} {n : Nat} (h : place dst n src = some out) (i : Nat) :
    out.getD i 0 = if n ≤ i ∧ i < n + src.length then src.getD (i - n) 0 else dst.getD i 0 := by
  unfold place at h
  by_cases hh : n + src.length ≤ dst.length
  · rw [if_pos hh] at h; cases h
    have hl : (dst.take n).length = n := by simp; omega
    simp only [List.getD_eq_getElem?_getD]
    by_cases h1 : i < n
    · rw [if_neg (by omega), List.append_assoc, List.getElem?_append_left (by omega), List.getElem?_take_of_lt h1]
    · by_cases h2 : i < n + src.length
      · rw [if_pos ⟨by omega, h2⟩, List.append_assoc, List.getElem?_append_right (by omega), hl,
          List.getElem?_append_left (by omega)]
      · rw [if_neg (by omega), List.getElem?_append_right (by simp; omega), List.getElem?_drop]
        congr 2
        simp only [List.length_append, hl]; omega
  · rw [if_neg hh] at h; cases h

theorem fetch_place {dst src out : List Byte} {n : Nat} (h : place dst n src = some out) :
    fetch out n src.length = some src := by
  have hl := length_place h
  unfold place at h
  by_cases hh : n + src.length ≤ dst.length
  · rw [if_pos hh] at h; cases h
    unfold fetch
    rw [if_pos (by omega)]
    congr 1
    have e : (dst.take n).length = n := by simp; omega
    rw [List.append_assoc, List.drop_append_of_le_length (by omega), List.drop_eq_nil_of_le (by omega)]
    simp
  · rw [if_neg hh] at h; cases h

theorem fetch_some {src : List Byte} {o n : Nat} (h : o + n ≤ src.length) :
    ∃ w, fetch src o n = some w ∧ w.length = n ∧ ∀ i, i < n → w.getD i 0 = src.getD (o + i) 0 := by
  refine ⟨_, if_pos h, by simp; omega, fun i hi => ?_⟩
  simp only [List.getD_eq_getElem?_getD]
  rw [List.getElem?_take_of_lt hi, List.getElem?_drop]

theorem line_length (d : List Byte) : (line d).length = 64 := by simp [line]

theorem fetch_line {d w : List Byte} {o n : Nat} (hd : d.length ≤ 64) (h : fetch d o n = some w) :
    fetch (line d) o n = some w := by
  unfold fetch at h ⊢
  by_cases hh : o + n ≤ d.length
  · rw [if_pos hh] at h
    rw [line_length, if_pos (by omega), ← h]
    congr 1
    unfold line
    have e : (d ++ List.replicate 64 (0 : Byte)).take 64 = d ++ List.replicate (64 - d.length) 0 := by
      rw [List.take_append, List.take_of_length_le (l := d) hd, List.take_replicate]
      congr 2; omega
    rw [e, List.drop_append_of_le_length (by omega), List.take_append_of_le_length (by simp; omega)]
  · rw [if_neg hh] at h; cases h

theorem line_id {d : List Byte} (h : d.length = 64) : line d = d := by
  unfold line; rw [← h, List.take_left]

end Verif.Ccix
