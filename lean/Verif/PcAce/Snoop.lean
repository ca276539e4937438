import Verif.PcAce.Reads

/-! # C72: snoop channels under the ACE checker -/

namespace Verif.PcAce
open Verif.PcAxi (align)

/-! ## Specification -/

inductive SnEv
  | ac (a : Ac)
  | cr (resp : Nat)
  | cd (last : Bool)
  deriving DecidableEq, Repr

/-- The handshakes of a trace, in order: address, response, data. -/
def snEvents : List SnClk → List SnEv
  | [] => []
  | x :: t => x.ac.toList.map .ac ++ x.cr.toList.map .cr ++ x.cd.toList.map .cd ++ snEvents t

def SnEv.ac? : SnEv → Option Ac
  | .ac a => some a
  | _ => none

def SnEv.isCr : SnEv → Bool
  | .cr _ => true
  | _ => false

/-- A response that announces data. -/
def SnEv.gives : SnEv → Bool
  | .cr r => r % 2 = 1
  | _ => false

def SnEv.isCd : SnEv → Bool
  | .cd _ => true
  | _ => false

def snoops (l : List SnEv) : List Ac := l.filterMap SnEv.ac?

/-- DVM messages carry no address in `ACADDR`, but parts of the message. -/
def Ac.dvm (a : Ac) : Prop := a.snoop = 0xe ∨ a.snoop = 0xf

/-- The codes of `ACSNOOP`: reads, maintenance, DVM; addresses are aligned to the bus. -/
def AcOk (bus : Nat) (a : Ac) : Prop :=
  a.snoop ∈ [0, 1, 2, 3, 7, 8, 9, 0xd, 0xe, 0xf] ∧ (¬ a.dvm → bus ∣ a.addr)

/-- `CRRESP`: dirty responsibility is passed only with data; nothing stays shared after `ReadUnique`,
`CleanInvalid` and `MakeInvalid`. -/
def CrOk (a : Ac) (r : Nat) : Prop :=
  (r / 4 % 2 = 1 → r % 2 = 1) ∧ (r / 8 % 2 = 1 → a.snoop ≠ 7 ∧ a.snoop ≠ 9 ∧ a.snoop ≠ 0xd)

/-- `e` may follow `pre`: responses answer the snoops in order, data follow the responses that announce them, a cache
line each, and `CDLAST` is set on the last beat of a line and on no other. -/
def SnOk (bus beats : Nat) (pre : List SnEv) : SnEv → Prop
  | .ac a => AcOk bus a
  | .cr r => ∃ a, (snoops pre)[pre.countP SnEv.isCr]? = some a ∧ CrOk a r
  | .cd last =>
    pre.countP SnEv.isCd < beats * pre.countP SnEv.gives ∧ (last = true ↔ (pre.countP SnEv.isCd + 1) % beats = 0)

def SnLegal (bus beats : Nat) : List SnEv → List SnEv → Prop
  | _, [] => True
  | pre, e :: es => SnOk bus beats pre e ∧ SnLegal bus beats (pre ++ [e]) es

/-- Fewer than `depth` snoops without response or with data to come whenever another one starts; addresses of 32 bits, DVM messages that could be addresses;
no beat but the last of a line has `CDLAST`. -/
def SnQuiet (bus beats depth : Nat) : List SnEv → List SnEv → Prop
  | _, [] => True
  | pre, e :: es =>
    (∀ a, e = .ac a → a.addr < 2 ^ 32 ∧ (a.dvm → bus ∣ a.addr) ∧ (snoops pre).length + pre.countP SnEv.gives <
      depth + pre.countP SnEv.isCr + pre.countP SnEv.isCd / beats) ∧
    (e = .cd true → (pre.countP SnEv.isCd + 1) % beats = 0) ∧ SnQuiet bus beats depth (pre ++ [e]) es

/-! ## Proof -/

def snEv (line bus depth : Nat) (s : Sn) : SnEv → Sn × List SErr
  | .ac a => snAc bus depth s (some a)
  | .cr r => snCr (line / bus) s (some r)
  | .cd l => snCd s (some l)

def snEvRun (line bus depth : Nat) : Sn → List SnEv → List SErr
  | _, [] => []
  | s, e :: es => (snEv line bus depth s e).2 ++ snEvRun line bus depth (snEv line bus depth s e).1 es

theorem snRun_events (line bus depth : Nat) (s : Sn) (tr : List SnClk) :
    (snRun line bus depth s tr).2 = snEvRun line bus depth s (snEvents tr) := by
  induction tr generalizing s with
  | nil => rfl
  | cons x t ih =>
    obtain ⟨ac, cr, cd⟩ := x
    have n1 : ∀ s, snAc bus depth s none = (s, []) := fun _ => rfl
    have n2 : ∀ s, snCr (line / bus) s none = (s, []) := fun _ => rfl
    have n3 : ∀ s, snCd s none = (s, []) := fun _ => rfl
    cases ac <;> cases cr <;> cases cd <;> simp [snRun, snStep, snEvents, snEvRun, snEv, n1, n2, n3, ih]

/-- The beats still to come of `d` lines of which `j` beats have been seen. -/
def left (beats d j : Nat) : List Nat :=
  if j % beats = 0 then List.replicate (d - j / beats) beats
  else (beats - j % beats) :: List.replicate (d - j / beats - 1) beats

structure SnRel (beats : Nat) (s : Sn) (pre : List SnEv) : Prop where
  cr : s.cr = (snoops pre).drop (pre.countP SnEv.isCr)
  le : pre.countP SnEv.isCr ≤ (snoops pre).length
  cd : s.cd = left beats (pre.countP SnEv.gives) (pre.countP SnEv.isCd)
  le' : pre.countP SnEv.isCd ≤ beats * pre.countP SnEv.gives

theorem left_length (beats d j : Nat) (hb : 0 < beats) (h : j ≤ beats * d) : (left beats d j).length = d - j / beats := by
  unfold left
  by_cases c : j % beats = 0
  · rw [if_pos c, List.length_replicate]
  · rw [if_neg c, List.length_cons, List.length_replicate]
    have e := Nat.div_add_mod j beats
    have : beats * (j / beats) < beats * d := by omega
    have := Nat.lt_of_mul_lt_mul_left this
    omega

theorem left_snoc (beats d j : Nat) (hb : 0 < beats) (h : j ≤ beats * d) : left beats (d + 1) j = left beats d j ++ [beats] := by
  unfold left
  have hd : j / beats ≤ d := by
    have := Nat.div_le_div_right (c := beats) h
    rwa [Nat.mul_div_cancel_left _ hb] at this
  by_cases c : j % beats = 0
  · rw [if_pos c, if_pos c, ← List.replicate_succ', show d - j / beats + 1 = d + 1 - j / beats by omega]
  · rw [if_neg c, if_neg c, List.cons_append, ← List.replicate_succ']
    have e := Nat.div_add_mod j beats
    have : beats * (j / beats) < beats * d := by omega
    have := Nat.lt_of_mul_lt_mul_left this
    rw [show d - j / beats - 1 + 1 = d + 1 - j / beats - 1 by omega]

theorem succ_div_mod (beats j : Nat) (hb : 0 < beats) :
    ((j + 1) % beats = 0 ∧ (j + 1) / beats = j / beats + 1 ∧ j % beats = beats - 1) ∨
    ((j + 1) % beats = j % beats + 1 ∧ (j + 1) / beats = j / beats ∧ j % beats + 1 < beats) := by
  have e := Nat.div_add_mod j beats
  have l := Nat.mod_lt j hb
  rcases Nat.lt_or_ge (j % beats + 1) beats with c | c
  · right
    have h1 : j + 1 = j % beats + 1 + beats * (j / beats) := by omega
    refine ⟨?_, ?_, c⟩
    · rw [h1, Nat.add_mul_mod_self_left, Nat.mod_eq_of_lt c]
    · conv => lhs; rw [h1]
      rw [Nat.add_mul_div_left _ _ hb, Nat.div_eq_of_lt c, Nat.zero_add]
  · left
    have h1 : j + 1 = beats * (j / beats + 1) := by rw [Nat.mul_add]; omega
    refine ⟨?_, ?_, by omega⟩
    · rw [h1, Nat.mul_mod_right]
    · conv => lhs; rw [h1]
      rw [Nat.mul_div_cancel_left _ hb]

/-- The head of the list is the number of beats the current line still needs. -/
theorem left_cons (beats d j : Nat) (hb : 0 < beats) (h : j < beats * d) :
    ∃ l, left beats d j = (beats - j % beats) :: l ∧
      left beats d (j + 1) = (if beats - j % beats = 1 then l else (beats - j % beats - 1) :: l) := by
  have hd : j / beats < d := (Nat.div_lt_iff_lt_mul hb).mpr (by rw [Nat.mul_comm]; exact h)
  have hl : left beats d j = (beats - j % beats) :: List.replicate (d - j / beats - 1) beats := by
    unfold left
    by_cases c : j % beats = 0
    · rw [if_pos c, c, show d - j / beats = (d - j / beats - 1) + 1 by omega, List.replicate_succ]; simp
    · rw [if_neg c]
  refine ⟨_, hl, ?_⟩
  unfold left
  have l := Nat.mod_lt j hb
  rcases succ_div_mod beats j hb with ⟨h1, h2, h3⟩ | ⟨h1, h2, h3⟩
  · rw [if_pos h1, h2, if_pos (by omega), Nat.sub_sub]
  · rw [if_neg (by omega), h1, h2, if_neg (by omega), ← Nat.sub_sub]

theorem snoops_snoc (pre : List SnEv) (e : SnEv) : snoops (pre ++ [e]) = snoops pre ++ e.ac?.toList := by
  unfold snoops
  rw [List.filterMap_append]
  cases e <;> rfl

theorem countP_snoc (p : SnEv → Bool) (pre : List SnEv) (e : SnEv) :
    (pre ++ [e]).countP p = pre.countP p + if p e then 1 else 0 := by
  rw [List.countP_append, List.countP_singleton]

theorem acsnoop_mem (s : Nat) : checkAcsnoop s = true ↔ s ∈ [0, 1, 2, 3, 7, 8, 9, 0xd, 0xe, 0xf] := by
  unfold checkAcsnoop
  rw [List.contains_iff_mem]

theorem cr_iff (a : Ac) (r : Nat) : checkCr a r = [] ↔ CrOk a r := by
  unfold checkCr CrOk bit
  rw [List.append_eq_nil_iff, err_nil, err_nil]
  by_cases h1 : r / 4 % 2 = 1 <;> by_cases h2 : r % 2 = 1 <;> by_cases h3 : r / 8 % 2 = 1 <;>
    simp [h1, h2, h3, and_assoc]

theorem sn_step {line bus depth : Nat} (hb : 0 < line / bus) (h32 : line / bus < 2 ^ 32) {s : Sn} {pre : List SnEv}
    (h : SnRel (line / bus) s pre) (e : SnEv)
    (hq1 : ∀ a, e = .ac a → a.addr < 2 ^ 32 ∧ (a.dvm → bus ∣ a.addr) ∧ (snoops pre).length + pre.countP SnEv.gives <
      depth + pre.countP SnEv.isCr + pre.countP SnEv.isCd / (line / bus))
    (hq2 : e = .cd true → (pre.countP SnEv.isCd + 1) % (line / bus) = 0) :
    ((snEv line bus depth s e).2 = [] ↔ SnOk bus (line / bus) pre e) ∧
    ((snEv line bus depth s e).2 = [] → SnRel (line / bus) (snEv line bus depth s e).1 (pre ++ [e])) := by
  cases e with
  | ac a =>
    obtain ⟨h32a, hdvm, hcap⟩ := hq1 a rfl
    have hlen : s.cr.length + s.cd.length < depth := by
      rw [h.cr, h.cd, left_length _ _ _ hb h.le', List.length_drop]
      have := Nat.div_le_div_right (c := line / bus) h.le'
      rw [Nat.mul_div_cancel_left _ hb] at this
      have := h.le
      omega
    have e : snEv line bus depth s (.ac a) =
        ({ s with cr := s.cr ++ [a] }, err (checkAcsnoop a.snoop) .acsnoop ++ err (checkAcaddr bus a.addr) .acaddr) := by
      show snAc bus depth s (some a) = _
      unfold snAc
      dsimp only
      rw [if_pos hlen]
    rw [e]
    constructor
    · rw [List.append_eq_nil_iff, err_nil, err_nil, acsnoop_mem]
      unfold checkAcaddr SnOk AcOk
      rw [Nat.mod_eq_of_lt h32a, beq_iff_eq, align_eq_iff]
      refine and_congr_right fun _ => ⟨fun h _ => h, fun h => ?_⟩
      rcases Classical.em a.dvm with c | c
      · exact hdvm c
      · exact h c
    · intro _
      refine ⟨?_, ?_, ?_, ?_⟩
      · show s.cr ++ [a] = _
        rw [snoops_snoc, countP_snoc, h.cr]
        show _ = (snoops pre ++ [a]).drop (_ + 0)
        rw [Nat.add_zero, List.drop_append_of_le_length h.le]
      · rw [snoops_snoc, countP_snoc, List.length_append]
        exact Nat.le_trans h.le (Nat.le_add_right _ _)
      · rw [countP_snoc, countP_snoc]; exact h.cd
      · rw [countP_snoc, countP_snoc]; exact h.le'
  | cr r =>
    have e : snEv line bus depth s (.cr r) = snCr (line / bus) s (some r) := rfl
    rw [e]
    unfold snCr SnOk
    dsimp only
    have hget : (snoops pre)[pre.countP SnEv.isCr]? = s.cr[0]? := by rw [h.cr, List.getElem?_drop, Nat.add_zero]
    rw [hget]
    cases hcr : s.cr with
    | nil =>
      constructor
      · constructor
        · intro e; cases e
        · rintro ⟨a, ha, _⟩; cases ha
      · intro e; cases e
    | cons a l =>
      dsimp only
      have hdrop := h.cr
      rw [hcr] at hdrop
      have hlt : pre.countP SnEv.isCr < (snoops pre).length := by
        rcases Nat.lt_or_ge (pre.countP SnEv.isCr) (snoops pre).length with c | c
        · exact c
        · rw [List.drop_eq_nil_of_le c] at hdrop; cases hdrop
      constructor
      · rw [cr_iff]
        exact ⟨fun hc => ⟨a, rfl, hc⟩, fun ⟨x, e, hc⟩ => by cases e; exact hc⟩
      · intro _
        refine ⟨?_, ?_, ?_, ?_⟩
        · show l = _
          rw [snoops_snoc, countP_snoc]
          show l = (snoops pre ++ []).drop (_ + 1)
          rw [List.append_nil, ← List.drop_drop, ← hdrop]; rfl
        · rw [snoops_snoc, countP_snoc]
          show _ + 1 ≤ (snoops pre ++ []).length
          rw [List.append_nil]; exact hlt
        · show (if bit r 0 then s.cd ++ [line / bus] else s.cd) = _
          rw [countP_snoc, countP_snoc]
          have hg : SnEv.gives (.cr r) = bit r 0 := by
            unfold SnEv.gives bit
            by_cases c : r % 2 = 1 <;> simp [c]
          rw [hg]
          by_cases c : bit r 0 = true
          · rw [if_pos c, if_pos c, h.cd]
            exact (left_snoc _ _ _ hb h.le').symm
          · rw [if_neg c, if_neg c, h.cd]; rfl
        · rw [countP_snoc, countP_snoc]
          refine Nat.le_trans h.le' (Nat.mul_le_mul_left _ (Nat.le_add_right _ _))
  | cd last =>
    have e : snEv line bus depth s (.cd last) = snCd s (some last) := rfl
    rw [e]
    unfold snCd SnOk
    dsimp only
    rcases Nat.lt_or_ge (pre.countP SnEv.isCd) (line / bus * pre.countP SnEv.gives) with c | c
    · obtain ⟨l, h1, h2⟩ := left_cons (line / bus) _ _ hb c
      have hcd := h.cd
      rw [h1] at hcd
      rw [hcd]
      have hm := Nat.mod_lt (pre.countP SnEv.isCd) hb
      have hdec : (line / bus - pre.countP SnEv.isCd % (line / bus) + 2 ^ 32 - 1) % 2 ^ 32 =
          line / bus - pre.countP SnEv.isCd % (line / bus) - 1 := by omega
      simp only [hdec]
      have hnext : ∀ cd', cd' = left (line / bus) (pre.countP SnEv.gives) (pre.countP SnEv.isCd + 1) →
          SnRel (line / bus) { s with cd := cd' } (pre ++ [.cd last]) := by
        intro cd' hc
        refine ⟨?_, ?_, ?_, ?_⟩
        · rw [snoops_snoc, countP_snoc]
          show s.cr = (snoops pre ++ []).drop (_ + 0)
          rw [List.append_nil]; exact h.cr
        · rw [snoops_snoc, countP_snoc]
          show _ + 0 ≤ (snoops pre ++ []).length
          rw [List.append_nil]; exact h.le
        · rw [countP_snoc, countP_snoc]; exact hc
        · rw [countP_snoc, countP_snoc]; exact c
      by_cases h0 : line / bus - pre.countP SnEv.isCd % (line / bus) = 1
      · rw [if_pos (by omega)]
        rw [if_pos h0] at h2
        have hz : (pre.countP SnEv.isCd + 1) % (line / bus) = 0 := by
          rcases succ_div_mod (line / bus) (pre.countP SnEv.isCd) hb with ⟨h1, _, _⟩ | ⟨_, _, h3⟩
          · exact h1
          · omega
        constructor
        · rw [err_nil]
          exact ⟨fun hl => ⟨c, fun _ => hz, fun _ => hl⟩, fun hl => hl.2.mpr hz⟩
        · intro _; exact hnext l h2.symm
      · rw [if_neg (by omega)]
        rw [if_neg h0] at h2
        have hz : (pre.countP SnEv.isCd + 1) % (line / bus) ≠ 0 := by
          rcases succ_div_mod (line / bus) (pre.countP SnEv.isCd) hb with ⟨_, _, h3⟩ | ⟨h3, _, _⟩ <;> omega
        constructor
        · refine ⟨fun _ => ⟨c, ?_, fun h => absurd h hz⟩, fun _ => rfl⟩
          intro hl
          rw [hl] at hq2
          exact hq2 rfl
        · intro _; exact hnext _ h2.symm
    · have heq : pre.countP SnEv.isCd = line / bus * pre.countP SnEv.gives := Nat.le_antisymm h.le' c
      have hcd : s.cd = [] := by
        have := left_length (line / bus) _ _ hb h.le'
        rw [h.cd]
        apply List.eq_nil_of_length_eq_zero
        rw [this, heq, Nat.mul_div_cancel_left _ hb, Nat.sub_self]
      rw [hcd]
      constructor
      · constructor
        · intro e; cases e
        · rintro ⟨hlt, _⟩; omega
      · intro e; cases e

theorem sn_run (line bus depth : Nat) (hb : 0 < line / bus) (h32 : line / bus < 2 ^ 32) (es : List SnEv) (s : Sn)
    (pre : List SnEv) (h : SnRel (line / bus) s pre) (hq : SnQuiet bus (line / bus) depth pre es) :
    snEvRun line bus depth s es = [] ↔ SnLegal bus (line / bus) pre es := by
  induction es generalizing s pre with
  | nil => simp [snEvRun, SnLegal]
  | cons e es ih =>
    obtain ⟨h1, h2⟩ := sn_step hb h32 h e hq.1 hq.2.1
    rw [snEvRun, List.append_eq_nil_iff, SnLegal]
    constructor
    · rintro ⟨e1, e2⟩
      exact ⟨h1.mp e1, (ih _ _ (h2 e1) hq.2.2).mp e2⟩
    · rintro ⟨e1, e2⟩
      exact ⟨h1.mpr e1, (ih _ _ (h2 (h1.mpr e1)) hq.2.2).mpr e2⟩

/-- **The snoop checker reports exactly the traces that break the rules of the snoop channels.**  Missing for the full
property: `CDLAST` before the last beat (`early_cdlast_missed`), addresses above 4 GiB,
data buses wider than a line (`wide_snoop_bus`), DVM messages that are not aligned (`dvm_message_false_alarm`), more
snoops than `max_depth`, reset. -/
theorem ace_snoops_exact_partial (line bus depth : Nat) (hb : 0 < line / bus) (h32 : line / bus < 2 ^ 32) (tr : List SnClk)
    (hq : SnQuiet bus (line / bus) depth [] (snEvents tr)) :
    (snRun line bus depth {} tr).2 = [] ↔ SnLegal bus (line / bus) [] (snEvents tr) := by
  rw [snRun_events]
  refine sn_run line bus depth hb h32 _ {} [] ⟨rfl, Nat.le_refl _, ?_, Nat.zero_le _⟩ hq
  show [] = left _ 0 0
  unfold left
  rw [Nat.zero_mod, if_pos rfl, Nat.zero_sub]; rfl

/-! ## Concrete traces -/

instance (a : Ac) : Decidable a.dvm := inferInstanceAs (Decidable (_ ∨ _))
instance (b : Nat) (a : Ac) : Decidable (AcOk b a) := inferInstanceAs (Decidable (_ ∧ _))
instance (a : Ac) (r : Nat) : Decidable (CrOk a r) := inferInstanceAs (Decidable (_ ∧ _))

def snLegalB (bus beats : Nat) : List SnEv → List SnEv → Bool
  | _, [] => true
  | pre, e :: es =>
    (match e with
      | .ac a => decide (AcOk bus a)
      | .cr r => match (snoops pre)[pre.countP SnEv.isCr]? with
        | none => false
        | some a => decide (CrOk a r)
      | .cd last => decide (pre.countP SnEv.isCd < beats * pre.countP SnEv.gives ∧
          (last = true ↔ (pre.countP SnEv.isCd + 1) % beats = 0))) && snLegalB bus beats (pre ++ [e]) es

theorem snLegalB_iff (bus beats : Nat) (pre es : List SnEv) : snLegalB bus beats pre es = true ↔ SnLegal bus beats pre es := by
  induction es generalizing pre with
  | nil => simp [snLegalB, SnLegal]
  | cons e es ih =>
    rw [snLegalB.eq_def, SnLegal]
    dsimp only
    rw [Bool.and_eq_true, ih]
    refine and_congr_left fun _ => ?_
    cases e with
    | ac a => exact decide_eq_true_iff
    | cr r =>
      unfold SnOk
      dsimp only
      cases (snoops pre)[pre.countP SnEv.isCr]? with
      | none => simp
      | some a =>
        dsimp only
        rw [decide_eq_true_eq]
        exact ⟨fun h => ⟨a, rfl, h⟩, fun ⟨x, e, h⟩ => by cases e; exact h⟩
    | cd l => exact decide_eq_true_iff

def snQuietB (bus beats depth : Nat) : List SnEv → List SnEv → Bool
  | _, [] => true
  | pre, e :: es =>
    (match e with
      | .ac a => decide (a.addr < 2 ^ 32 ∧ (a.dvm → bus ∣ a.addr) ∧ (snoops pre).length + pre.countP SnEv.gives <
          depth + pre.countP SnEv.isCr + pre.countP SnEv.isCd / beats)
      | .cr _ => true
      | .cd last => !last || decide ((pre.countP SnEv.isCd + 1) % beats = 0)) && snQuietB bus beats depth (pre ++ [e]) es

theorem snQuiet_of (bus beats depth : Nat) (pre es : List SnEv) (h : snQuietB bus beats depth pre es = true) :
    SnQuiet bus beats depth pre es := by
  induction es generalizing pre with
  | nil => trivial
  | cons e es ih =>
    rw [snQuietB.eq_def] at h
    dsimp only at h
    rw [Bool.and_eq_true] at h
    refine ⟨?_, ?_, ih _ h.2⟩
    · rintro a rfl
      exact of_decide_eq_true h.1
    · rintro rfl
      simpa using h.1

/-- Two snoops, the first of them answered with a line in four beats while the second starts. -/
def sampleSn : List SnClk :=
  [{ ac := some ⟨64, 1, 0⟩ }, { ac := some ⟨0x80, 7, 0⟩, cr := some 0xd }, { cr := some 0, cd := some false }, { cd := some false },
   { cd := some false, ac := some ⟨0, 0xf, 0⟩ }, { cd := some true, cr := some 0 }]

example : SnQuiet 16 4 64 [] (snEvents sampleSn) ∧ SnLegal 16 4 [] (snEvents sampleSn) :=
  ⟨snQuiet_of _ _ _ _ _ (by decide +kernel), (snLegalB_iff ..).mp (by decide +kernel)⟩

/-- One beat too few before `CDLAST` is absent, and a response too many. -/
example : SnQuiet 16 4 64 [] (snEvents (sampleSn ++ [{ cr := some 0 }])) ∧ ¬ SnLegal 16 4 [] (snEvents (sampleSn ++ [{ cr := some 0 }])) :=
  ⟨snQuiet_of _ _ _ _ _ (by decide +kernel), fun h => absurd ((snLegalB_iff ..).mpr h) (by decide +kernel)⟩

/-- The trace is legal, yet an error is reported; and the other way round. -/
def SFalseAlarm (line bus : Nat) (tr : List SnClk) : Prop :=
  SnLegal bus (line / bus) [] (snEvents tr) ∧ (snRun line bus 64 {} tr).2 ≠ []
def SMissed (line bus : Nat) (tr : List SnClk) : Prop :=
  ¬ SnLegal bus (line / bus) [] (snEvents tr) ∧ (snRun line bus 64 {} tr).2 = []

/-- `CDLAST` on every beat is accepted: it is looked at only when the line is complete (2880-2890). -/
theorem early_cdlast_missed : SMissed 64 16 [{ ac := some ⟨64, 1, 0⟩ }, { cr := some 1 }, { cd := some true }, { cd := some true },
    { cd := some true }, { cd := some true }] :=
  ⟨fun h => absurd ((snLegalB_iff ..).mpr h) (by decide +kernel), by decide +kernel⟩

/-- With a data bus wider than a line a single beat completes the line, but the counter starts at 0, and the first beat leaves
4294967295 to come: the lack of `CDLAST` is not noticed, nor any number of beats. -/
theorem wide_snoop_bus (line bus n : Nat) (hl : line < bus) (hn : n < 2 ^ 32 - 1) :
    (snRun line bus 64 {} ([{ ac := some ⟨0, 0, 0⟩ }, { cr := some 1 }] ++ List.replicate n { cd := some false })).2 = [] := by
  have h0 : line / bus = 0 := Nat.div_eq_of_lt hl
  have key : ∀ n k : Nat, n < k → k < 2 ^ 32 → (snRun line bus 64 ⟨[], [k]⟩ (List.replicate n { cd := some false })).2 = [] := by
    intro n
    induction n with
    | zero => intro k _ _; rfl
    | succ n ih =>
      intro k h1 h2
      have hk : (k + 2 ^ 32 - 1) % 2 ^ 32 = k - 1 := by omega
      have hs : snStep line bus 64 ⟨[], [k]⟩ { cd := some false } = (⟨[], [k - 1]⟩, []) := by
        unfold snStep snAc snCr snCd
        dsimp only
        rw [hk, if_neg (by omega)]
        rfl
      rw [List.replicate_succ, snRun, hs]
      exact ih (k - 1) (by omega) (by omega)
  have ha : snStep line bus 64 {} { ac := some ⟨0, 0, 0⟩ } = (⟨[⟨0, 0, 0⟩], []⟩, []) := by
    unfold snStep snAc snCr snCd checkAcaddr
    have : align 0 bus = 0 := by unfold align; rw [Nat.zero_div, Nat.zero_mul]
    simp [this, checkAcsnoop, err]
  have hc : snStep line bus 64 ⟨[⟨0, 0, 0⟩], []⟩ { cr := some 1 } = (⟨[], [0]⟩, []) := by
    unfold snStep; rw [h0]; rfl
  rw [List.cons_append, List.cons_append, List.nil_append, snRun, ha]
  rw [snRun, hc]
  cases n with
  | zero => rfl
  | succ n =>
    have hs : snStep line bus 64 ⟨[], [0]⟩ { cd := some false } = (⟨[], [2 ^ 32 - 1]⟩, []) := by rfl
    rw [List.replicate_succ, snRun, hs]
    exact key n (2 ^ 32 - 1) (by omega) (by omega)

/-- A DVM message whose bits do not look like an aligned address is reported. -/
theorem dvm_message_false_alarm : SFalseAlarm 64 16 [{ ac := some ⟨1, 0xf, 0⟩ }] :=
  ⟨(snLegalB_iff ..).mp (by decide +kernel), by decide +kernel⟩

end Verif.PcAce
