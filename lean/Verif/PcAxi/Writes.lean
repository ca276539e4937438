import Verif.PcAxi.Model

/-! # C47: write bursts and responses under the protocol checker (AXI4) -/

namespace Verif.PcAxi

/-! ## Specification

The n-th write burst, ended by `WLAST`, belongs to the n-th address. -/

/-- The data beats cut after each `WLAST`; the last piece is the burst still open. -/
def cut : List W → List (List W)
  | [] => [[]]
  | w :: t => if w.last then [w] :: cut t else match cut t with
    | g :: gs => (w :: g) :: gs
    | [] => [[w]]

/-- The complete bursts. -/
def complete (ws : List W) : List (List W) := (cut ws).dropLast

def awsOf (tr : List WrClk) : List Aw := tr.filterMap (·.aw)
def wsOf (tr : List WrClk) : List W := tr.filterMap (·.w)
def bsOf (tr : List WrClk) : List B := tr.filterMap (·.b)

/-- The writes whose address and data are complete. -/
def finished (tr : List WrClk) : List (Aw × List W) := (awsOf tr).zip (complete (wsOf tr))

/-! ## Proof -/

theorem cut_ne (ws : List W) : cut ws ≠ [] := by
  cases ws with
  | nil => simp [cut]
  | cons w t =>
    unfold cut
    split
    · simp
    · split <;> simp

/-- `process_aw_w_axi4` without the limit on responses: addresses left, data left, writes completed,
errors. -/
def cons4 (c : WrCfg) : List WTx → List W → List WTx × List W × List (W × Aw) × List WErr
  | [], wd => ([], wd, [], [])
  | wt, [] => (wt, [], [], [])
  | t :: wt, w :: wd =>
    if w.last then
      let r := cons4 c wt wd
      (r.1, r.2.1, (w, t.aw) :: r.2.2.1, strbErr c t w ++ burstErr c t ++ r.2.2.2)
    else
      let r := cons4 c ({ t with beat := t.beat + 1 } :: wt) wd
      (r.1, r.2.1, r.2.2.1, strbErr c t w ++ r.2.2.2)

theorem proc4_cons4 (c : WrCfg) (wt : List WTx) (wd : List W) (resp : List (W × Aw))
    (h : WErr.maxResp ∉ (proc4 c wt wd resp).2) :
    proc4 c wt wd resp =
      (⟨(cons4 c wt wd).1, (cons4 c wt wd).2.1, resp ++ (cons4 c wt wd).2.2.1⟩, (cons4 c wt wd).2.2.2) := by
  induction wd generalizing wt resp with
  | nil => cases wt <;> simp [proc4, cons4]
  | cons w wd ih =>
    cases wt with
    | nil => simp [proc4, cons4]
    | cons t wt =>
      unfold proc4 cons4
      unfold proc4 at h
      by_cases cl : w.last = true
      · rw [if_pos cl] at h
        rw [if_pos cl, if_pos cl]
        by_cases cd : resp.length < c.depth
        · have e : pushResp c resp w t.aw = (resp ++ [(w, t.aw)], []) := by simp [pushResp, cd]
          rw [e] at h ⊢
          dsimp only at h ⊢
          have := ih wt (resp ++ [(w, t.aw)]) (fun hm => h (List.mem_append_right _ hm))
          rw [this]
          simp
        · have e : pushResp c resp w t.aw = (resp, [.maxResp]) := by simp [pushResp, cd]
          rw [e] at h
          simp at h
      · rw [if_neg cl] at h
        rw [if_neg cl, if_neg cl]
        dsimp only at h ⊢
        have := ih _ resp (fun hm => h (List.mem_append_right _ hm))
        rw [this]

theorem cons4_append (c : WrCfg) (wt wt2 : List WTx) (wd wd2 : List W) :
    cons4 c (wt ++ wt2) (wd ++ wd2) =
      ((cons4 c ((cons4 c wt wd).1 ++ wt2) ((cons4 c wt wd).2.1 ++ wd2)).1,
       (cons4 c ((cons4 c wt wd).1 ++ wt2) ((cons4 c wt wd).2.1 ++ wd2)).2.1,
       (cons4 c wt wd).2.2.1 ++ (cons4 c ((cons4 c wt wd).1 ++ wt2) ((cons4 c wt wd).2.1 ++ wd2)).2.2.1,
       (cons4 c wt wd).2.2.2 ++ (cons4 c ((cons4 c wt wd).1 ++ wt2) ((cons4 c wt wd).2.1 ++ wd2)).2.2.2) := by
  induction wd generalizing wt with
  | nil => cases wt <;> simp [cons4]
  | cons w wd ih =>
    cases wt with
    | nil => simp [cons4]
    | cons t wt =>
      by_cases cl : w.last = true
      · have e := ih wt
        have e1 : cons4 c (t :: wt) (w :: wd) = ((cons4 c wt wd).1, (cons4 c wt wd).2.1,
            (w, t.aw) :: (cons4 c wt wd).2.2.1, strbErr c t w ++ burstErr c t ++ (cons4 c wt wd).2.2.2) := by
          conv => lhs; unfold cons4
          rw [if_pos cl]
        have e2 : cons4 c (t :: wt ++ wt2) (w :: wd ++ wd2) = ((cons4 c (wt ++ wt2) (wd ++ wd2)).1,
            (cons4 c (wt ++ wt2) (wd ++ wd2)).2.1, (w, t.aw) :: (cons4 c (wt ++ wt2) (wd ++ wd2)).2.2.1,
            strbErr c t w ++ burstErr c t ++ (cons4 c (wt ++ wt2) (wd ++ wd2)).2.2.2) := by
          show cons4 c (t :: (wt ++ wt2)) (w :: (wd ++ wd2)) = _
          conv => lhs; unfold cons4
          rw [if_pos cl]
        rw [e1, e2, e]
        simp
      · have e := ih ({ t with beat := t.beat + 1 } :: wt)
        have e1 : cons4 c (t :: wt) (w :: wd) = ((cons4 c ({ t with beat := t.beat + 1 } :: wt) wd).1,
            (cons4 c ({ t with beat := t.beat + 1 } :: wt) wd).2.1,
            (cons4 c ({ t with beat := t.beat + 1 } :: wt) wd).2.2.1,
            strbErr c t w ++ (cons4 c ({ t with beat := t.beat + 1 } :: wt) wd).2.2.2) := by
          conv => lhs; unfold cons4
          rw [if_neg cl]
        have e2 : cons4 c (t :: wt ++ wt2) (w :: wd ++ wd2) =
            ((cons4 c ({ t with beat := t.beat + 1 } :: wt ++ wt2) (wd ++ wd2)).1,
             (cons4 c ({ t with beat := t.beat + 1 } :: wt ++ wt2) (wd ++ wd2)).2.1,
             (cons4 c ({ t with beat := t.beat + 1 } :: wt ++ wt2) (wd ++ wd2)).2.2.1,
             strbErr c t w ++ (cons4 c ({ t with beat := t.beat + 1 } :: wt ++ wt2) (wd ++ wd2)).2.2.2) := by
          show cons4 c (t :: (wt ++ wt2)) (w :: (wd ++ wd2)) = _
          conv => lhs; unfold cons4
          rw [if_neg cl]
          rfl
        rw [e1, e2, e]
        simp

/-- The checker's verdict on all the addresses and data of a trace at once. -/
def total (c : WrCfg) (tr : List WrClk) : List WTx × List W × List (W × Aw) × List WErr :=
  cons4 c ((awsOf tr).map fun a => { aw := a }) (wsOf tr)

/-- The errors about bursts and strobes. -/
def isData : WErr → Bool
  | .strb | .burst => true
  | _ => false

def overflow : WErr → Bool
  | .maxAw | .maxW | .maxResp => true
  | _ => false

theorem cons4_isData (c : WrCfg) (wt : List WTx) (wd : List W) :
    (cons4 c wt wd).2.2.2.filter isData = (cons4 c wt wd).2.2.2 := by
  have h1 : ∀ t w, (strbErr c t w).filter isData = strbErr c t w := by
    intro t w; unfold strbErr; split <;> rfl
  have h2 : ∀ t, (burstErr c t).filter isData = burstErr c t := by
    intro t; unfold burstErr; split <;> rfl
  induction wd generalizing wt with
  | nil => cases wt <;> rfl
  | cons w wd ih =>
    cases wt with
    | nil => rfl
    | cons t wt =>
      unfold cons4
      split <;> simp only [List.filter_append, h1, h2, ih]

theorem wrRun_snoc (c : WrCfg) (axi3 : Bool) (s : Wr) (tr : List WrClk) (x : WrClk) :
    wrRun c axi3 s (tr ++ [x]) =
      ((wrStep c axi3 (wrRun c axi3 s tr).1 x).1, (wrRun c axi3 s tr).2 ++ (wrStep c axi3 (wrRun c axi3 s tr).1 x).2) := by
  induction tr generalizing s with
  | nil => simp [wrRun]
  | cons y t ih => simp [wrRun, ih]

theorem snoc_induction {α : Type} {P : List α → Prop} (h0 : P []) (h1 : ∀ l x, P l → P (l ++ [x])) (l : List α) : P l := by
  have : ∀ l : List α, P l.reverse := by
    intro l
    induction l with
    | nil => exact h0
    | cons x l ih => rw [List.reverse_cons]; exact h1 _ _ ih
  have h := this l.reverse
  rwa [List.reverse_reverse] at h

/-- One cycle of the write checker, when nothing overflows. -/
theorem wrStep_eq (c : WrCfg) (s : Wr) (x : WrClk) (h : ∀ e ∈ (wrStep c false s x).2, overflow e = false) :
    let r := cons4 c (s.wt ++ x.aw.toList.map fun a => { aw := a }) (s.wd ++ x.w.toList)
    (wrStep c false s x).1.wt = r.1 ∧ (wrStep c false s x).1.wd = r.2.1 ∧
    (wrStep c false s x).2.filter isData = r.2.2.2 ∧
    (match x.b with
     | none => (wrStep c false s x).1.resp = s.resp ++ r.2.2.1 ∧ WErr.unknownId ∉ (wrStep c false s x).2
     | some b => (wrStep c false s x).1.resp = (wrB c false (s.resp ++ r.2.2.1) b).1 ∧
        (WErr.unknownId ∈ (wrStep c false s x).2 ↔ WErr.unknownId ∈ (wrB c false (s.resp ++ r.2.2.1) b).2)) := by
  have ha : wrAw c s.wt x.aw = (s.wt ++ x.aw.toList.map fun a => { aw := a }, []) := by
    unfold wrAw
    cases e : x.aw with
    | none => simp
    | some a =>
      by_cases cd : s.wt.length < c.depth
      · simp [cd]
      · exfalso
        have : WErr.maxAw ∈ (wrStep c false s x).2 := by
          unfold wrStep wrAw
          rw [e]
          simp only [cd, if_false]
          split <;> simp
        have := h _ this
        simp [overflow] at this
  have hw : wrW c false s.wd x.w = (s.wd ++ x.w.toList, []) := by
    unfold wrW
    cases e : x.w with
    | none => simp
    | some w =>
      by_cases cd : s.wd.length < c.depth * (if false = true then 16 else 256)
      · simp only [cd, if_true]; rfl
      · exfalso
        have : WErr.maxW ∈ (wrStep c false s x).2 := by
          unfold wrStep wrW
          rw [e]
          simp only [cd, if_false]
          split <;> simp
        have := h _ this
        simp [overflow] at this
  have hp : WErr.maxResp ∉ (proc4 c (s.wt ++ x.aw.toList.map fun a => { aw := a }) (s.wd ++ x.w.toList) s.resp).2 := by
    intro hm
    have : WErr.maxResp ∈ (wrStep c false s x).2 := by
      unfold wrStep
      rw [ha, hw]
      simp only [Bool.false_eq_true, if_false]
      split <;> simp [hm]
    have := h _ this
    simp [overflow] at this
  have hpe := proc4_cons4 c _ _ _ hp
  intro r
  have hst : wrStep c false s x = (match x.b with
      | none => (⟨r.1, r.2.1, s.resp ++ r.2.2.1⟩, r.2.2.2)
      | some b => (⟨r.1, r.2.1, (wrB c false (s.resp ++ r.2.2.1) b).1⟩,
          r.2.2.2 ++ (wrB c false (s.resp ++ r.2.2.1) b).2)) := by
    unfold wrStep
    rw [ha, hw]
    simp only [Bool.false_eq_true, if_false]
    rw [hpe]
    cases x.b <;> simp [r]
  have hd : r.2.2.2.filter isData = r.2.2.2 := cons4_isData c _ _
  have hu : WErr.unknownId ∉ r.2.2.2 := by
    rw [← hd]; simp [isData]
  have hb : ∀ l b, (wrB c false l b).2.filter isData = [] := by
    intro l b
    unfold wrB
    split
    · rfl
    · dsimp only; split <;> rfl
  rw [hst]
  cases e : x.b with
  | none => exact ⟨rfl, rfl, hd, rfl, hu⟩
  | some b =>
    refine ⟨rfl, rfl, ?_, rfl, ?_⟩
    · dsimp only
      rw [List.filter_append, hd, hb, List.append_nil]
    · dsimp only
      rw [List.mem_append]
      exact ⟨fun h => h.resolve_left hu, Or.inr⟩

theorem awsOf_snoc (tr : List WrClk) (x : WrClk) : awsOf (tr ++ [x]) = awsOf tr ++ x.aw.toList := by
  unfold awsOf
  rw [List.filterMap_append]
  cases e : x.aw <;> simp [e]

theorem wsOf_snoc (tr : List WrClk) (x : WrClk) : wsOf (tr ++ [x]) = wsOf tr ++ x.w.toList := by
  unfold wsOf
  rw [List.filterMap_append]
  cases e : x.w <;> simp [e]

theorem bsOf_snoc (tr : List WrClk) (x : WrClk) : bsOf (tr ++ [x]) = bsOf tr ++ x.b.toList := by
  unfold bsOf
  rw [List.filterMap_append]
  cases e : x.b <;> simp [e]

theorem total_snoc (c : WrCfg) (tr : List WrClk) (x : WrClk) :
    let r := cons4 c ((total c tr).1 ++ x.aw.toList.map fun a => { aw := a }) ((total c tr).2.1 ++ x.w.toList)
    total c (tr ++ [x]) = (r.1, r.2.1, (total c tr).2.2.1 ++ r.2.2.1, (total c tr).2.2.2 ++ r.2.2.2) := by
  intro r
  unfold total
  rw [awsOf_snoc, wsOf_snoc, List.map_append, cons4_append]
  rfl

/-- What the running checker holds and has reported, against the whole trace. -/
theorem run_total (c : WrCfg) (tr : List WrClk) (h : ∀ e ∈ (wrRun c false {} tr).2, overflow e = false) :
    (wrRun c false {} tr).1.wt = (total c tr).1 ∧ (wrRun c false {} tr).1.wd = (total c tr).2.1 ∧
      (wrRun c false {} tr).2.filter isData = (total c tr).2.2.2 := by
  revert h
  refine snoc_induction (P := fun tr => (∀ e ∈ (wrRun c false {} tr).2, overflow e = false) →
    (wrRun c false {} tr).1.wt = (total c tr).1 ∧ (wrRun c false {} tr).1.wd = (total c tr).2.1 ∧
      (wrRun c false {} tr).2.filter isData = (total c tr).2.2.2) (fun _ => ⟨rfl, rfl, rfl⟩) ?_ tr
  intro tr x ih h
  rw [wrRun_snoc] at h ⊢
  obtain ⟨i1, i2, i3⟩ := ih (fun e he => h e (List.mem_append_left _ he))
  obtain ⟨s1, s2, s3, _⟩ := wrStep_eq c (wrRun c false {} tr).1 x (fun e he => h e (List.mem_append_right _ he))
  rw [total_snoc]
  dsimp only
  rw [← i1, ← i2, ← i3]
  refine ⟨s1, s2, ?_⟩
  rw [List.filter_append, s3]

theorem burst_iff (c : WrCfg) (h : c.burstsCheck = true) (ws : List W) (a : Aw) (b : Nat) (as : List Aw) :
    WErr.burst ∉ (cons4 c (⟨a, b + 1⟩ :: as.map fun a => { aw := a }) ws).2.2.2 ↔
      (∀ g gs, complete ws = g :: gs → a.len + 1 ≤ b + g.length ∧
        ∀ p ∈ as.zip gs, p.1.len + 1 ≤ p.2.length) := by
  have hs : ∀ t w, WErr.burst ∉ strbErr c t w := by
    intro t w; unfold strbErr; split <;> simp
  induction ws generalizing a b as with
  | nil => simp [cons4, complete, cut]
  | cons w ws ih =>
    unfold cons4
    by_cases cl : w.last = true
    · rw [if_pos cl]
      have e : complete (w :: ws) = [w] :: complete ws := by
        unfold complete
        conv => lhs; unfold cut
        rw [if_pos cl, List.dropLast_cons_of_ne_nil (cut_ne _)]
      rw [e]
      simp only [List.mem_append, not_or, hs, not_false_eq_true, true_and]
      have hb : WErr.burst ∉ burstErr c ⟨a, b + 1⟩ ↔ a.len + 1 ≤ b + 1 := by
        unfold burstErr
        by_cases x : b + 1 + 1 > a.len + 1 <;> simp [h, x] <;> omega
      rw [hb]
      have key : WErr.burst ∉ (cons4 c (as.map fun a => { aw := a }) ws).2.2.2 ↔
          ∀ p ∈ as.zip (complete ws), p.1.len + 1 ≤ p.2.length := by
        cases as with
        | nil => simp [cons4]
        | cons a' as =>
          have : _ ↔ _ := ih a' 0 as
          rw [List.map_cons]
          refine this.trans ?_
          rcases complete ws with _ | ⟨g, gs⟩
          · simp
          · simp
      rw [key]
      constructor
      · rintro ⟨k1, k2⟩ g gs e
        injection e with e1 e2
        subst e1 e2
        exact ⟨by simpa using k1, k2⟩
      · intro hh
        have := hh _ _ rfl
        exact ⟨by simpa using this.1, this.2⟩
    · rw [if_neg cl]
      simp only [List.mem_append, not_or, hs, not_false_eq_true, true_and]
      refine Iff.trans (ih a (b + 1) as) ?_
      have e : ∃ g gs, cut ws = g :: gs ∧ cut (w :: ws) = (w :: g) :: gs := by
        rcases hc : cut ws with _ | ⟨g, gs⟩
        · exact absurd hc (cut_ne _)
        · refine ⟨g, gs, rfl, ?_⟩
          conv => lhs; unfold cut
          rw [if_neg cl, hc]
      obtain ⟨g, gs, e1, e2⟩ := e
      unfold complete
      rw [e1, e2]
      rcases gs with _ | ⟨g', gs⟩
      · simp
      · simp only [List.dropLast_cons_cons]
        constructor
        · intro hh x xs ex
          injection ex with ex1 ex2
          subst ex1 ex2
          have := hh _ _ rfl
          exact ⟨by simp only [List.length_cons]; omega, this.2⟩
        · intro hh x xs ex
          injection ex with ex1 ex2
          subst ex1 ex2
          have := hh _ _ rfl
          simp only [List.length_cons] at this
          exact ⟨by omega, this.2⟩

/-- **A burst that ends too early is reported, and nothing else is**: if nothing overflowed, no error
about the length of a burst is reported iff every finished burst has at least the number of beats its
address announced.  Missing for the full property: bursts that are too long, see
`long_burst_unreported`. -/
theorem bursts_checked_partial (c : WrCfg) (hb : c.burstsCheck = true) (tr : List WrClk)
    (h : ∀ e ∈ (wrRun c false {} tr).2, overflow e = false) :
    WErr.burst ∉ (wrRun c false {} tr).2 ↔ ∀ p ∈ finished tr, p.1.len + 1 ≤ p.2.length := by
  have h3 := (run_total c tr h).2.2
  have e : WErr.burst ∈ (wrRun c false {} tr).2 ↔ WErr.burst ∈ (total c tr).2.2.2 := by
    rw [← h3, List.mem_filter]; simp [isData]
  rw [e]
  unfold total finished
  rcases awsOf tr with _ | ⟨a, as⟩
  · simp [cons4]
  · have := burst_iff c hb (wsOf tr) a 0 as
    rw [List.map_cons, this]
    rcases complete (wsOf tr) with _ | ⟨g, gs⟩
    · simp
    · simp

theorem strb_iff (c : WrCfg) (h : c.strbCheck = true) (ws : List W) (a : Aw) (b : Nat) (as : List Aw) :
    WErr.strb ∉ (cons4 c (⟨a, b + 1⟩ :: as.map fun a => { aw := a }) ws).2.2.2 ↔
      (∀ g gs, cut ws = g :: gs →
        (∀ n w, g[n]? = some w → checkWstrb c.db c.gaps ⟨a, b + n + 1⟩ w.strb = true) ∧
        ∀ p ∈ as.zip gs, ∀ n w, p.2[n]? = some w → checkWstrb c.db c.gaps ⟨p.1, n + 1⟩ w.strb = true) := by
  have hs : ∀ t w, WErr.strb ∉ strbErr c t w ↔ checkWstrb c.db c.gaps t w.strb = true := by
    intro t w; unfold strbErr
    cases checkWstrb c.db c.gaps t w.strb <;> simp [h]
  have hb : ∀ t, WErr.strb ∉ burstErr c t := by
    intro t; unfold burstErr; split <;> simp
  induction ws generalizing a b as with
  | nil =>
    simp only [cons4, cut]
    constructor
    · intro _ g gs e
      injection e with e1 e2
      subst e1 e2
      simp
    · intro _; simp
  | cons w ws ih =>
    unfold cons4
    by_cases cl : w.last = true
    · rw [if_pos cl]
      have e : cut (w :: ws) = [w] :: cut ws := by
        conv => lhs; unfold cut
        rw [if_pos cl]
      rw [e]
      simp only [List.mem_append, not_or, hb, not_false_eq_true, and_true, hs]
      have key : WErr.strb ∉ (cons4 c (as.map fun a => { aw := a }) ws).2.2.2 ↔
          ∀ p ∈ as.zip (cut ws), ∀ n w, p.2[n]? = some w → checkWstrb c.db c.gaps ⟨p.1, n + 1⟩ w.strb = true := by
        cases as with
        | nil => simp [cons4]
        | cons a' as =>
          have : _ ↔ _ := ih a' 0 as
          rw [List.map_cons]
          refine this.trans ?_
          rcases hc : cut ws with _ | ⟨g, gs⟩
          · exact absurd hc (cut_ne _)
          · simp
      rw [key]
      constructor
      · rintro ⟨k1, k2⟩ g gs e
        injection e with e1 e2
        subst e1 e2
        refine ⟨?_, k2⟩
        intro n w' hw
        cases n with
        | zero => simp at hw; subst hw; exact k1
        | succ n => simp at hw
      · intro hh
        have := hh _ _ rfl
        exact ⟨this.1 0 w rfl, this.2⟩
    · rw [if_neg cl]
      simp only [List.mem_append, not_or, hs]
      refine Iff.trans (and_congr_right fun _ => ih a (b + 1) as) ?_
      have e : ∃ g gs, cut ws = g :: gs ∧ cut (w :: ws) = (w :: g) :: gs := by
        rcases hc : cut ws with _ | ⟨g, gs⟩
        · exact absurd hc (cut_ne _)
        · refine ⟨g, gs, rfl, ?_⟩
          conv => lhs; unfold cut
          rw [if_neg cl, hc]
      obtain ⟨g, gs, e1, e2⟩ := e
      rw [e1, e2]
      constructor
      · rintro ⟨k1, k2⟩ x xs ex
        injection ex with ex1 ex2
        subst ex1 ex2
        have := k2 _ _ rfl
        refine ⟨?_, this.2⟩
        intro n w' hw
        cases n with
        | zero => simp at hw; subst hw; exact k1
        | succ n =>
          have := this.1 n w' (by simpa using hw)
          have e : b + (n + 1) + 1 = b + 1 + n + 1 := by omega
          rw [e]; exact this
      · intro hh
        have := hh _ _ rfl
        refine ⟨this.1 0 w rfl, ?_⟩
        intro x xs ex
        injection ex with ex1 ex2
        subst ex1 ex2
        refine ⟨?_, this.2⟩
        intro n w' hw
        have := this.1 (n + 1) w' (by simpa using hw)
        have e : b + (n + 1) + 1 = b + 1 + n + 1 := by omega
        rw [e] at this; exact this

/-- **Every beat of every burst has its strobes checked against its own address and number**: if nothing
overflowed, no strobe error is reported iff each beat that has an address passes the check. -/
theorem every_beat_checked (c : WrCfg) (hb : c.strbCheck = true) (tr : List WrClk)
    (h : ∀ e ∈ (wrRun c false {} tr).2, overflow e = false) :
    WErr.strb ∉ (wrRun c false {} tr).2 ↔
      ∀ p ∈ (awsOf tr).zip (cut (wsOf tr)), ∀ n w, p.2[n]? = some w →
        checkWstrb c.db c.gaps ⟨p.1, n + 1⟩ w.strb = true := by
  have h3 := (run_total c tr h).2.2
  have e : WErr.strb ∈ (wrRun c false {} tr).2 ↔ WErr.strb ∈ (total c tr).2.2.2 := by
    rw [← h3, List.mem_filter]; simp [isData]
  rw [e]
  unfold total
  rcases awsOf tr with _ | ⟨a, as⟩
  · simp [cons4]
  · have := strb_iff c hb (wsOf tr) a 0 as
    rw [List.map_cons, this]
    rcases hc : cut (wsOf tr) with _ | ⟨g, gs⟩
    · exact absurd hc (cut_ne _)
    · simp

/-! ### Responses -/

theorem done_eq (c : WrCfg) (ws : List W) (a : Aw) (b : Nat) (as : List Aw) :
    (cons4 c (⟨a, b⟩ :: as.map fun a => { aw := a }) ws).2.2.1.map (·.2) = ((a :: as).zip (complete ws)).map (·.1) := by
  induction ws generalizing a b as with
  | nil => simp [cons4, complete, cut]
  | cons w ws ih =>
    unfold cons4
    by_cases cl : w.last = true
    · rw [if_pos cl]
      have e : complete (w :: ws) = [w] :: complete ws := by
        unfold complete
        conv => lhs; unfold cut
        rw [if_pos cl, List.dropLast_cons_of_ne_nil (cut_ne _)]
      rw [e]
      cases as with
      | nil => simp [cons4]
      | cons a' as =>
        have := ih a' 1 as
        simp only [List.map_cons, List.zip_cons_cons] at this ⊢
        rw [← this]
    · rw [if_neg cl]
      dsimp only
      rw [ih a (b + 1) as]
      have e : ∃ g gs, cut ws = g :: gs ∧ cut (w :: ws) = (w :: g) :: gs := by
        rcases hc : cut ws with _ | ⟨g, gs⟩
        · exact absurd hc (cut_ne _)
        · refine ⟨g, gs, rfl, ?_⟩
          conv => lhs; unfold cut
          rw [if_neg cl, hc]
      obtain ⟨g, gs, e1, e2⟩ := e
      unfold complete
      rw [e1, e2]
      rcases gs with _ | ⟨g', gs⟩
      · simp
      · simp

theorem total_done (c : WrCfg) (tr : List WrClk) :
    (total c tr).2.2.1.map (·.2) = (finished tr).map (·.1) := by
  unfold total finished
  rcases awsOf tr with _ | ⟨a, as⟩
  · simp [cons4]
  · exact done_eq c _ a 1 as

theorem count_eraseP {α : Type} (p : α → Bool) (q : α → Bool) (l : List α) (x : α) (h : l.find? p = some x) :
    (l.eraseP p).countP q + (if q x then 1 else 0) = l.countP q := by
  induction l with
  | nil => simp at h
  | cons y l ih =>
    by_cases c : p y = true
    · have : y = x := by simpa [c] using h
      subst this
      simp [c, List.countP_cons]
    · have := ih (by simpa [c] using h)
      rw [List.eraseP_cons_of_neg c, List.countP_cons, List.countP_cons]
      omega

def idIs (id : Nat) (x : W × Aw) : Bool := decide (x.2.id = id)

/-- Responses held back = writes finished minus responses seen, for each identifier. -/
theorem resp_count (c : WrCfg) (tr : List WrClk) (h : ∀ e ∈ (wrRun c false {} tr).2, overflow e = false)
    (hu : WErr.unknownId ∉ (wrRun c false {} tr).2) (id : Nat) :
    (wrRun c false {} tr).1.resp.countP (idIs id) + (bsOf tr).countP (fun b => b.id = id) =
      (total c tr).2.2.1.countP (idIs id) := by
  revert h hu
  refine snoc_induction (P := fun tr => (∀ e ∈ (wrRun c false {} tr).2, overflow e = false) →
    WErr.unknownId ∉ (wrRun c false {} tr).2 →
    (wrRun c false {} tr).1.resp.countP (idIs id) + (bsOf tr).countP (fun b => b.id = id) =
      (total c tr).2.2.1.countP (idIs id)) (fun _ _ => rfl) ?_ tr
  intro tr x ih h hu
  rw [wrRun_snoc] at h hu ⊢
  have h0 : ∀ e ∈ (wrRun c false {} tr).2, overflow e = false := fun e he => h e (List.mem_append_left _ he)
  have i := ih h0 (fun hm => hu (List.mem_append_left _ hm))
  obtain ⟨i1, i2, _⟩ := run_total c tr h0
  obtain ⟨_, _, _, s4⟩ := wrStep_eq c (wrRun c false {} tr).1 x (fun e he => h e (List.mem_append_right _ he))
  rw [total_snoc, bsOf_snoc]
  dsimp only
  rw [i1, i2] at s4
  rw [List.countP_append, List.countP_append, ← i]
  cases hb : x.b with
  | none =>
    rw [hb] at s4
    rw [s4.1, List.countP_append]
    simp; omega
  | some b =>
    rw [hb] at s4
    dsimp only at s4
    rw [s4.1]
    have hu' := mt s4.2.mpr (fun hm => hu (List.mem_append_right _ hm))
    revert hu'
    unfold wrB
    cases hf : List.find? (fun x => decide (respId false x = b.id))
        ((wrRun c false {} tr).1.resp ++ (cons4 c ((total c tr).1 ++ x.aw.toList.map fun a => { aw := a })
          ((total c tr).2.1 ++ x.w.toList)).2.2.1) with
    | none => intro hu'; simp at hu'
    | some y =>
      intro _
      have hy : respId false y = b.id := by simpa using List.find?_some hf
      have := count_eraseP _ (idIs id) _ y hf
      rw [List.countP_append] at this
      have e : idIs id y = decide (b.id = id) := by
        unfold idIs
        have : y.2.id = b.id := hy
        rw [this]
      rw [e] at this
      have hl : (some b).toList = [b] := rfl
      dsimp only
      rw [hl, List.countP_cons, List.countP_nil]
      omega

/-- **A response is reported as unexpected iff no finished write waits for it**: as long as nothing
overflowed, no "unexpected transaction id" is reported iff at every moment each identifier has had at
most as many responses as finished writes. -/
theorem responses_checked (c : WrCfg) (tr : List WrClk) (h : ∀ e ∈ (wrRun c false {} tr).2, overflow e = false) :
    WErr.unknownId ∉ (wrRun c false {} tr).2 ↔
      ∀ pre, pre <+: tr → ∀ id, (bsOf pre).countP (fun b => b.id = id) ≤
        (finished pre).countP (fun p => p.1.id = id) := by
  have hfin : ∀ pre id, (finished pre).countP (fun p => p.1.id = id) = (total c pre).2.2.1.countP (idIs id) := by
    intro pre id
    have e1 : (finished pre).countP (fun p => p.1.id = id) = ((finished pre).map (·.1)).countP (fun a => a.id = id) := by
      rw [List.countP_map]; rfl
    rw [e1, ← total_done c pre, List.countP_map]
    rfl
  revert h
  refine snoc_induction (P := fun tr => (∀ e ∈ (wrRun c false {} tr).2, overflow e = false) →
    (WErr.unknownId ∉ (wrRun c false {} tr).2 ↔
      ∀ pre, pre <+: tr → ∀ id, (bsOf pre).countP (fun b => b.id = id) ≤
        (finished pre).countP (fun p => p.1.id = id))) ?_ ?_ tr
  · intro _
    constructor
    · intro _ pre hp id
      rw [List.prefix_nil.mp hp]
      exact Nat.zero_le _
    · intro _; simp [wrRun]
  · intro tr x ih h
    have h' := h
    rw [wrRun_snoc] at h'
    have h0 : ∀ e ∈ (wrRun c false {} tr).2, overflow e = false := fun e he => h' e (List.mem_append_left _ he)
    have i := ih h0
    obtain ⟨i1, i2, _⟩ := run_total c tr h0
    obtain ⟨_, _, _, s4⟩ := wrStep_eq c (wrRun c false {} tr).1 x (fun e he => h' e (List.mem_append_right _ he))
    rw [i1, i2] at s4
    have split : (∀ pre, pre <+: tr ++ [x] → ∀ id, (bsOf pre).countP (fun b => b.id = id) ≤
        (finished pre).countP (fun p => p.1.id = id)) ↔
        (∀ pre, pre <+: tr → ∀ id, (bsOf pre).countP (fun b => b.id = id) ≤
          (finished pre).countP (fun p => p.1.id = id)) ∧
        (∀ id, (bsOf (tr ++ [x])).countP (fun b => b.id = id) ≤
          (finished (tr ++ [x])).countP (fun p => p.1.id = id)) := by
      constructor
      · intro hh
        exact ⟨fun pre hp => hh pre (hp.trans (List.prefix_append _ _)), hh _ (List.prefix_refl _)⟩
      · rintro ⟨k1, k2⟩ pre hp
        rcases List.prefix_concat_iff.mp hp with rfl | hp
        · exact k2
        · exact k1 pre hp
    rw [split, ← i]
    rw [wrRun_snoc]
    simp only [List.mem_append, not_or]
    apply and_congr_right
    intro hu
    have cnt := fun id => resp_count c tr h0 hu id
    simp only [hfin]
    rw [total_snoc, bsOf_snoc]
    dsimp only
    cases hb : x.b with
    | none =>
      rw [hb] at s4
      refine ⟨fun _ id => ?_, fun _ => s4.2⟩
      have := cnt id
      simp only [Option.toList, List.append_nil, List.countP_append]
      omega
    | some b =>
      rw [hb] at s4
      dsimp only at s4
      rw [s4.2]
      unfold wrB
      cases hf : List.find? (fun x => decide (respId false x = b.id))
          ((wrRun c false {} tr).1.resp ++ (cons4 c ((total c tr).1 ++ x.aw.toList.map fun a => { aw := a })
            ((total c tr).2.1 ++ x.w.toList)).2.2.1) with
      | none =>
        refine ⟨fun hn => by simp at hn, fun hh => ?_⟩
        have hz : ((wrRun c false {} tr).1.resp ++ (cons4 c ((total c tr).1 ++ x.aw.toList.map fun a => { aw := a })
            ((total c tr).2.1 ++ x.w.toList)).2.2.1).countP (idIs b.id) = 0 := by
          rw [List.countP_eq_zero]
          intro y hy
          have := List.find?_eq_none.mp hf y hy
          simpa [respId, idIs] using this
        have h1 := hh b.id
        have h2 := cnt b.id
        rw [List.countP_append] at hz
        have hl : (some b).toList = [b] := rfl
        rw [hl, List.countP_append, List.countP_append, List.countP_cons, List.countP_nil] at h1
        simp only [decide_true, if_true] at h1
        omega
      | some y =>
        refine ⟨fun _ id => ?_, fun _ => ?_⟩
        · have hy : respId false y = b.id := by simpa using List.find?_some hf
          have := count_eraseP _ (idIs id) _ y hf
          rw [List.countP_append] at this
          have e : idIs id y = decide (b.id = id) := by
            unfold idIs
            have : y.2.id = b.id := hy
            rw [this]
          rw [e] at this
          have h2 := cnt id
          have hl : (some b).toList = [b] := rfl
          rw [hl, List.countP_append, List.countP_append, List.countP_cons, List.countP_nil]
          omega
        · dsimp only; split <;> simp

/-! ## Witnesses -/

/-- **A burst that is too long is not reported**: two single-beat writes, the first beat without `WLAST`.
Both beats count as the first write; the second write never gets data, and nothing is reported. -/
theorem long_burst_unreported :
    let c : WrCfg := { db := 1 }
    let aw : Aw := { id := 1, addr := 0, len := 0, size := 0, burst := 1 }
    let tr : List WrClk := [{ aw := some aw }, { aw := some aw },
      { w := some { strb := [true], last := false } }, { w := some { strb := [false], last := true } },
      { b := some { id := 1 } }]
    (wrRun c false {} tr).2 = [] ∧ (wrRun c false {} tr).1.wt.length = 1 ∧
      ∃ p ∈ finished tr, p.2.length ≠ p.1.len + 1 := by
  refine ⟨by decide, by decide, ?_⟩
  simp [finished, awsOf, wsOf, complete, cut]

/-- **Error responses to writes are ignored in the default configuration**: the option that checks
responses is on, but the thread only runs when another option is on as well. -/
theorem default_ignores_write_errors :
    wrEnabled { db := 4, strbCheck := false, burstsCheck := false, respCheck := true } = false := rfl

/-- **AXI3: the order of the first data beats is never checked** (`PreviousHaveData` is only reached
from the AXI4 code): data of the second write comes first, nothing is reported. -/
theorem axi3_order_unchecked :
    let c : WrCfg := { db := 1 }
    let aw1 : Aw := { id := 1, addr := 0, len := 0, size := 0, burst := 1 }
    let aw2 : Aw := { id := 2, addr := 0, len := 0, size := 0, burst := 1 }
    (wrRun c true {} [{ aw := some aw1 }, { aw := some aw2 },
      { w := some { wid := 2, strb := [true], last := true } },
      { w := some { wid := 1, strb := [true], last := true } },
      { b := some { id := 1 } }, { b := some { id := 2 } }]).2 = [] := by decide

/-- An early `WLAST` and an unexpected response are reported. -/
example : (wrRun { db := 1 } false {} [{ aw := some { id := 1, addr := 0, len := 1, size := 0, burst := 1 } },
    { w := some { strb := [true], last := true } }, { b := some { id := 2 } }]).2 = [.burst, .unknownId] := by decide

/-- Legal traffic, data before the address. -/
example : let tr : List WrClk := [{ w := some { strb := [true], last := true } },
      { aw := some { id := 1, addr := 0, len := 0, size := 0, burst := 1 } }, { b := some { id := 1 } }]
    (wrRun { db := 1 } false {} tr).2 = [] ∧ (finished tr).length = 1 := by decide

end Verif.PcAxi
