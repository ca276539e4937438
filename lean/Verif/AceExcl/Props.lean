import Verif.AceExcl.Lemmas

/-! # Exclusive accesses: what holds, and where it is lost -/

set_option maxRecDepth 100000

namespace Verif.AceExcl

/-- **C96** (part).  As long as the interconnect has refused no exclusive store, a load served from
a master's own cache sees every write the other masters did. -/
theorem loads_fresh_partial {n : Nat} {s : State} {h : List Ev} (hr : Reach n s h)
    (hn : NoRefusal h) (m k : Nat) (hit : (step n s (.load m k)).2 = .hit) : Fresh m k h := by
  refine (coh_reach hr hn).fresh m k fun hl => ?_
  simp only [step] at hit
  split at hit
  · cases hit
  · rw [if_neg (fun hc => hc hl)] at hit; cases hit

example : let r := exec 3 init [] [.load 0 7, .load 1 7, .store 0 7, .load 1 7, .ldx 2 7 0]
    NoRefusal r.2 ∧ (step 3 r.1 (.load 1 7)).2 = .hit ∧ Fresh 1 7 r.2 := by
  simp only [NoRefusal, Fresh]; decide +kernel

/-- **C96** (part).  As long as the interconnect has refused no exclusive store, exclusive loads
are at the start of a line and no cache drops a line its master loaded from exclusively: an
exclusive store succeeds only if no other master wrote the line since the exclusive load. -/
theorem exclusive_atomic_partial {n : Nat} {s : State} {h : List Ev} (hr : Reach n s h)
    (hn : NoRefusal h) (ht : Tame h) (m k o : Nat)
    (hok : (step n s (.stx m k o)).2 = .ok) : Untouched m k o h := by
  refine (mon_reach hr hn ht).calm m k o ?_
  simp only [step] at hok
  split at hok
  · cases hok
  · unfold stx at hok
    cases hx : s.mon m k o with
    | true => rfl
    | false => rw [if_pos hx] at hok; cases hok

example : let r := exec 3 init [] [.ldx 0 7 0, .ldx 1 7 0, .load 2 7]
    NoRefusal r.2 ∧ (step 3 r.1 (.stx 0 7 0)).2 = .ok ∧ Untouched 0 7 0 r.2 ∧
    (step 3 (step 3 r.1 (.stx 0 7 0)).1 (.stx 1 7 0)).2 = .failed := by
  simp only [NoRefusal, Untouched]; decide +kernel

/-- **C96** (part).  Always, an exclusive store which succeeds uses up an exclusive load of the
same address by the same master. -/
theorem one_store_per_load {n : Nat} {s : State} {h : List Ev} (hr : Reach n s h) (m k o : Nat)
    (hok : (step n s (.stx m k o)).2 = .ok) : Open m k o h := by
  refine open_reach hr m k o ?_
  simp only [step] at hok
  split at hok
  · cases hok
  · unfold stx at hok
    cases hx : s.mon m k o with
    | true => rfl
    | false => rw [if_pos hx] at hok; cases hok

example : let r := exec 2 init [] [.ldx 0 7 4, .ldx 0 7 4, .load 1 7]
    (step 2 r.1 (.stx 0 7 4)).2 = .ok ∧ Open 0 7 4 r.2 ∧
    ¬ Open 0 7 4 ((.stx 0 7 4, .ok) :: r.2) ∧
    (step 2 (step 2 r.1 (.stx 0 7 4)).1 (.stx 0 7 4)).2 = .failed := by
  simp only [Open]; decide +kernel

/-- **C96** (part).  If all exclusive loads are at the start of one line which no cache drops, and
the interconnect's lock is released before the next access, then no exclusive store is refused. -/
theorem one_line_never_refused {n k : Nat} (ops : List Op) (h : OneLock k ops) :
    NoRefusal (exec n init [] (ops.flatMap fun op => [op, .release])).2 := by
  refine one_exec ops init [] ⟨rfl, ?_, ?_, ?_⟩ h (fun e he => by cases he)
  · intro m k' o hx; simp [init] at hx
  · intro m hx; simp [init] at hx
  · intro m hx; simp [init] at hx

example : (exec 2 init [] ([Op.ldx 0 7 0, .ldx 1 7 0, .stx 0 7 0, .stx 1 7 0, .ldx 1 7 0,
    .load 0 7, .stx 1 7 0].flatMap fun op => [op, .release])).2.filter (fun e => e.1 ≠ .release) =
    [(.stx 1 7 0, .ok), (.load 0 7, .hit), (.ldx 1 7 0, .miss), (.stx 1 7 0, .failed),
     (.stx 0 7 0, .ok), (.ldx 1 7 0, .miss), (.ldx 0 7 0, .miss)] := by decide +kernel

/-- **C96**, violated: a refused exclusive store leaves the line unique in the master's cache
although every other copy of it is still there. -/
theorem refused_unique {n : Nat} {s : State} (m k o : Nat)
    (hr : (step n s (.stx m k o)).2 = .refused) :
    (step n s (.stx m k o)).1.line m k = .uniq ∧
    ∀ j, j ≠ m → (step n s (.stx m k o)).1.line j k = s.line j k := by
  simp only [step] at hr ⊢
  by_cases hn : n ≤ m
  · rw [if_pos hn] at hr; cases hr
  · rw [if_neg hn] at hr ⊢
    unfold stx at hr ⊢
    by_cases hmon : s.mon m k o = false
    · rw [if_pos hmon] at hr; cases hr
    · rw [if_neg hmon] at hr ⊢
      cases hl : s.line m k with
      | uniq => rw [hl] at hr; cases hr
      | inv => rw [hl] at hr; cases hr
      | shared =>
        rw [hl] at hr
        dsimp only at hr ⊢
        by_cases hp : s.pos m = true
        · rw [if_pos hp] at hr; cases hr
        · rw [if_neg hp]
          constructor
          · simp [clrMon, claim]
          · intro j hj
            simp [clrMon, claim, hj, setPos_line]

/-- **C96**, violated: after that the master writes without telling anybody, and another master
goes on reading its old copy.  Two masters, two lines, each of them aligned. -/
theorem stale_after_refusal :
    let r := exec 2 init [] [.ldx 0 7 0, .ldx 1 8 0, .load 1 7, .load 0 8, .stx 1 8 0, .release,
      .stx 0 7 0, .store 0 7]
    Reach 2 r.1 r.2 ∧ Tame r.2 ∧ (step 2 r.1 (.load 1 7)).2 = .hit ∧ ¬ Fresh 1 7 r.2 := by
  refine ⟨reach_exec _ _ _ _ Reach.init, ⟨?_, ?_⟩, ?_, ?_⟩
  · intro m k o r hx
    simp [exec] at hx
    rcases hx with ⟨⟨_, _, h⟩, _⟩ | ⟨⟨_, _, h⟩, _⟩ <;> exact h
  · intro m k o r r' _ hy
    simp [exec] at hy
  · decide +kernel
  · simp only [Fresh]; decide +kernel

/-- **C96**, violated: an exclusive load while the interconnect is locked is not recorded there;
the exclusive store after it is refused although nobody has written since, and leaves two caches
with the line, one of them unique.  One line, aligned; with the lock released it succeeds. -/
theorem locked_refused :
    let r := exec 2 init [] [.ldx 0 7 0, .ldx 1 7 0, .stx 0 7 0, .ldx 1 7 0]
    Reach 2 r.1 r.2 ∧ NoRefusal r.2 ∧ Untouched 1 7 0 r.2 ∧
    (step 2 r.1 (.stx 1 7 0)).2 = .refused ∧
    (step 2 r.1 (.stx 1 7 0)).1.line 1 7 = .uniq ∧
    (step 2 r.1 (.stx 1 7 0)).1.line 0 7 = .shared ∧
    (exec 2 init [] [.ldx 0 7 0, .ldx 1 7 0, .stx 0 7 0, .release, .ldx 1 7 0, .stx 1 7 0]).2.head? =
      some (.stx 1 7 0, .ok) := by
  refine ⟨reach_exec _ _ _ _ Reach.init, ?_⟩
  simp only [NoRefusal, Untouched]; decide +kernel

/-- **C96**, violated: an exclusive store that is not at the start of a line succeeds although
another master has written it since the exclusive load. -/
theorem offset_lost_update :
    let r := exec 2 init [] [.ldx 0 7 4, .store 1 7]
    Reach 2 r.1 r.2 ∧ NoRefusal r.2 ∧ (step 2 r.1 (.stx 0 7 4)).2 = .ok ∧
    ¬ Untouched 0 7 4 r.2 := by
  refine ⟨reach_exec _ _ _ _ Reach.init, ?_⟩
  simp only [NoRefusal, Untouched]; decide +kernel

/-- **C96**, violated: so does one whose line was evicted in between. -/
theorem evicted_lost_update :
    let r := exec 2 init [] [.ldx 0 7 0, .evict 0 7, .store 1 7]
    Reach 2 r.1 r.2 ∧ NoRefusal r.2 ∧ (step 2 r.1 (.stx 0 7 0)).2 = .ok ∧
    ¬ Untouched 0 7 0 r.2 := by
  refine ⟨reach_exec _ _ _ _ Reach.init, ?_⟩
  simp only [NoRefusal, Untouched]; decide +kernel

/-- **C96**, violated: a master that has the line and no monitor set never gets an exclusive store
done, however often it tries, with nobody disturbing it. -/
theorem hit_never_succeeds {n m k o : Nat} (hm : m < n) (s : State)
    (hl : s.line m k ≠ .inv) (hmon : s.mon m k o = false) (h : List Ev) (t : Nat) :
    exec n s h ((List.replicate t [Op.ldx m k o, .stx m k o]).flatten) =
      (s, (List.replicate t [(Op.stx m k o, Res.failed), (.ldx m k o, .hit)]).flatten ++ h) := by
  induction t generalizing h with
  | zero => rfl
  | succ t ih =>
    have hn : ¬ n ≤ m := by omega
    have e1 : step n s (.ldx m k o) = (s, .hit) := by
      simp only [step, if_neg hn, ldx, if_pos hl]
    have e2 : step n s (.stx m k o) = (s, .failed) := by
      simp only [step, if_neg hn, stx, if_pos hmon]
    rw [List.replicate_succ, List.flatten_cons]
    simp only [List.cons_append, List.nil_append, exec, e1, e2]
    rw [ih, List.replicate_succ']
    simp

example : let s := (exec 2 init [] [.load 0 7]).1
    s.line 0 7 ≠ .inv ∧ s.mon 0 7 0 = false := by decide +kernel

end Verif.AceExcl
