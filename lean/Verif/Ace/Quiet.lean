import Verif.Ace.Spec

/-!
# Ports that are never asked stay idle
-/

namespace Verif.Ace

variable {c : Cfg}

/-- Port `q` waits for nothing. -/
def Quiet (q : Nat) (s : State) : Prop := (s.ports q).act = none

theorem Quiet.setPort {s : State} {q p : Nat} {x : Port} (h : Quiet q s) (hx : p = q → x.act = none) :
    Quiet q (s.setPort p x) := by
  unfold Quiet State.setPort
  simp only
  split
  · rename_i e; exact hx e.symm
  · exact h

theorem Quiet.setAct {s : State} {q p : Nat} {a : Option Act} (h : Quiet q s) (hp : p ≠ q) :
    Quiet q (s.setAct p a) := h.setPort (fun e => absurd e hp)

theorem Quiet.setLine {s : State} {q p : Nat} {k : LineId} {l : Line} (h : Quiet q s) :
    Quiet q (s.setLine c p k l) := h.setPort (fun e => by subst e; exact h)

theorem Quiet.flip {s : State} {q p : Nat} (h : Quiet q s) : Quiet q (s.flip p) :=
  h.setPort (fun e => by subst e; exact h)

theorem Quiet.enter {s : State} {q p : Nat} {t : Txn} {j : Job} {n : Option Bus} (h : Quiet q s) (hp : p ≠ q) :
    Quiet q (enter c s p t j n) := by
  unfold Verif.Ace.enter
  split
  · split <;> exact h.setAct hp
  · exact h.setAct hp

theorem Quiet.issue {s : State} {q p : Nat} {t : Txn} {j : Job} {n : Option Bus} (h : Quiet q s) (hp : p ≠ q) :
    Quiet q (issue c s p t j n) := h.enter hp

theorem Quiet.miss {s : State} {q p : Nat} {b : Bus} {k : LineId} {j : Job} (h : Quiet q s) (hp : p ≠ q) :
    Quiet q (miss c s p b k j) := by
  unfold Verif.Ace.miss
  dsimp only
  split
  · split
    · split <;> exact h.flip.issue hp
    · exact h.setLine.issue hp
  · exact h.issue hp

theorem Quiet.goLoad {q p : Nat} (hp : p ≠ q) : ∀ (cs : List Chunk) {s : State}, Quiet q s →
    Quiet q (goLoad c p s cs)
  | [], _, h => h
  | k :: cs, s, h => by
    unfold Verif.Ace.goLoad
    split
    · exact h.issue hp
    · split
      · exact Quiet.goLoad hp cs h
      · split
        · exact h.miss hp
        · exact h.flip.miss hp

theorem Quiet.goStore {q p : Nat} (hp : p ≠ q) : ∀ (cs : List Chunk) {s : State}, Quiet q s →
    Quiet q (goStore c p s cs)
  | [], _, h => h
  | k :: cs, s, h => by
    unfold Verif.Ace.goStore
    split
    · unfold issueWrite; split <;> exact h.issue hp
    · dsimp only
      split
      · split
        · exact h.issue hp
        · exact Quiet.goStore hp cs (s := State.emit _ _) h.setLine
      · split <;> exact h.miss hp

theorem Quiet.go {q p : Nat} (hp : p ≠ q) {s : State} (h : Quiet q s) : ∀ j, Quiet q (go c p s j)
  | .load cs => Quiet.goLoad hp cs h
  | .store cs => Quiet.goStore hp cs h
  | .maint b k => by
    show Quiet q (goMaint c p s b k)
    unfold goMaint
    dsimp only
    split
    · split
      · split <;> exact h.issue hp
      · exact h.setLine.issue hp
    · exact h.issue hp

theorem Quiet.foldRestart {q : Nat} {t : Txn} : ∀ (l : List Nat) {s : State}, Quiet q s →
    Quiet q (l.foldl (restart1 c t) s)
  | [], _, h => h
  | p :: l, s, h => by
    refine Quiet.foldRestart l ?_
    unfold restart1
    split
    · exact h
    · rename_i a ha
      split
      · refine h.setAct (a := some _) (fun e => ?_)
        subst e
        rw [h] at ha; cases ha
      · exact h

theorem Quiet.commit {q p : Nat} {a : Act} {s : State} (h : Quiet q s) : Quiet q (commit c p s a) := by
  unfold Verif.Ace.commit
  dsimp only
  split <;> first | exact h | exact h.setLine | (split <;> first | exact h | exact h.setLine)

theorem Quiet.proceed {q p : Nat} {a : Act} {s : State} (hp : p ≠ q) (h : Quiet q s) :
    Quiet q (proceed c p s a) := by
  unfold Verif.Ace.proceed
  split
  · split
    · exact h.issue hp
    · split
      · exact h
      · exact h.issue hp
  · split <;> first | exact h | exact h.go hp _

theorem Quiet.step {q : Nat} {s : State} (h : Quiet q s) (a : Action) (ha : ∀ op, a ≠ .start q op) :
    Quiet q (step c s a) := by
  have ne : ∀ {p : Nat} {x : Act}, (s.ports p).act = some x → p ≠ q := by
    intro p x hx e
    subst e; rw [h] at hx; cases hx
  cases a with
  | start p op =>
    show Quiet q (startStep c s p op)
    unfold startStep
    split
    · exact h.go (fun e => ha op (by rw [e])) _
    · exact h
  | snoop p r =>
    show Quiet q (snoopStep c s p r)
    unfold snoopStep
    split
    · rename_i hx
      split
      · split
        · exact Quiet.setAct h.setLine (ne hx)
        · exact h.setAct (ne hx)
      · exact h
    · exact h
  | final p =>
    show Quiet q (finalStep s p)
    unfold finalStep
    split
    · rename_i x hx
      split
      · split
        · exact h.setAct (ne hx)
        · unfold finish; split <;> exact h.setAct (ne hx)
      · unfold finish; split <;> exact h.setAct (ne hx)
      · exact h
    · exact h
  | ds =>
    show Quiet q (dsStep c s)
    unfold dsStep
    split
    · exact h
    · rename_i p rest _
      dsimp only
      have h' : Quiet q { s with ds := rest } := h
      split
      · exact h
      · rename_i x hx
        split
        · unfold execClean
          split
          · exact h'.setAct (ne hx)
          · split
            · exact h'.setAct (ne hx)
            · exact Quiet.setAct (s := State.setMem _ _ _) h' (ne hx)
        · unfold execMain
          dsimp only
          split <;> first
          | exact h'.setAct (ne hx)
          | exact Quiet.setAct (s := State.setMem _ _ _) h' (ne hx)
        · exact h
  | resume p =>
    show Quiet q (resumeStep c s p)
    unfold resumeStep
    split
    · rename_i x hx
      split
      · refine Quiet.proceed (ne hx) (Quiet.commit (Quiet.foldRestart _ ?_))
        exact h.setAct (ne hx)
      · exact h
    · exact h

theorem Quiet.run {q : Nat} : ∀ (as : List Action) {s : State}, Quiet q s → (∀ op, Action.start q op ∉ as) →
    Quiet q (run c s as)
  | [], _, h, _ => h
  | a :: as, s, h, ha =>
    Quiet.run as (h.step a (fun op e => ha op (by simp [e]))) (fun op hm => ha op (by simp [hm]))

end Verif.Ace
