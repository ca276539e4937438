import Verif.PcChi.TxStep

/-! # Transactions: snoops -/

namespace Verif.PcChi

theorem three (S : Spec) (F : Option (List SFwd)) (T : Option (List SStash)) (Q : Option (List SPlain))
    (TF TT TQ : List SOpen → Prop)
    (hF : (∀ l', TF l' → F = some (l'.map toFwd)) ∧ (∀ m, F = some m → ∃ l', TF l' ∧ m = l'.map toFwd))
    (hT : (∀ l', TT l' → T = some (l'.map toStash)) ∧ (∀ m, T = some m → ∃ l', TT l' ∧ m = l'.map toStash))
    (hQ : (∀ l', TQ l' → Q = some (l'.map toPlain)) ∧ (∀ m, Q = some m → ∃ l', TQ l' ∧ m = l'.map toPlain))
    (eT : ∀ l', TT l' → F = none) (eQ : ∀ l', TQ l' → F = none ∧ T = none) :
    (∀ S', ((∃ l, S' = { S with fwd := l } ∧ TF l) ∨ (∃ l, S' = { S with stash := l } ∧ TT l) ∨ (∃ l, S' = { S with plain := l } ∧ TQ l)) →
      orElse ((toSt S).fwdTo F) (orElse ((toSt S).stashTo T) ((toSt S).plainTo Q)) = some (toSt S')) ∧
    (∀ s', orElse ((toSt S).fwdTo F) (orElse ((toSt S).stashTo T) ((toSt S).plainTo Q)) = some s' →
      ∃ S', ((∃ l, S' = { S with fwd := l } ∧ TF l) ∨ (∃ l, S' = { S with stash := l } ∧ TT l) ∨ (∃ l, S' = { S with plain := l } ∧ TQ l)) ∧ s' = toSt S') := by
  constructor
  · rintro S' (⟨l, rfl, h⟩ | ⟨l, rfl, h⟩ | ⟨l, rfl, h⟩)
    · rw [hF.1 l h]; rfl
    · rw [eT l h, hT.1 l h]; rfl
    · rw [(eQ l h).1, (eQ l h).2, hQ.1 l h]; rfl
  · intro s' hs
    rcases F with _ | m
    · rcases T with _ | m
      · rcases Q with _ | m
        · cases hs
        · obtain ⟨l, h, rfl⟩ := hQ.2 m rfl
          exact ⟨_, .inr (.inr ⟨l, rfl, h⟩), (Option.some.inj hs).symm⟩
      · obtain ⟨l, h, rfl⟩ := hT.2 m rfl
        exact ⟨_, .inr (.inl ⟨l, rfl, h⟩), (Option.some.inj hs).symm⟩
    · obtain ⟨l, h, rfl⟩ := hF.2 m rfl
      exact ⟨_, .inl ⟨l, rfl, h⟩, (Option.some.inj hs).symm⟩

theorem sole_split {S : Spec} {t : Nat} (h : SoleSnp S t) :
    S.fwd.countP (fun x => x.snp.txn == t) ≤ 1 ∧ S.stash.countP (fun x => x.snp.txn == t) ≤ 1 ∧ S.plain.countP (fun x => x.snp.txn == t) ≤ 1 ∧
    ((∃ x ∈ S.stash, x.snp.txn = t) → ∀ x ∈ S.fwd, x.snp.txn ≠ t) ∧
    ((∃ x ∈ S.plain, x.snp.txn = t) → (∀ x ∈ S.fwd, x.snp.txn ≠ t) ∧ (∀ x ∈ S.stash, x.snp.txn ≠ t)) := by
  have h := h.1
  rw [List.countP_append, List.countP_append] at h
  have pos : ∀ l : List SOpen, (∃ x ∈ l, x.snp.txn = t) → 0 < l.countP (fun x => x.snp.txn == t) := by
    rintro l ⟨x, hx, e⟩; exact List.countP_pos_iff.mpr ⟨x, hx, by simpa using e⟩
  refine ⟨by omega, by omega, by omega, ?_, ?_⟩
  · intro a x hx e
    have := pos _ a; have := pos _ ⟨x, hx, e⟩; omega
  · intro a
    constructor
    · intro x hx e
      have := pos _ a; have := pos _ ⟨x, hx, e⟩; omega
    · intro x hx e
      have := pos _ a; have := pos _ ⟨x, hx, e⟩; omega

theorem turns_ex {l l' : List SOpen} {P : SOpen → Prop} {y : SOpen → Option SOpen} (h : Turns l l' P y) : ∃ x ∈ l, P x := by
  obtain ⟨a, x, b, e, hP, _⟩ := h
  exact ⟨x, by rw [e]; simp, hP⟩

theorem answer_dat (S : Spec) (hS : Inv S) (d : Dat) (ho : d.op ∈ [1, 5, 6]) (h : SoleSnp S d.txn) :
    (∀ S', Answers S d.txn d.op true d.pull d.dbid S' → txDat (toSt S) d = some (toSt S')) ∧
    (∀ s', txDat (toSt S) d = some s' → ∃ S', Answers S d.txn d.op true d.pull d.dbid S' ∧ s' = toSt S') := by
  obtain ⟨c1, c2, c3, x1, x2⟩ := sole_split h
  have hi : isSnpDat d.op = true := by
    simp only [List.mem_cons, List.not_mem_nil, or_false] at ho
    rcases ho with e | e | e <;> rw [e] <;> rfl
  have e : txDat (toSt S) d = orElse ((toSt S).fwdTo (handle (fun x => x.snp.txn == d.txn) (·.txDat d) SFwd.over (toSt S).fwd))
      (orElse ((toSt S).stashTo (handle (fun x => x.snp.txn == d.txn) (·.txDat d) SStash.over (toSt S).stash))
        ((toSt S).plainTo (handle (fun x => x.snp.txn == d.txn) (·.txDat d) SPlain.done (toSt S).plain))) := by
    unfold txDat; rw [hi]; rfl
  rw [e]
  have nF : (∀ x ∈ S.fwd, x.snp.txn ≠ d.txn) → handle (fun x => x.snp.txn == d.txn) (·.txDat d) SFwd.over (toSt S).fwd = none := by
    intro n
    apply handle_none
    intro z hz hp
    obtain ⟨x, hx, rfl⟩ := List.mem_map.mp hz
    exact absurd (by simpa [toFwd] using hp) (n x hx)
  have nT : (∀ x ∈ S.stash, x.snp.txn ≠ d.txn) → handle (fun x => x.snp.txn == d.txn) (·.txDat d) SStash.over (toSt S).stash = none := by
    intro n
    apply handle_none
    intro z hz hp
    obtain ⟨x, hx, rfl⟩ := List.mem_map.mp hz
    exact absurd (by simpa [toStash] using hp) (n x hx)
  refine three S _ _ _ _ _ _ (turns_iff _ _ _ toFwd _ _ S.fwd ?_ ?_ ?_ ?_) (turns_iff _ _ _ toStash _ _ S.stash ?_ ?_ ?_ ?_)
    (turns_iff _ _ _ toPlain _ _ S.plain ?_ ?_ ?_ ?_) ?_ ?_
  · rintro x hx ⟨a, _⟩; simpa [toFwd] using a
  · rintro x hx ⟨a, b, c, f⟩
    have hw : x.word = [] := by
      rcases hS.fwd x hx with w | w
      · exact w
      · rw [w] at c; simp at c
    refine ⟨⟨x.snp, d.op != 6, true⟩, ?_, ?_⟩
    · simp [toFwd, SFwd.txDat, hw, hi]
    · by_cases h6 : d.op = 6
      · simp [SFwd.over, h6, hw, toFwd]
      · simp [SFwd.over, h6]
  · intro x hx a b
    have : x.word = [.fwded] := by
      rcases hS.fwd x hx with w | w
      · exact absurd ⟨by simpa [toFwd] using a, by simp [w], by simp [w], .inr w⟩ b
      · exact w
    have h4 : d.op ≠ 4 := by
      intro h4; rw [h4] at ho; simp at ho
    simp [toFwd, SFwd.txDat, this, h4]
  · exact c1
  · rintro x hx ⟨a, _⟩; simpa [toStash] using a
  · rintro x hx ⟨a, hw, c⟩
    have h6 : d.op ≠ 6 := by simpa using c
    have h15 : d.op = 1 ∨ d.op = 5 := by
      simp only [List.mem_cons, List.not_mem_nil, or_false] at ho; omega
    have hids : x.ids = none := by
      rcases hS.stash x hx with w | w | w
      · exact w.2
      · exact w.2
      · rw [w.1] at hw; cases hw
    cases hp : d.pull
    · refine ⟨⟨x.snp, true, false, true, true, none, x.pull⟩, ?_, ?_⟩
      · simp [toStash, SStash.txDat, hw, h15, hp, hids]
      · simp [SStash.over]
    · refine ⟨⟨x.snp, true, true, false, false, none, d.dbid⟩, ?_, ?_⟩
      · simp [toStash, SStash.txDat, hw, h15, hp, hids]
      · simp [SStash.over, toStash, hids]
  · intro x hx a b
    by_cases h6 : d.op = 6
    · simp [SStash.txDat, h6]
    · have : M.pull ∈ x.word := by
        rcases hS.stash x hx with w | w | w
        · exact absurd ⟨by simpa [toStash] using a, w.1, by simpa using h6⟩ b
        · rw [w.1]; simp
        · rw [w.1]; simp
      simp [toStash, SStash.txDat, this]
  · exact c2
  · rintro x hx ⟨a, _⟩; simpa [toPlain] using a
  · rintro x hx ⟨a, b, c⟩
    have h6 : d.op ≠ 6 := by simpa using c
    have h15 : d.op = 1 ∨ d.op = 5 := by
      simp only [List.mem_cons, List.not_mem_nil, or_false] at ho; omega
    exact ⟨⟨x.snp, true⟩, by simp [toPlain, SPlain.txDat, h15], by simp⟩
  · intro x hx a b
    by_cases h6 : d.op = 6
    · simp [SPlain.txDat, h6]
    · exfalso; apply b
      have a : x.snp.txn = d.txn := by simpa [toPlain] using a
      refine ⟨a, ?_, by simpa using h6⟩
      by_cases hd : x.snp.op = 0xd
      · rw [if_pos hd]; exact h.2 x hx a hd
      · rw [if_neg hd]; exact hS.plain x hx hd
  · exact c3
  · intro l' hl
    obtain ⟨x, hx, hP⟩ := turns_ex hl
    exact nF (x1 ⟨x, hx, hP.1⟩)
  · intro l' hl
    obtain ⟨x, hx, hP⟩ := turns_ex hl
    exact ⟨nF (x2 ⟨x, hx, hP.1⟩).1, nT (x2 ⟨x, hx, hP.1⟩).2⟩

theorem answer_rsp (S : Spec) (hS : Inv S) (d : Rsp) (ho : d.op ∈ [1, 9]) (h : SoleSnp S d.txn) :
    (∀ S', Answers S d.txn d.op false d.pull d.dbid S' → txRsp (toSt S) d = some (toSt S')) ∧
    (∀ s', txRsp (toSt S) d = some s' → ∃ S', Answers S d.txn d.op false d.pull d.dbid S' ∧ s' = toSt S') := by
  obtain ⟨c1, c2, c3, x1, x2⟩ := sole_split h
  have ho : d.op = 1 ∨ d.op = 9 := by simpa using ho
  have hi : isSnpRsp d.op = true := by
    rcases ho with e | e <;> rw [e] <;> rfl
  have e : txRsp (toSt S) d = orElse ((toSt S).fwdTo (handle (fun x => x.snp.txn == d.txn) (·.txRsp d) SFwd.over (toSt S).fwd))
      (orElse ((toSt S).stashTo (handle (fun x => x.snp.txn == d.txn) (·.txRsp d) SStash.over (toSt S).stash))
        ((toSt S).plainTo (handle (fun x => x.snp.txn == d.txn) (·.txRsp d) SPlain.done (toSt S).plain))) := by
    unfold txRsp; rw [hi]
    have : stashRsp (toSt S) d = (toSt S).stashTo (handle (fun x => x.snp.txn == d.txn) (·.txRsp d) SStash.over (toSt S).stash) := by
      unfold stashRsp
      rcases ho with e | e
      · rw [e]; rfl
      · rw [handle_none _ _ _ _ (by intro x _ _; simp [SStash.txRsp, e])]; rw [e]; rfl
    rw [this]; rfl
  rw [e]
  have nF : (∀ x ∈ S.fwd, x.snp.txn ≠ d.txn) → handle (fun x => x.snp.txn == d.txn) (·.txRsp d) SFwd.over (toSt S).fwd = none := by
    intro n
    apply handle_none
    intro z hz hp
    obtain ⟨x, hx, rfl⟩ := List.mem_map.mp hz
    exact absurd (by simpa [toFwd] using hp) (n x hx)
  have nT : (∀ x ∈ S.stash, x.snp.txn ≠ d.txn) → handle (fun x => x.snp.txn == d.txn) (·.txRsp d) SStash.over (toSt S).stash = none := by
    intro n
    apply handle_none
    intro z hz hp
    obtain ⟨x, hx, rfl⟩ := List.mem_map.mp hz
    exact absurd (by simpa [toStash] using hp) (n x hx)
  refine three S _ _ _ _ _ _ (turns_iff _ _ _ toFwd _ _ S.fwd ?_ ?_ ?_ ?_) (turns_iff _ _ _ toStash _ _ S.stash ?_ ?_ ?_ ?_)
    (turns_iff _ _ _ toPlain _ _ S.plain ?_ ?_ ?_ ?_) ?_ ?_
  · rintro x hx ⟨a, _⟩; simpa [toFwd] using a
  · rintro x hx ⟨a, b, c, f⟩
    have hw : x.word = [] := by
      rcases hS.fwd x hx with w | w
      · exact w
      · rw [w] at c; simp at c
    refine ⟨⟨x.snp, d.op != 9, true⟩, ?_, ?_⟩
    · simp [toFwd, SFwd.txRsp, hw]
    · by_cases h9 : d.op = 9
      · simp [SFwd.over, h9, hw, toFwd]
      · simp [SFwd.over, h9]
  · intro x hx a b
    have : x.word = [.fwded] := by
      rcases hS.fwd x hx with w | w
      · exact absurd ⟨by simpa [toFwd] using a, by simp [w], by simp [w], .inr w⟩ b
      · exact w
    simp [toFwd, SFwd.txRsp, this]
  · exact c1
  · rintro x hx ⟨a, _⟩; simpa [toStash] using a
  · rintro x hx ⟨a, hw, c⟩
    have h9 : d.op ≠ 9 := by simpa using c
    have h1 : d.op = 1 := by omega
    have hids : x.ids = none := by
      rcases hS.stash x hx with w | w | w
      · exact w.2
      · exact w.2
      · rw [w.1] at hw; cases hw
    cases hp : d.pull
    · refine ⟨⟨x.snp, true, false, true, true, none, x.pull⟩, ?_, ?_⟩
      · simp [toStash, SStash.txRsp, hw, h1, hp, hids]
      · simp [SStash.over]
    · refine ⟨⟨x.snp, true, true, false, false, none, d.dbid⟩, ?_, ?_⟩
      · simp [toStash, SStash.txRsp, hw, h1, hp, hids]
      · simp [SStash.over, toStash, hids]
  · intro x hx a b
    by_cases h9 : d.op = 9
    · simp [SStash.txRsp, h9]
    · have h1 : d.op = 1 := by omega
      have : M.pull ∈ x.word := by
        rcases hS.stash x hx with w | w | w
        · exact absurd ⟨by simpa [toStash] using a, w.1, by simpa using h9⟩ b
        · rw [w.1]; simp
        · rw [w.1]; simp
      simp [toStash, SStash.txRsp, this, h1]
  · exact c2
  · rintro x hx ⟨a, _⟩; simpa [toPlain] using a
  · rintro x hx ⟨a, b, c⟩
    have h9 : d.op ≠ 9 := by simpa using c
    have h1 : d.op = 1 := by omega
    exact ⟨⟨x.snp, true⟩, by simp [toPlain, SPlain.txRsp, h1], by simp⟩
  · intro x hx a b
    by_cases h9 : d.op = 9
    · simp [SPlain.txRsp, h9]
    · exfalso; apply b
      have a : x.snp.txn = d.txn := by simpa [toPlain] using a
      refine ⟨a, ?_, by simpa using h9⟩
      by_cases hd : x.snp.op = 0xd
      · rw [if_pos hd]; exact h.2 x hx a hd
      · rw [if_neg hd]; exact hS.plain x hx hd
  · exact c3
  · intro l' hl
    obtain ⟨x, hx, hP⟩ := turns_ex hl
    exact nF (x1 ⟨x, hx, hP.1⟩)
  · intro l' hl
    obtain ⟨x, hx, hP⟩ := turns_ex hl
    exact ⟨nF (x2 ⟨x, hx, hP.1⟩).1, nT (x2 ⟨x, hx, hP.1⟩).2⟩

end Verif.PcChi
