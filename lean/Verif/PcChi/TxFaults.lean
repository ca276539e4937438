import Verif.PcChi.TxProps

/-! # Transactions: a run the theorem speaks of, and what is reported wrongly or missed -/

namespace Verif.PcChi

theorem fair_cons {S T : Spec} {e : Ev} {es : List Ev} (f : Fair S e) (u : ∀ S', Step S e S' → S' = T) (h : FairRun T es) : FairRun S (e :: es) :=
  ⟨f, fun S' hs => by rw [u S' hs]; exact h⟩

/-- One request outstanding, nothing else. -/
def one (o : Open) : Spec := { req := fun j => if j = o.req.txn then some o else none }

theorem one_req {o : Open} {i : Nat} {o' : Open} (h : (one o).req i = some o') : i = o.req.txn ∧ o' = o := by
  unfold one at h
  dsimp only at h
  by_cases hi : i = o.req.txn
  · rw [if_pos hi] at h; exact ⟨hi, (Option.some.inj h).symm⟩
  · rw [if_neg hi] at h; cases h

theorem step_new (r : Req) (k : Kind) (hq : ¬ Quick r) (hk : (row r.op).bind (·.kind) = some k) (S' : Spec) (h : Step {} (.req r) S') :
    S' = one { req := r, kind := k } := by
  rcases h with ⟨h, _⟩ | ⟨_, _, rfl⟩
  · exact absurd h hq
  · rw [hk]; rfl

/-- The request goes on, or nothing is outstanding any more. -/
def onward (o : Open) (l : L) (ids : Option (Nat × Nat)) : Spec :=
  if Over o.req (o.word ++ [l]) o.kind then {} else one (adv o l ids)

theorem goes_one {o : Open} {i : Nat} {l : L} {ids : Option (Nat × Nat)} {S' : Spec} (h : Goes (one o) i l ids S') :
    i = o.req.txn ∧ Next o.req o.word o.kind l ∧ S' = onward o l ids := by
  obtain ⟨o', ho, hn, rfl⟩ := h
  obtain ⟨rfl, rfl⟩ := one_req ho
  refine ⟨rfl, hn, ?_⟩
  unfold onward
  by_cases ov : Over o'.req (o'.word ++ [l]) o'.kind
  · simp only [if_pos ov]
    unfold one
    congr 1
    funext j
    by_cases hj : j = o'.req.txn <;> simp [hj]
  · simp only [if_neg ov]
    unfold one adv
    congr 1
    funext j
    by_cases hj : j = o'.req.txn <;> simp [hj]

theorem one_nil {o : Open} {l' : List SOpen} {P : SOpen → Prop} {y : SOpen → Option SOpen} : ¬ Turns (one o).stash l' P y ∧ ¬ Turns (one o).fwd l' P y ∧
    ¬ Turns (one o).plain l' P y := by
  refine ⟨?_, ?_, ?_⟩ <;> · intro h; obtain ⟨x, hx, _⟩ := turns_ex h; cases hx

theorem one_answers {o : Open} {a b : Nat} {c d : Bool} {e : Nat} {S' : Spec} : ¬ Answers (one o) a b c d e S' := by
  unfold Answers
  rintro (⟨l, _, h⟩ | ⟨l, _, h⟩ | ⟨l, _, h⟩)
  · exact one_nil.2.1 h
  · exact one_nil.1 h
  · exact one_nil.2.2 h

theorem step_rxRsp {o : Open} {p : Rsp} {S' : Spec} (h0 : p.op ≠ 0) (h7 : p.op ≠ 7) (h : Step (one o) (.rxRsp p) S') :
    (p.op = 3 ∧ p.txn = o.req.txn ∧ o.word = [] ∧ o.req.retry = true) ∨
    ∃ l, rspL p.op = some l ∧ p.txn = o.req.txn ∧ Next o.req o.word o.kind l ∧ S' = onward o l (rspIds p) := by
  rcases h with h | h | ⟨h3, o', ho, hw, hr, _⟩ | ⟨l, hl, hg⟩
  · exact absurd h.1.1 h0
  · exact absurd h.1 h7
  · obtain ⟨e, rfl⟩ := one_req ho
    exact .inl ⟨h3, e, hw, hr⟩
  · obtain ⟨e, hn, hs⟩ := goes_one hg
    exact .inr ⟨l, hl, e, hn, hs⟩

theorem step_rxDat {o : Open} {d : Dat} {S' : Spec} (h0 : d.op ≠ 0) (h : Step (one o) (.rxDat d) S') :
    ∃ l, datL d.op = some l ∧ d.txn = o.req.txn ∧ Next o.req o.word o.kind l ∧ S' = onward o l (datIds (one o) d) := by
  rcases h with h | ⟨l, hl, hg⟩ | ⟨_, l, _, h⟩
  · exact absurd h.1.1 h0
  · obtain ⟨e, hn, hs⟩ := goes_one hg
    exact ⟨l, hl, e, hn, hs⟩
  · exact absurd h one_nil.1

theorem step_txDat {o : Open} {d : Dat} {S' : Spec} (h0 : d.op ≠ 0) (h : Step (one o) (.txDat d) S') :
    ∃ l, sentL d.op = some l ∧ Next o.req o.word o.kind l ∧ S' = onward o l none := by
  rcases h with h | ⟨l, i, o', hl, _, _, hg⟩ | ⟨_, l, _, h⟩ | ⟨_, h⟩
  · exact absurd h.1.1 h0
  · obtain ⟨_, hn, hs⟩ := goes_one hg
    exact ⟨l, hl, hn, hs⟩
  · exact absurd h one_nil.2.1
  · exact absurd h one_answers

theorem step_txRsp {o : Open} {p : Rsp} {S' : Spec} (h0 : p.op ≠ 0) (h : Step (one o) (.txRsp p) S') :
    p.op = 2 ∧ Next o.req o.word o.kind .ack ∧ S' = onward o .ack none := by
  rcases h with h | ⟨h2, i, o', _, _, hg⟩ | ⟨_, l, _, h⟩ | ⟨_, h⟩
  · exact absurd h.1.1 h0
  · obtain ⟨_, hn, hs⟩ := goes_one hg
    exact ⟨h2, hn, hs⟩
  · exact absurd h one_nil.1
  · exact absurd h one_answers

/-- An ordered `ReadOnce` with `CompAck`: the response separate from the data, the acknowledgement, the data. -/
def sepRun : List Ev :=
  [.req { op := 3, txn := 7, order := 2, ack := true, snpAttr := true }, .rxRsp { op := 0xb, txn := 7, src := 5, dbid := 9 },
   .txRsp { op := 2, tgt := 5, txn := 9 }, .rxDat { op := 0xb, txn := 7, src := 5, home := 5, dbid := 9 }]

/-- The hypothesis of `transactions_exact_partial` is met by this run, of which nothing is reported; the acknowledgement told to another
home is reported. -/
example : FairRun {} sepRun ∧ run {} sepRun = [] ∧
    run {} (sepRun.set 2 (.txRsp { op := 2, tgt := 6, txn := 9 })) = [.txRsp] := by
  refine ⟨?_, by decide, by decide⟩
  refine fair_cons ⟨by decide, by decide, by decide⟩ (fun S' h => step_new _ .read (by unfold Quick isLink; decide) rfl S' h) ?_
  refine fair_cons (T := onward { req := { op := 3, txn := 7, order := 2, ack := true, snpAttr := true }, kind := .read } .sepResp (some (5, 9))) ?_ ?_ ?_
  · intro o ho
    obtain ⟨_, rfl⟩ := one_req ho
    refine ⟨(by intro h; cases h), ?_⟩
    rintro l h; cases h; simp [Missed]
  · intro S' h
    rcases step_rxRsp (by decide) (by decide) h with h | ⟨l, hl, _, _, rfl⟩
    · cases h.1
    · cases hl; rfl
  have e1 : onward { req := { op := 3, txn := 7, order := 2, ack := true, snpAttr := true }, kind := .read } .sepResp (some (5, 9)) =
      one { req := { op := 3, txn := 7, order := 2, ack := true, snpAttr := true }, kind := .read, word := [.sepResp], ids := some (5, 9) } := by
    unfold onward; rw [if_neg (by decide)]; rfl
  rw [e1]
  refine fair_cons (T := onward { req := { op := 3, txn := 7, order := 2, ack := true, snpAttr := true }, kind := .read, word := [.sepResp], ids := some (5, 9) } .ack none) ?_ ?_ ?_
  · refine ⟨fun _ => ⟨⟨?_, ?_⟩, by decide, ?_⟩, (by intro h; simp at h)⟩
    · intro i o ho _; obtain ⟨_, rfl⟩ := one_req ho; simp [Missed]
    · intro i j o o' h1 h2 _ _; rw [(one_req h1).1, (one_req h2).1]
    · intro i o x _ hx; cases hx
  · intro S' h; exact (step_txRsp (by decide) h).2.2
  have e2 : onward { req := { op := 3, txn := 7, order := 2, ack := true, snpAttr := true }, kind := .read, word := [.sepResp], ids := some (5, 9) } .ack none =
      one { req := { op := 3, txn := 7, order := 2, ack := true, snpAttr := true }, kind := .read, word := [.sepResp, .ack], ids := some (5, 9) } := by
    unfold onward; rw [if_neg (by decide)]; rfl
  rw [e2]
  refine fair_cons (T := onward { req := { op := 3, txn := 7, order := 2, ack := true, snpAttr := true }, kind := .read, word := [.sepResp, .ack], ids := some (5, 9) } .sepData (some (5, 9))) ?_ ?_ True.intro
  · refine ⟨?_, by decide⟩
    intro o ho
    obtain ⟨_, rfl⟩ := one_req ho
    refine ⟨fun _ => rfl, ?_, (by intro x hx; cases hx)⟩
    rintro l h; cases h; simp [Missed]
  · intro S' h
    obtain ⟨l, hl, _, _, rfl⟩ := step_rxDat (by decide) h
    cases hl; rfl

/-! ## Missed -/

theorem not_allowed {S T : Spec} {e : Ev} {es : List Ev} (u : ∀ S', Step S e S' → S' = T) (h : ¬ Allowed T es) : ¬ Allowed S (e :: es) := by
  rintro ⟨S', hs, ha⟩; rw [u S' hs] at ha; exact h ha

theorem not_allowed_end {S : Spec} {e : Ev} {es : List Ev} (u : ∀ S', ¬ Step S e S') : ¬ Allowed S (e :: es) := by
  rintro ⟨S', hs, _⟩; exact u S' hs

/-- Write data are accepted before the `DBID` to write to is told, when `Comp` came first. -/
theorem early_data_missed :
    let tr : List Ev := [.req { op := 0x1d, txn := 7 }, .rxRsp { op := 4, txn := 7, src := 5, dbid := 9 }, .txDat { op := 3, tgt := 5, txn := 9 }]
    run {} tr = [] ∧ ¬ Allowed {} tr := by
  refine ⟨by decide, ?_⟩
  refine not_allowed (fun S' h => step_new _ .write (by unfold Quick isLink; decide) rfl S' h) ?_
  refine not_allowed (T := onward { req := { op := 0x1d, txn := 7 }, kind := .write } .comp (some (5, 9))) ?_ ?_
  · intro S' h
    rcases step_rxRsp (by decide) (by decide) h with h | ⟨l, hl, _, _, rfl⟩
    · cases h.1
    · cases hl; rfl
  have e1 : onward { req := { op := 0x1d, txn := 7 }, kind := .write } .comp (some (5, 9)) =
      one { req := { op := 0x1d, txn := 7 }, kind := .write, word := [.comp], ids := some (5, 9) } := by
    unfold onward; rw [if_neg (by decide)]; rfl
  rw [e1]
  apply not_allowed_end
  intro S' h
  obtain ⟨l, hl, hn, _⟩ := step_txDat (by decide) h
  cases hl; simp [Next] at hn

/-- Write data are accepted a second time while `Comp` is outstanding, and data of a copy-back where none were asked for. -/
theorem second_data_missed :
    let tr : List Ev := [.req { op := 0x1d, txn := 7 }, .rxRsp { op := 6, txn := 7, src := 5, dbid := 9 }, .txDat { op := 3, tgt := 5, txn := 9 },
      .txDat { op := 2, tgt := 5, txn := 9 }]
    run {} tr = [] ∧ ¬ Allowed {} tr := by
  refine ⟨by decide, ?_⟩
  refine not_allowed (fun S' h => step_new _ .write (by unfold Quick isLink; decide) rfl S' h) ?_
  refine not_allowed (T := onward { req := { op := 0x1d, txn := 7 }, kind := .write } .dbid (some (5, 9))) ?_ ?_
  · intro S' h
    rcases step_rxRsp (by decide) (by decide) h with h | ⟨l, hl, _, _, rfl⟩
    · cases h.1
    · cases hl; rfl
  have e1 : onward { req := { op := 0x1d, txn := 7 }, kind := .write } .dbid (some (5, 9)) =
      one { req := { op := 0x1d, txn := 7 }, kind := .write, word := [.dbid], ids := some (5, 9) } := by
    unfold onward; rw [if_neg (by decide)]; rfl
  rw [e1]
  refine not_allowed (T := onward { req := { op := 0x1d, txn := 7 }, kind := .write, word := [.dbid], ids := some (5, 9) } (.wr false) none) ?_ ?_
  · intro S' h
    obtain ⟨l, hl, _, rfl⟩ := step_txDat (by decide) h
    cases hl; rfl
  have e2 : onward { req := { op := 0x1d, txn := 7 }, kind := .write, word := [.dbid], ids := some (5, 9) } (.wr false) none =
      one { req := { op := 0x1d, txn := 7 }, kind := .write, word := [.dbid, .wr false], ids := some (5, 9) } := by
    unfold onward; rw [if_neg (by decide)]; rfl
  rw [e2]
  apply not_allowed_end
  intro S' h
  obtain ⟨l, hl, hn, _⟩ := step_txDat (by decide) h
  cases hl; simp [Next, copyBack] at hn

/-- A `CompAck` is accepted before `Comp`, when the `DBID` was told. -/
theorem early_ack_missed :
    let tr : List Ev := [.req { op := 0x19, txn := 7, ack := true }, .rxRsp { op := 6, txn := 7, src := 5, dbid := 9 }, .txRsp { op := 2, tgt := 5, txn := 9 }]
    run {} tr = [] ∧ ¬ Allowed {} tr := by
  refine ⟨by decide, ?_⟩
  refine not_allowed (fun S' h => step_new _ .write (by unfold Quick isLink; decide) rfl S' h) ?_
  refine not_allowed (T := onward { req := { op := 0x19, txn := 7, ack := true }, kind := .write } .dbid (some (5, 9))) ?_ ?_
  · intro S' h
    rcases step_rxRsp (by decide) (by decide) h with h | ⟨l, hl, _, _, rfl⟩
    · cases h.1
    · cases hl; rfl
  have e1 : onward { req := { op := 0x19, txn := 7, ack := true }, kind := .write } .dbid (some (5, 9)) =
      one { req := { op := 0x19, txn := 7, ack := true }, kind := .write, word := [.dbid], ids := some (5, 9) } := by
    unfold onward; rw [if_neg (by decide)]; rfl
  rw [e1]
  apply not_allowed_end
  intro S' h
  obtain ⟨_, hn, _⟩ := step_txRsp (by decide) h
  simp [Next] at hn

/-- Write data with `CompAck` are accepted for a request that expects none. -/
theorem unasked_ack_missed :
    let tr : List Ev := [.req { op := 0x19, txn := 7 }, .rxRsp { op := 5, txn := 7, src := 5, dbid := 9 }, .txDat { op := 0xc, tgt := 5, txn := 9 }]
    run {} tr = [] ∧ ¬ Allowed {} tr := by
  refine ⟨by decide, ?_⟩
  refine not_allowed (fun S' h => step_new _ .write (by unfold Quick isLink; decide) rfl S' h) ?_
  refine not_allowed (T := onward { req := { op := 0x19, txn := 7 }, kind := .write } .compDbid (some (5, 9))) ?_ ?_
  · intro S' h
    rcases step_rxRsp (by decide) (by decide) h with h | ⟨l, hl, _, _, rfl⟩
    · cases h.1
    · cases hl; rfl
  have e1 : onward { req := { op := 0x19, txn := 7 }, kind := .write } .compDbid (some (5, 9)) =
      one { req := { op := 0x19, txn := 7 }, kind := .write, word := [.compDbid], ids := some (5, 9) } := by
    unfold onward; rw [if_neg (by decide)]; rfl
  rw [e1]
  apply not_allowed_end
  intro S' h
  obtain ⟨l, hl, hn, _⟩ := step_txDat (by decide) h
  cases hl; simp [Next, copyBack] at hn

/-- A `RetryAck` is accepted after `DBIDResp`. -/
theorem late_retry_missed :
    let tr : List Ev := [.req { op := 0x1d, txn := 7 }, .rxRsp { op := 6, txn := 7, src := 5, dbid := 9 }, .rxRsp { op := 3, txn := 7 }]
    run {} tr = [] ∧ ¬ Allowed {} tr := by
  refine ⟨by decide, ?_⟩
  refine not_allowed (fun S' h => step_new _ .write (by unfold Quick isLink; decide) rfl S' h) ?_
  refine not_allowed (T := onward { req := { op := 0x1d, txn := 7 }, kind := .write } .dbid (some (5, 9))) ?_ ?_
  · intro S' h
    rcases step_rxRsp (by decide) (by decide) h with h | ⟨l, hl, _, _, rfl⟩
    · cases h.1
    · cases hl; rfl
  have e1 : onward { req := { op := 0x1d, txn := 7 }, kind := .write } .dbid (some (5, 9)) =
      one { req := { op := 0x1d, txn := 7 }, kind := .write, word := [.dbid], ids := some (5, 9) } := by
    unfold onward; rw [if_neg (by decide)]; rfl
  rw [e1]
  apply not_allowed_end
  intro S' h
  rcases step_rxRsp (by decide) (by decide) h with h | ⟨l, hl, _⟩
  · cases h.2.2.1
  · cases hl

/-- A `RespSepData` is accepted after a `ReadReceipt`. -/
theorem two_receipts_missed :
    let tr : List Ev := [.req { op := 3, txn := 7, order := 2, ack := true }, .rxRsp { op := 8, txn := 7 }, .rxRsp { op := 0xb, txn := 7 }]
    run {} tr = [] ∧ ¬ Allowed {} tr := by
  refine ⟨by decide, ?_⟩
  refine not_allowed (fun S' h => step_new _ .read (by unfold Quick isLink; decide) rfl S' h) ?_
  refine not_allowed (T := onward { req := { op := 3, txn := 7, order := 2, ack := true }, kind := .read } .receipt none) ?_ ?_
  · intro S' h
    rcases step_rxRsp (by decide) (by decide) h with h | ⟨l, hl, _, _, rfl⟩
    · cases h.1
    · cases hl; rfl
  have e1 : onward { req := { op := 3, txn := 7, order := 2, ack := true }, kind := .read } .receipt none =
      one { req := { op := 3, txn := 7, order := 2, ack := true }, kind := .read, word := [.receipt] } := by
    unfold onward; rw [if_neg (by decide)]; rfl
  rw [e1]
  apply not_allowed_end
  intro S' h
  rcases step_rxRsp (by decide) (by decide) h with h | ⟨l, hl, _, hn, _⟩
  · cases h.1
  · cases hl; simp [Next] at hn

/-- A `SnpDVMOp` is accepted to be answered after the first of its two parts. -/
theorem dvm_half_missed :
    let tr : List Ev := [.snp { op := 0xd, txn := 3 }, .txRsp { op := 1, txn := 3 }]
    run {} tr = [] ∧ ¬ Allowed {} tr := by
  refine ⟨by decide, ?_⟩
  refine not_allowed (T := { plain := [{ snp := { op := 0xd, txn := 3 } }] }) ?_ ?_
  · intro S' h
    unfold Step at h
    dsimp only at h
    rw [if_neg (by decide), if_neg (by decide), if_neg (by decide), if_neg (by simp)] at h
    exact h
  apply not_allowed_end
  rintro S' (h | ⟨h, _⟩ | ⟨h, _⟩ | ⟨_, h⟩)
  · cases h.1.1
  · cases h
  · cases h
  · unfold Answers at h
    rcases h with ⟨l, _, h⟩ | ⟨l, _, h⟩ | ⟨l, _, h⟩
    · obtain ⟨x, hx, _⟩ := turns_ex h; cases hx
    · obtain ⟨x, hx, _⟩ := turns_ex h; cases hx
    · obtain ⟨x, hx, _, hw, _⟩ := turns_ex h
      rw [List.mem_singleton.mp hx] at hw
      simp at hw

/-! ## Reported although allowed -/

/-- Data that come from a subordinate while the home answers: the checker takes the sender of `DataSepResp` for the home, the
`CompAck` is reported. -/
theorem direct_data_false_alarm :
    let tr : List Ev := [.req { op := 3, txn := 7, ack := true, snpAttr := true }, .rxRsp { op := 0xb, txn := 7, src := 5, dbid := 9 },
      .rxDat { op := 0xb, txn := 7, src := 8, home := 5, dbid := 9 }, .txRsp { op := 2, tgt := 5, txn := 9 }]
    run {} tr = [.txRsp] ∧ Allowed {} tr := by
  refine ⟨by decide, ?_⟩
  refine ⟨_, .inr ⟨by unfold Quick isLink; decide, rfl, rfl⟩, ?_⟩
  refine ⟨_, .inr (.inr (.inr ⟨_, rfl, _, rfl, by simp [Next, Ordered], rfl⟩)), ?_⟩
  refine ⟨_, .inr (.inl ⟨_, rfl, _, rfl, by simp [Next, Ordered], rfl⟩), ?_⟩
  exact ⟨_, .inr (.inl ⟨rfl, 7, _, rfl, rfl, _, rfl, by simp [Next], rfl⟩), trivial⟩

/-- Data forwarded to the requester before the snoop is answered are reported. -/
theorem forward_first_false_alarm :
    let tr : List Ev := [.snp { op := 0x11, txn := 3, fwdNid := 6, fwdTxn := 2 }, .txDat { op := 4, tgt := 6, txn := 2 }, .txRsp { op := 9, txn := 3 }]
    run {} tr = [.txDat] ∧ Allowed {} tr := by
  refine ⟨by decide, ?_⟩
  refine ⟨{ fwd := [{ snp := { op := 0x11, txn := 3, fwdNid := 6, fwdTxn := 2 } }] }, rfl, ?_⟩
  refine ⟨_, .inr (.inr (.inl ⟨rfl, _, rfl, [], _, [], rfl, ⟨rfl, rfl, by simp, by simp⟩, rfl⟩)), ?_⟩
  exact ⟨_, .inr (.inr (.inr ⟨by simp, .inl ⟨_, rfl, [], _, [], rfl, ⟨rfl, by simp, by simp, by simp⟩, rfl⟩⟩)), trivial⟩

/-- Two homes use the same `TxnID` for forwarding snoops (or one uses it again when the first snoop is answered but the data are not
sent yet): the second answer is reported. -/
theorem two_homes_false_alarm :
    let tr : List Ev := [.snp { op := 0x11, txn := 3, fwdNid := 6, fwdTxn := 2 }, .snp { op := 0x17, txn := 3, fwdNid := 7, fwdTxn := 4 },
      .txRsp { op := 9, txn := 3 }, .txRsp { op := 9, txn := 3 }]
    run {} tr = [.txRsp] ∧ Allowed {} tr := by
  refine ⟨by decide, ?_⟩
  refine ⟨{ fwd := [{ snp := { op := 0x11, txn := 3, fwdNid := 6, fwdTxn := 2 } }] }, rfl, ?_⟩
  refine ⟨{ fwd := [{ snp := { op := 0x11, txn := 3, fwdNid := 6, fwdTxn := 2 } }, { snp := { op := 0x17, txn := 3, fwdNid := 7, fwdTxn := 4 } }] }, rfl, ?_⟩
  refine ⟨_, .inr (.inr (.inr ⟨by simp, .inl ⟨_, rfl, [], _, [_], rfl, ⟨rfl, by simp, by simp, by simp⟩, rfl⟩⟩)), ?_⟩
  exact ⟨_, .inr (.inr (.inr ⟨by simp, .inl ⟨_, rfl, [_], _, [], rfl, ⟨rfl, by simp, by simp, by simp⟩, rfl⟩⟩)), trivial⟩

/-- A read that only waits for its receipt, whose data came with a `DBID` nobody needs, takes the write data of another request. -/
theorem stale_ids_false_alarm :
    let tr : List Ev := [.req { op := 4, txn := 1, order := 2 }, .rxDat { op := 4, txn := 1, home := 5, dbid := 9 },
      .req { op := 0x1d, txn := 2 }, .rxRsp { op := 5, txn := 2, src := 5, dbid := 9 }, .txDat { op := 3, tgt := 5, txn := 9 }]
    run {} tr = [.txDat] ∧ Allowed {} tr := by
  refine ⟨by decide, ?_⟩
  refine ⟨_, .inr ⟨by unfold Quick isLink; decide, rfl, rfl⟩, ?_⟩
  refine ⟨_, .inr (.inl ⟨_, rfl, _, rfl, by simp [Next], rfl⟩), ?_⟩
  refine ⟨_, .inr ⟨by unfold Quick isLink; decide, rfl, rfl⟩, ?_⟩
  refine ⟨_, .inr (.inr (.inr ⟨_, rfl, _, rfl, by simp [Next], rfl⟩)), ?_⟩
  exact ⟨_, .inr (.inl ⟨_, 2, _, rfl, rfl, rfl, _, rfl, by simp [Next, copyBack], rfl⟩), trivial⟩

/-- The second flit of a line of data (a data channel narrower than the line) is reported, and so is `WriteDataCancel`; neither has
a place in the words above. -/
theorem narrow_and_cancel_reported :
    run {} [.req { op := 1, txn := 7, ack := true }, .rxDat { op := 4, txn := 7, home := 5, dbid := 9 }, .rxDat { op := 4, txn := 7, home := 5, dbid := 9 }] =
      [.rxDat] ∧
    run {} [.req { op := 0x18, txn := 7 }, .rxRsp { op := 5, txn := 7, src := 5, dbid := 9 }, .txDat { op := 7, tgt := 5, txn := 9 }] = [.txDat] := by
  decide

end Verif.PcChi
