import Verif.Ace.Steps2

/-!
# The invariant is kept by every action
-/

set_option linter.unusedSimpArgs false

namespace Verif.Ace

variable {c : Cfg} {w : Bool} {m0 : LineId → Mem} {s : State}

theorem commit_act (p q : Nat) (a : Act) : ((commit c p s a).ports q).act = (s.ports q).act := by
  unfold commit
  dsimp only
  cases a.txn.cmd <;> dsimp only <;> try rw [setLine_act]
  · split <;> first | rw [setLine_act] | rfl
  · cases a.job.pieces <;> rfl
  · split <;> first | rw [setLine_act] | rfl
  · split <;> first | rw [setLine_act] | rfl
  · cases a.job <;> dsimp only <;> rw [setLine_act]

theorem commit_out {p : Nat} {a : Act} (h : a.txn.cmd.snooping = false)
    (hj : a.job.pieces ≠ []) : ((commit c p s a).line c p a.txn.key).valid = false := by
  unfold commit
  dsimp only
  cases hc : a.txn.cmd <;> rw [hc] at h <;> first | cases h | skip
  · dsimp only; rw [setLine_line]
  · dsimp only
    cases hj' : a.job
    · dsimp only; rw [setLine_line]
    · dsimp only; rw [setLine_line]
    · rw [hj'] at hj; exact absurd rfl hj

theorem JobOk.tail {p : Nat} : ∀ {job : Job}, JobOk c w p job → JobOk c w p job.tail
  | .load _, h => fun k hk => h k (List.mem_of_mem_tail hk)
  | .store _, h => fun k hk => h k (List.mem_of_mem_tail hk)
  | .maint .., h => h

theorem Inv.resumeStep (h : Inv c w m0 s) (hL : 0 < c.lineSz) (p : Nat) :
    Inv c w m0 (resumeStep c s p) := by
  unfold Verif.Ace.resumeStep
  rcases ha : (s.ports p).act with _ | a
  · exact h
  dsimp only
  by_cases hst : a.stage = .done
  · rw [if_pos hst, commit_restart]
    have hA := h.act p a ha
    by_cases hmu : a.txn.cmd = .makeUnique
    · obtain ⟨hf, hv⟩ := hA.fill (by rw [hmu]; rfl)
      obtain ⟨k, cs, hj, hk, hcov⟩ := hf.mu hmu
      have hwt : c.wt p = false := by
        cases e : c.wt p
        · rfl
        · have := hf.wt e; rw [hmu] at this; cases this
      have hm := h.commitMU ha hst hmu hcov
      have hnext : a.next = none := hA.nextOk (by rw [hmu]; rfl)
      have hjob := hA.jobOk
      rw [hj] at hjob
      unfold proceed
      rw [hnext, hmu, hj]
      dsimp only
      show Inv c w m0 (Verif.Ace.goStore c p _ (k :: cs))
      have hcm : Verif.Ace.commit c p (Verif.Ace.leave s p) a = (Verif.Ace.leave s p).setLine c p a.txn.key
          { valid := true, key := a.txn.key, shared := false, dirty := true
            data := (s.line c p a.txn.key).data } := by
        unfold Verif.Ace.commit; dsimp only; rw [hmu]; dsimp only; rw [leave_line]
      rw [hcm, restart_setLine]
      unfold Verif.Ace.goStore
      rw [if_neg (by rw [hwt]; simp [hf.master])]
      dsimp only
      rw [hk, setLine_line, if_pos (inCache_iff.2 (by rw [setLine_line]; exact ⟨rfl, rfl⟩)), if_neg (by simp)]
      dsimp only
      have hss : ∀ (S : State) l l', (S.setLine c p a.txn.key l).setLine c p a.txn.key l' =
          S.setLine c p a.txn.key l' := by
        intro S l l'
        simp only [State.setLine, State.setPort]
        congr 1
        funext q
        by_cases e : q = p
        · subst e
          simp only [if_true]
          congr 1
          funext i
          by_cases e : i = c.slot a.txn.key <;> simp [e]
        · simp [e]
      rw [hss, ← restart_setLine, ← restart_emit]
      refine Inv.goStore hL cs _ (hm.restart hL _) ?_ (fun k' hk' => hjob k' (by simp [hk']))
      apply restart_act
      show (((Verif.Ace.leave s p).setLine ..).ports p).act = none
      rw [setLine_act, leave_act]
    · have hm := (h.commit ha hst hmu).restart hL a.txn
      have hact : ((Verif.Ace.restart c a.txn (Verif.Ace.commit c p (Verif.Ace.leave s p) a)).ports p).act = none := by
        apply restart_act
        rw [commit_act, leave_act]
      unfold proceed
      cases hsn : a.txn.cmd.snooping
      · obtain ⟨cmd, hn, hcase⟩ := hA.outNext hsn
        rw [hn]
        dsimp only
        rcases hcase with ⟨k, hj, hk, rfl, -⟩ | ⟨k, cs, hpc, hsl, hkw, hf⟩
        · have hjob := hA.jobOk
          rw [hj] at hjob ⊢
          exact hm.issue hL hact (txnOk_cs hjob.2 hjob) (fresh_lineTxn ..)
        · have hjm : ∀ cmd k, a.job ≠ .maint cmd k := by
            intro cmd k e; rw [e] at hpc; cases hpc
          have hgoal : Inv c w m0 (Verif.Ace.issue c (Verif.Ace.restart c a.txn (Verif.Ace.commit c p (Verif.Ace.leave s p) a)) p
              (lineTxn c cmd k.key) a.job none) := by
            refine hm.issue hL hact (txnOk_fill hkw hA.jobOk hf ?_) (fresh_lineTxn ..)
            rw [restart_lines, hsl]
            exact commit_out hsn (by rw [hpc]; nofun)
          cases hj : a.job with
          | load cs' => rw [hj] at hgoal hpc; dsimp only; rw [hpc]; exact hgoal
          | store cs' => rw [hj] at hgoal hpc; dsimp only; rw [hpc]; exact hgoal
          | maint cmd k => exact absurd hj (hjm _ _)
      · rw [hA.nextOk hsn]
        dsimp only
        have hgo := hm.go hL hact hA.jobOk
        have hgt := hm.go hL hact hA.jobOk.tail
        cases hc : a.txn.cmd <;> dsimp only <;> first | exact hgo | exact hgt | exact hm
  · rw [if_neg hst]; exact h

theorem snoopLine_key (l : Line) (ac : Ac) : (snoopLine l ac).1.key = l.key := by
  cases ac <;> rfl

theorem snoopLine_shared (l : Line) (ac : Ac) (h : (snoopLine l ac).1.valid = true) :
    (snoopLine l ac).1.shared = true := by
  cases ac <;> first | rfl | (simp [snoopLine] at h)

theorem TxnOk.portDone {lines : Nat → Line} {p : Nat} {t : Txn} {job : Job} {next : Option Bus}
    (h : TxnOk c w lines p t job next) (r : Resp) : TxnOk c w lines p (portDone t r) job next :=
  { key := h.key, range := h.range, fine := h.fine, jobOk := h.jobOk, fill := h.fill, cu := h.cu
    out := h.out, outNext := h.outNext, nextOk := h.nextOk, wr := h.wr, wlu := h.wlu, ro := h.ro }

theorem Inv.snoopStep (h : Inv c w m0 s) (p q : Nat) : Inv c w m0 (snoopStep c s p q) := by
  unfold Verif.Ace.snoopStep
  rcases ha : (s.ports p).act with _ | ⟨t, st, job, next⟩
  · exact h
  cases st with
  | snoop todo =>
    dsimp only
    by_cases hq : q ∈ todo ∧ s.writeOngoing q = false
    · rw [if_pos hq]
      have hA := h.act p _ ha
      have hV := h.view t.key hA.key
      have hsn : t.cmd.snooping = true := by
        cases e : t.cmd.snooping
        · rcases hA.outStage e with x | x <;> cases x
        · rfl
      have htx : (viewOf c m0 s t.key).tx p = some (t, .snoop todo) := by
        show txOf t.key (s.ports p).act = _
        rw [ha]
        exact txOf_eq rfl nofun hsn
      have hqp : q ≠ p := ((hV.tinv p _ _ htx).todo q hq.1).1
      have hwbq : (viewOf c m0 s t.key).wb q = none := by
        show wbOf t.key (s.ports q).act = none
        rcases hb : (s.ports q).act with _ | b
        · rfl
        · apply wbOf_in
          have := hq.2
          unfold State.writeOngoing State.txn? at this
          rw [hb] at this
          simp only [Option.map_some] at this
          cases hc : b.txn.cmd <;> rw [hc] at this <;> first | rfl | cases this
      have hnw : afterSnoop todo q ≠ .waiting := by
        rcases afterSnoop_cases todo q with e | ⟨l, e⟩ <;> rw [e] <;> nofun
      have hA' : ∀ r, ActOk c w (s.ports p).lines p ⟨portDone t r, afterSnoop todo q, job, next⟩ := by
        intro r
        exact { hA.toTxnOk.portDone r with
          outStage := fun e => (nomatch hsn.symm.trans e)
          fresh := fun e => absurd e hnw }
      by_cases hin : s.inCache c q t.key = true
      · rw [if_pos hin]
        obtain ⟨i1, i2⟩ := inCache_iff.1 hin
        generalize hl' : snoopLine (s.line c q t.key) t.cmd.ac = r
        have hrk : r.1.key = t.key := by rw [← hl', snoopLine_key, i2]
        have hrs : r.1.valid = true → r.1.shared = true := by
          rw [← hl']; exact snoopLine_shared _ _
        have hviewK := hV.snoopHit (l := s.line c q t.key) htx hq.1 hwbq
          (by show lineCopy t.key (s.line c q t.key) = _; rw [lineCopy_of i1 i2, Line.toCopy, if_pos i1]) i1
        rw [hl'] at hviewK
        refine
          { line := fun r' i hr => ?_, act := fun r' b hb => ?_, ong := fun r' b hb hs => ?_
            view := fun X hX => ?_, log := h.log }
        · rw [setAct_lines] at hr ⊢
          by_cases e : r' = q
          · subst e
            rw [setLine_lines] at hr ⊢
            split
            · rename_i e; rw [hrk]; exact ⟨e.symm, hA.key⟩
            · rename_i e; rw [if_neg e] at hr; exact h.line r' i hr
          · rw [setLine_ne _ _ _ _ e] at hr ⊢; exact h.line r' i hr
        · rw [setAct_lines]
          by_cases e : r' = p
          · subst e
            rw [setAct_act] at hb; cases hb
            rw [setLine_ne _ _ _ _ (Ne.symm hqp)]
            exact hA' _
          · rw [setAct_ne _ _ e, setLine_act] at hb
            have hB := h.act r' b hb
            by_cases e' : r' = q
            · subst e'
              have hbs : b.txn.cmd.snooping = true := by
                have := hq.2
                unfold State.writeOngoing State.txn? at this
                rw [hb] at this
                simp only [Option.map_some] at this
                cases hc : b.txn.cmd <;> rw [hc] at this <;> first | rfl | cases this
              refine { hB with fill := fun x => ⟨(hB.fill x).1, ?_⟩, cu := fun x => ?_, out := fun x => ?_ }
              · rw [setLine_lines]
                split
                · rename_i hsl
                  have := (hB.fill x).2
                  rw [hsl] at this
                  rw [show (s.line c r' t.key).valid = false from this] at i1; cases i1
                · exact (hB.fill x).2
              · obtain ⟨c1, c2, c3⟩ := hB.cu x
                refine ⟨c1, c2, ?_⟩
                rw [setLine_lines]
                split
                · rename_i hsl
                  intro hv
                  rw [hsl] at c3
                  exact ⟨hrk.trans (i2.symm.trans (c3 i1).1), hrs hv⟩
                · exact c3
              · rw [hbs] at x; cases x
            · rw [setLine_ne _ _ _ _ e']; exact hB
        · by_cases e : r' = p
          · subst e
            exact h.ong _ _ ha nofun
          · rw [setAct_ne _ _ e, setLine_act] at hb
            exact h.ong r' b hb hs
        · rw [view_setAct]
          by_cases e : X = t.key
          · subst e
            rw [view_setLine, if_pos rfl,
              txOf_eq (a := ⟨portDone t r.2, afterSnoop todo q, job, next⟩) (X := t.key) rfl hnw hsn,
              wbOf_in (a := ⟨portDone t r.2, afterSnoop todo q, job, next⟩) hsn]
            dsimp only
            rw [upd_self (f := (viewOf c m0 s t.key).wb)]
            · have : lineCopy t.key r.1 = r.1.toCopy := by
                unfold lineCopy Line.toCopy
                simp [hrk]
              rw [this]
              exact hviewK
            · show wbOf t.key (s.ports p).act = none
              rw [ha]; exact wbOf_in hsn
          · rw [view_setLine_other (Ne.symm e) (fun _ => hrk) (fun _ => i2),
              txOf_ne (a := ⟨portDone t r.2, afterSnoop todo q, job, next⟩) (Ne.symm e),
              wbOf_ne (a := ⟨portDone t r.2, afterSnoop todo q, job, next⟩) (Ne.symm e), upd_self, upd_self]
            · exact h.view X hX
            · show wbOf X (s.ports p).act = none
              rw [ha]; exact wbOf_ne (Ne.symm e)
            · show txOf X (s.ports p).act = none
              rw [ha]; exact txOf_ne (Ne.symm e)
      · rw [if_neg hin]
        have hn : (viewOf c m0 s t.key).copy q = none := by
          show lineCopy _ _ = none
          rw [lineCopy, if_neg]
          intro e
          exact hin (inCache_iff.2 e)
        refine h.setAct (a := ⟨portDone t {}, afterSnoop todo q, job, next⟩) rfl rfl (fun _ x => x)
          (fun _ => h.ong _ _ ha nofun) (hA' _) (fun _ _ _ => rfl) (fun b hb => by rw [ha] at hb; cases hb; rfl)
          (txOf_eq rfl hnw hsn) (wbOf_in hsn) rfl ?_
        rw [upd_self (f := (viewOf c m0 s _).wb)]
        · exact hV.snoopMiss htx hn
        · show wbOf t.key (s.ports p).act = none
          rw [ha]; exact wbOf_in hsn
    · rw [if_neg hq]; exact h
  | _ => exact h

/-- Moving the transaction of a port along, without memory or cache. -/
theorem Inv.move (h : Inv c w m0 s) {p : Nat} {a : Act} (ha : (s.ports p).act = some a) {t' : Txn}
    {st' : Stage} {s' : State} (hsn : a.txn.cmd.snooping = true)
    (hold : a.stage ≠ .waiting) (hnew : st' ≠ .waiting)
    (hs : s'.ports = (s.setAct p (some { a with txn := t', stage := st' })).ports) (hl : s'.log = s.log)
    (hong : s'.ongoing = s.ongoing)
    (ht : TxnOk c w (s.ports p).lines p t' a.job a.next) (hk : t'.key = a.txn.key) (hc : t'.cmd = a.txn.cmd)
    (hmem : ∀ X : LineId, X.2 = w → X ≠ a.txn.key → s'.mem (c.phys X) = s.mem (c.phys X))
    {m : Mem} (hm : s'.mem (c.phys a.txn.key) = m)
    (hview : LInv c.masters c.lineSz c.wt { viewOf c m0 s a.txn.key with
      tx := upd (viewOf c m0 s a.txn.key).tx p (some (t', st'))
      mem := m }) : Inv c w m0 s' := by
  have hA := h.act p a ha
  have hsn' : t'.cmd.snooping = true := by rw [hc]; exact hsn
  refine h.setAct (a := { a with txn := t', stage := st' }) (s' := s') hs hl (fun _ x => by rw [hong]; exact x)
    (fun _ => by rw [hong]; exact h.ong p a ha hold)
    { ht with outStage := fun e => ?_, fresh := fun e => absurd e hnew }
    (fun X hX e => hmem X hX (by rw [← hk]; exact e))
    (fun b hb => by rw [ha] at hb; cases hb; exact hk.symm)
    (txOf_eq (X := t'.key) rfl hnew hsn') (wbOf_in (X := t'.key) hsn') (m := m) (by rw [show c.phys _ = c.phys a.txn.key from congrArg c.phys hk]; exact hm) ?_
  · rw [show t'.cmd.snooping = true from hsn'] at e; cases e
  · dsimp only
    rw [hk, upd_self (f := (viewOf c m0 s a.txn.key).wb)]
    · exact hview
    · show wbOf a.txn.key (s.ports p).act = none
      rw [ha]; exact wbOf_in hsn

theorem Inv.finish (h : Inv c w m0 s) {p : Nat} {a : Act} (ha : (s.ports p).act = some a)
    (hst : (a.stage = .snooped ∧ a.txn.exec = false) ∨ a.stage = .cleaned) :
    Inv c w m0 (finish s p a) := by
  have hA := h.act p a ha
  have hV := h.view a.txn.key hA.key
  have hnw : a.stage ≠ .waiting := by rcases hst with ⟨e, -⟩ | e <;> rw [e] <;> nofun
  have hsn : a.txn.cmd.snooping = true := by
    cases e : a.txn.cmd.snooping
    · rcases hst with ⟨e', -⟩ | e' <;> rcases hA.outStage e with x | x <;> rw [e'] at x <;> cases x
    · rfl
  have htx : (viewOf c m0 s a.txn.key).tx p = some (a.txn, a.stage) := by
    show txOf a.txn.key (s.ports p).act = _
    rw [ha]
    exact txOf_eq rfl hnw hsn
  have hf := hV.finish htx hst
  unfold Verif.Ace.finish
  by_cases hb : a.txn.cmd = .readOnce ∨ a.txn.ok = true
  · rw [if_pos hb]
    rw [if_pos hb] at hf
    exact h.move ha (t' := a.txn) hsn hnw (st' := .done) nofun rfl rfl rfl hA.toTxnOk rfl rfl (fun _ _ _ => rfl) rfl hf
  · rw [if_neg hb]
    rw [if_neg hb] at hf
    exact h.move ha (t' := a.txn) hsn hnw (st' := .queued) nofun rfl rfl rfl hA.toTxnOk rfl rfl (fun _ _ _ => rfl) rfl hf

theorem Inv.finalStep (h : Inv c w m0 s) (p : Nat) : Inv c w m0 (finalStep s p) := by
  unfold Verif.Ace.finalStep
  rcases ha : (s.ports p).act with _ | a
  · exact h
  dsimp only
  have hA := h.act p a ha
  have hV := h.view a.txn.key hA.key
  cases hst : a.stage <;> dsimp only <;> try exact h
  · cases he : a.txn.exec
    · rw [if_neg (by simp)]
      exact h.finish ha (Or.inl ⟨hst, he⟩)
    · rw [if_pos rfl]
      have hsn : a.txn.cmd.snooping = true := by
        cases e : a.txn.cmd.snooping
        · rcases hA.outStage e with x | x <;> rw [hst] at x <;> cases x
        · rfl
      have htx : (viewOf c m0 s a.txn.key).tx p = some (a.txn, .snooped) := by
        show txOf a.txn.key (s.ports p).act = _
        rw [ha, ← hst]
        exact txOf_eq rfl (by rw [hst]; nofun) hsn
      exact h.move ha (t' := a.txn) hsn (by rw [hst]; nofun) (st' := .clean) nofun rfl rfl rfl hA.toTxnOk rfl rfl
        (fun _ _ _ => rfl) rfl (hV.toClean htx he)
  · exact h.finish ha (Or.inr hst)

theorem TxnOk.setGot {lines : Nat → Line} {p : Nat} {t : Txn} {job : Job} {next : Option Bus}
    (h : TxnOk c w lines p t job next) (g : Option Mem) : TxnOk c w lines p { t with got := g } job next :=
  { key := h.key, range := h.range, fine := h.fine, jobOk := h.jobOk, fill := h.fill, cu := h.cu
    out := h.out, outNext := h.outNext, nextOk := h.nextOk, wr := h.wr, wlu := h.wlu, ro := h.ro }

theorem Inv.execClean (h : Inv c w m0 s) (hsp : c.split = false ∨ w = true) {p : Nat} {a : Act}
    (ha : (s.ports p).act = some a) (hst : a.stage = .clean) : Inv c w m0 (execClean c s p a) := by
  have hA := h.act p a ha
  have hV := h.view a.txn.key hA.key
  have hnw : a.stage ≠ .waiting := by rw [hst]; nofun
  have hsn : a.txn.cmd.snooping = true := by
    cases e : a.txn.cmd.snooping
    · rcases hA.outStage e with x | x <;> rw [hst] at x <;> cases x
    · rfl
  have htx : (viewOf c m0 s a.txn.key).tx p = some (a.txn, .clean) := by
    show txOf a.txn.key (s.ports p).act = _
    rw [ha, ← hst]
    exact txOf_eq rfl hnw hsn
  have hT := hV.tinv p _ _ htx
  unfold Verif.Ace.execClean
  by_cases hc : a.txn.cmd = .readOnce
  · rw [if_pos hc]
    exact h.move ha (t' := { a.txn with got := _ }) hsn hnw (st' := .cleaned) nofun rfl rfl rfl (hA.toTxnOk.setGot _) rfl rfl
      (fun _ _ _ => rfl) rfl (hV.execRO htx hc)
  · rw [if_neg hc]
    rcases hd : a.txn.dsw with _ | d
    · rcases (hT.exec trivial).1 (hT.clean rfl) with e | e
      · rw [hd] at e; cases e
      · exact absurd e.1 hc
    · dsimp only
      refine h.move ha (t' := a.txn) hsn hnw (st' := .cleaned) nofun rfl rfl rfl hA.toTxnOk rfl rfl (fun X hX e => ?_) ?_
        (hV.execDs htx hd)
      · show (if c.phys X = c.phys (dsKey a.txn.key) then d else s.mem (c.phys X)) = _
        rw [if_neg]
        rw [phys_ds hA.key hsp]
        exact fun x => e (phys_inj hX hA.key x)
      · show (if c.phys a.txn.key = c.phys (dsKey a.txn.key) then d else s.mem (c.phys a.txn.key)) = _
        rw [if_pos (phys_ds hA.key hsp).symm]

theorem Inv.execMain (h : Inv c w m0 s) {p : Nat} {a : Act}
    (ha : (s.ports p).act = some a) (hst : a.stage = .queued) : Inv c w m0 (execMain c s p a) := by
  have hA := h.act p a ha
  have hV := h.view a.txn.key hA.key
  have hnw : a.stage ≠ .waiting := by rw [hst]; nofun
  have htx : a.txn.cmd.snooping = true → (viewOf c m0 s a.txn.key).tx p = some (a.txn, .queued) := by
    intro hsn
    show txOf a.txn.key (s.ports p).act = _
    rw [ha, ← hst]
    exact txOf_eq rfl hnw hsn
  have rd : a.txn.cmd.snooping = true → a.txn.cmd.ac.isRead = true →
      Inv c w m0 (s.setAct p (some { a with
        stage := .done, txn := { a.txn with got := some (s.mem (c.phys a.txn.key)) } })) := by
    intro hsn hr
    exact h.move ha (t' := { a.txn with got := _ }) hsn hnw (st' := .done) nofun rfl rfl rfl (hA.toTxnOk.setGot _) rfl rfl
      (fun _ _ _ => rfl) rfl (hV.execRd (htx hsn) hr)
  have nop : a.txn.cmd.snooping = true → a.txn.cmd.ac.isRead = false → a.txn.cmd.isWr = false →
      Inv c w m0 (s.setAct p (some { a with stage := .done })) := by
    intro hsn hr hw
    exact h.move ha (t' := a.txn) hsn hnw (st' := .done) nofun rfl rfl rfl hA.toTxnOk rfl rfl
      (fun _ _ _ => rfl) rfl (hV.execNop (htx hsn) hr hw)
  have wr : a.txn.cmd.snooping = true → a.txn.cmd.isWr = true →
      Inv c w m0 (((s.setMem (c.phys a.txn.key) (writeBytes (s.mem (c.phys a.txn.key)) a.txn.ws)).setAct p
        (some { a with stage := .done })).emit (a.txn.ws.map fun e => .wr p a.txn.key e.1 e.2)) := by
    intro hsn hw
    have hr : ∀ X, replay m0 (s.log ++ a.txn.ws.map fun e => .wr p a.txn.key e.1 e.2) X =
        if X = a.txn.key then writeBytes (replay m0 s.log X) a.txn.ws else replay m0 s.log X := by
      intro X; rw [replay_append, replay_wrs]
    refine h.setActG (a := { a with stage := .done }) rfl
      ((consistent_append _ _ _).2 ⟨h.log, consistent_wrs ..⟩) (fun _ x => x)
      (fun _ => h.ong p a ha hnw)
      { hA.toTxnOk with outStage := fun e => ?_, fresh := fun e => (nomatch e) } (fun X hX e => ?_)
      (fun X e => (hr X).trans (if_neg e)) (fun b hb => by rw [ha] at hb; cases hb; rfl)
      (txOf_eq rfl nofun hsn) (wbOf_in hsn) (if_pos rfl) ((hr _).trans (if_pos rfl)) ?_
    · rw [show a.txn.cmd.snooping = true from hsn] at e; cases e
    · show (if c.phys X = c.phys a.txn.key then _ else _) = _
      rw [if_neg]
      exact fun x => e (phys_inj hX hA.key x)
    · rw [upd_self (f := (viewOf c m0 s _).wb)]
      · exact hV.execWr (htx hsn) hw hA.wlu
      · show wbOf a.txn.key (s.ports p).act = none
        rw [ha]; exact wbOf_in hsn
  have out : a.txn.cmd.snooping = false →
      Inv c w m0 ((s.setMem (c.phys a.txn.key) (s.line c p a.txn.key).data).setAct p
        (some { a with stage := .done })) := by
    intro hsn
    obtain ⟨o1, o2, -⟩ := hA.out hsn
    have hwb : (viewOf c m0 s a.txn.key).wb p = some false := by
      show wbOf a.txn.key (s.ports p).act = _
      rw [ha, wbOf_eq rfl hsn, hst]; rfl
    have htn : (viewOf c m0 s a.txn.key).tx p = none := by
      show txOf a.txn.key (s.ports p).act = _
      rw [ha]; exact txOf_out hsn
    refine h.setAct (a := { a with stage := .done }) rfl rfl (fun _ x => x)
      (fun _ => h.ong p a ha hnw)
      { hA.toTxnOk with outStage := fun e => Or.inr rfl, fresh := fun e => (nomatch e) } (fun X hX e => ?_)
      (fun b hb => by rw [ha] at hb; cases hb; rfl)
      (txOf_out hsn) (wbOf_eq rfl hsn) (if_pos rfl) ?_
    · show (if c.phys X = c.phys a.txn.key then _ else _) = _
      rw [if_neg]
      exact fun x => e (phys_inj hX hA.key x)
    · rw [upd_self (f := (viewOf c m0 s _).tx) htn]
      exact hV.wbExec (a := ⟨(s.line c p a.txn.key).shared, (s.line c p a.txn.key).dirty, (s.line c p a.txn.key).data⟩)
        hwb (lineCopy_of o1 o2) htn
  unfold Verif.Ace.execMain
  dsimp only
  cases hc : a.txn.cmd <;> dsimp only <;> first
    | (have := rd (by rw [hc]; rfl) (by rw [hc]; rfl)
       dsimp only at this; rw [hc] at this; exact this)
    | exact nop (by rw [hc]; rfl) (by rw [hc]; rfl) (by rw [hc]; rfl)
    | exact wr (by rw [hc]; rfl) (by rw [hc]; rfl)
    | exact out (by rw [hc]; rfl)

theorem Inv.setDs (h : Inv c w m0 s) (l : List Nat) : Inv c w m0 { s with ds := l } :=
  ⟨h.line, h.act, h.ong, h.view, h.log⟩

theorem Inv.dsStep (h : Inv c w m0 s) (hsp : c.split = false ∨ w = true) : Inv c w m0 (dsStep c s) := by
  unfold Verif.Ace.dsStep
  rcases hds : s.ds with _ | ⟨p, rest⟩
  · exact h
  dsimp only
  have h' := h.setDs rest
  rcases ha : (s.ports p).act with _ | a
  · exact h'
  dsimp only
  cases hst : a.stage <;> dsimp only <;> try exact h'
  · exact h'.execClean hsp ha hst
  · exact h'.execMain ha hst

theorem Inv.startStep (h : Inv c w m0 s) (hL : 0 < c.lineSz) (p : Nat) (op : Op)
    (hop : JobOk c w p (op.job c)) : Inv c w m0 (startStep c s p op) := by
  unfold Verif.Ace.startStep
  by_cases hp : (s.ports p).act.isNone = true
  · rw [if_pos hp]
    exact h.go hL (by simpa using hp) hop
  · rw [if_neg hp]; exact h

theorem inv_init (mem : LineId → Mem) (junk : Nat → Nat → Mem) :
    Inv c w (fun k => mem (c.phys k)) (init mem junk) where
  line := fun _ _ h => by cases h
  act := fun _ _ h => by cases h
  ong := fun _ _ h => by cases h
  view := fun X _ =>
    { s1 := fun _ _ _ _ _ h => (by simp [viewOf, lineCopy, State.line, init] at h)
      s2 := fun _ _ _ _ h => (by simp [viewOf, lineCopy, State.line, init] at h)
      val := fun _ _ h => (by simp [viewOf, lineCopy, State.line, init] at h)
      memv := Or.inl (EqL.refl _)
      excl := fun _ _ _ _ h => (by simp [viewOf, txOf, init] at h)
      txwb := fun _ _ h => (by simp [viewOf, txOf, init] at h)
      lite := fun _ _ h => (by simp [viewOf, lineCopy, State.line, init] at h)
      wtc := fun _ _ _ h => (by simp [viewOf, lineCopy, State.line, init] at h)
      wbd := fun _ _ h => (by simp [viewOf, wbOf, init] at h)
      tinv := fun _ _ _ h => (by simp [viewOf, txOf, init] at h) }
  log := trivial

end Verif.Ace
