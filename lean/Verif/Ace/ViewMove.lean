import Verif.Ace.ViewSnoop

/-!
# One line: misses, stage moves, memory accesses and commits
-/

set_option linter.unusedSimpArgs false

namespace Verif.Ace

variable {n L : Nat} {wt : Nat → Bool} {v : View}

/-- A snooped cache that does not have the line answers. -/
theorem LInv.snoopMiss (h : LInv n L wt v) {p q : Nat} {t : Txn} {todo : List Nat}
    (hx : v.tx p = some (t, .snoop todo)) (ha : v.copy q = none) :
    LInv n L wt { v with tx := upd v.tx p (some (portDone t {}, afterSnoop todo q)) } := by
  have hT := h.tinv p t _ hx
  have hpd : ∀ (t : Txn), portDone t {} = { t with ok := t.ok || respOk t.cmd none } := by
    intro t; simp [portDone]
  have hnp : ∀ r', ¬ (afterSnoop todo q).pend r' → r' ≠ q → ¬ (Stage.snoop todo).pend r' := by
    intro r' hp hne hp'
    exact hp ((pend_afterSnoop _ _ _).2 ⟨hp', hne⟩)
  have hne := afterSnoop_ne todo q
  refine h.setTx hx ?_ (fun d => by rw [afterSnoop_expect]; rfl) (fun o => Or.inl ?_)
  · rw [hpd]
    refine
      { fine := hT.fine, snp := hT.snp, own := hT.own, ownCU := hT.ownCU, ownWr := hT.ownWr
        inv := fun x r hr hp => ?_, rd := fun x r b hr hp hb => ?_
        sh := hT.sh, got := hT.got, dirty := hT.dirty
        dsw := fun d hd => ⟨(hT.dsw d hd).1, fun _ => (hT.dsw d hd).2 trivial⟩
        exec := fun _ => hT.exec trivial, clean := fun e => absurd e hne.1
        ok := fun x y _ => ?_, okW := fun x => ?_
        que := fun e => absurd e hne.2.1, fin := fun e => ?_
        todo := fun r hr => hT.todo r ((pend_afterSnoop _ _ _).1 hr).1 }
    · by_cases e : r = q
      · subst e; exact ha
      · exact hT.inv x r hr (hnp r hp e)
    · have e : r ≠ q := by rintro rfl; rw [ha] at hb; cases hb
      exact hT.rd x r b hr (hnp r hp e) hb
    · rw [← hT.ok x y (Or.inl trivial)]
      show (t.ok || respOk t.cmd none) = true ↔ _
      have hs := hT.snp
      cases hc : t.cmd <;> rw [hc] at x y <;> simp_all [Bus.ac, Ac.isRead, respOk, Bus.snooping]
    · show (t.ok || respOk t.cmd none) = false
      rw [hT.okW x]
      cases hc : t.cmd <;> rw [hc] at x <;> simp_all [Bus.isWr, respOk]
    · rcases e with e | ⟨-, e⟩
      · exact absurd e hne.2.2.1
      · exact absurd e hne.2.2.2
  · rw [hpd]
    rcases o with o | ⟨o, -⟩ | o | ⟨o, -⟩
    · exact Or.inl o
    · exact Or.inr (Or.inl ⟨o, afterSnoop_pre _ _⟩)
    · exact Or.inr (Or.inr (Or.inl o))
    · exact Or.inr (Or.inr (Or.inr ⟨o, hne.2.2.1⟩))

/-- The write of dirty data is queued. -/
theorem LInv.toClean (h : LInv n L wt v) {p : Nat} {t : Txn}
    (hx : v.tx p = some (t, .snooped)) (he : t.exec = true) :
    LInv n L wt { v with tx := upd v.tx p (some (t, .clean)) } := by
  have hT := h.tinv p t _ hx
  refine h.setTx hx ?_ (fun d => rfl) (fun o => Or.inl ?_)
  · exact { hT with
      dsw := fun d hd => ⟨(hT.dsw d hd).1, fun _ => (hT.dsw d hd).2 trivial⟩
      exec := fun _ => hT.exec trivial, clean := fun _ => he
      ok := fun x y _ => hT.ok x y (Or.inl trivial)
      que := fun e => (nomatch e), fin := fun e => by rcases e with e | ⟨-, e⟩ <;> cases e
      todo := fun _ hr => hr.elim }
  · rcases o with o | ⟨o, -⟩ | o | ⟨o, -⟩
    · exact Or.inl o
    · exact Or.inr (Or.inl ⟨o, trivial⟩)
    · exact Or.inr (Or.inr (Or.inl o))
    · exact Or.inr (Or.inr (Or.inr ⟨o, nofun⟩))

/-- The transaction is finished or queued for the downstream port. -/
theorem LInv.finish (h : LInv n L wt v) {p : Nat} {t : Txn} {st : Stage}
    (hx : v.tx p = some (t, st)) (hst : (st = .snooped ∧ t.exec = false) ∨ st = .cleaned) :
    LInv n L wt { v with
      tx := upd v.tx p (some (t, if t.cmd = .readOnce ∨ t.ok = true then .done else .queued)) } := by
  have hT := h.tinv p t _ hx
  have hpend : ∀ q, ¬ st.pend q := by
    rcases hst with ⟨rfl, -⟩ | rfl <;> exact fun q hq => hq
  have hok : t.cmd.ac.isRead = true → t.cmd ≠ .readOnce → (t.ok = true ↔ t.got.isSome = true) :=
    fun x y => hT.ok x y (by rcases hst with ⟨rfl, -⟩ | rfl; exact Or.inl trivial; exact Or.inr rfl)
  have hro : t.cmd = .readOnce → t.got.isSome = true := by
    intro hc
    rcases hst with ⟨rfl, e⟩ | rfl
    · have := hT.exec trivial
      rw [e] at this
      rcases hg : t.got with _ | d
      · exact absurd (this.2 (Or.inr ⟨hc, hg⟩)) (by simp)
      · rfl
    · exact hT.fin (Or.inr ⟨hc, rfl⟩) (by rw [hc]; rfl)
  have hdsw : ¬ (t.dsw.isSome = true ∧ st.pre) := by
    rintro ⟨hd, hp⟩
    rcases hst with ⟨rfl, e⟩ | rfl
    · have := hT.exec trivial
      rw [e] at this
      exact absurd (this.2 (Or.inl hd)) (by simp)
    · exact hp
  have hst1 : st ≠ .done := by rcases hst with ⟨rfl, -⟩ | rfl <;> simp
  by_cases hb : t.cmd = .readOnce ∨ t.ok = true
  · rw [if_pos hb]
    have hw : t.cmd.isWr = false := by
      rcases hb with hb | hb
      · rw [hb]; rfl
      · cases e : t.cmd.isWr
        · rfl
        · rw [hT.okW e] at hb; cases hb
    refine h.setTx hx ?_ (fun d => ?_) (fun o => Or.inl ?_)
    · exact { hT with
        inv := fun x q hq _ => hT.inv x q hq (hpend q)
        rd := fun x q b hq _ hb => hT.rd x q b hq (hpend q) hb
        dsw := fun d hd => ⟨(hT.dsw d hd).1, fun hp => hp.elim⟩
        exec := fun hp => hp.elim, clean := nofun
        ok := fun x y z => by rcases z with z | z; exact z.elim; cases z
        que := fun e => (nomatch e)
        fin := fun _ x => by
          by_cases hc : t.cmd = .readOnce
          · exact hro hc
          · exact (hok x hc).1 (hb.resolve_left hc)
        todo := fun _ hr => hr.elim }
    · have : ∀ st, st ≠ Stage.done → expect (some (t, st)) d = d := by
        intro st hs; cases st <;> first | rfl | exact absurd rfl hs
      rw [this st hst1]
      show (if t.cmd.isWr = true then _ else _) = _
      rw [hw]; rfl
    · rcases o with o | o | o | ⟨o, -⟩
      · exact Or.inl o
      · exact absurd o hdsw
      · exact Or.inr (Or.inr (Or.inl o))
      · rw [o] at hw; cases hw
  · rw [if_neg hb]
    refine h.setTx hx ?_ (fun d => ?_) (fun o => Or.inl ?_)
    · exact { hT with
        inv := fun x q hq _ => hT.inv x q hq (hpend q)
        rd := fun x q b hq _ hb => hT.rd x q b hq (hpend q) hb
        dsw := fun d hd => ⟨(hT.dsw d hd).1, fun hp => hp.elim⟩
        exec := fun hp => hp.elim, clean := nofun
        ok := fun x y z => by rcases z with z | z; exact z.elim; cases z
        que := fun _ => ⟨fun e => hb (Or.inl e), fun x => by
          rcases hg : t.got with _ | d
          · rfl
          · exact absurd ((hok x (fun e => hb (Or.inl e))).2 (by rw [hg]; rfl)) (fun e => hb (Or.inr e))⟩
        fin := fun e => by rcases e with e | ⟨-, e⟩ <;> cases e
        todo := fun _ hr => hr.elim }
    · have : ∀ st, st ≠ Stage.done → expect (some (t, st)) d = d := by
        intro st hs; cases st <;> first | rfl | exact absurd rfl hs
      rw [this st hst1]; rfl
    · rcases o with o | o | o | ⟨o, -⟩
      · exact Or.inl o
      · exact absurd o hdsw
      · exact Or.inr (Or.inr (Or.inl o))
      · exact Or.inr (Or.inr (Or.inr ⟨o, nofun⟩))

/-- The line has no copy when a read found no data. -/
theorem LInv.noCopy (h : LInv n L wt v) {p : Nat} {t : Txn} {st : Stage}
    (hx : v.tx p = some (t, st)) (hp : ∀ q, ¬ st.pend q) (hr : t.cmd.ac.isRead = true)
    (hg : t.got = none) : ∀ q, v.copy q = none := by
  have hT := h.tinv p t _ hx
  have hs := hT.snp
  intro q
  by_cases e : q = p
  · subst e
    apply hT.own
    cases hc : t.cmd <;> rw [hc] at hr hs <;> simp_all [Bus.ac, Ac.isRead, Bus.fill, Bus.snooping]
  · cases hi : t.cmd.inval
    · rcases hb : v.copy q with _ | b
      · rfl
      · have := (hT.rd hi q b e (hp q) hb).2.2.1 hr
        rw [hg] at this; cases this
    · exact hT.inv hi q e (hp q)

theorem LInv.memGold (h : LInv n L wt v) {p : Nat} {t : Txn} {st : Stage}
    (hx : v.tx p = some (t, st)) (hn : ∀ q b, v.copy q = some b → b.dirty = false)
    (ho : ¬ Owes t st) : EqL L v.mem v.gold := by
  rcases h.memv with m | ⟨q, b, hb, hd⟩ | ⟨q, t', st', m, o⟩
  · exact m
  · rw [hn q b hb] at hd; cases hd
  · have e := h.excl _ _ _ _ m hx
    subst e
    rw [hx] at m; cases m
    exact absurd o ho

/-- Memory changes to the right value. -/
theorem LInv.setMem (h : LInv n L wt v) {m : Mem} (hm : EqL L m v.gold) :
    LInv n L wt { v with mem := m } :=
  { h with
    memv := Or.inl hm
    wbd := fun p e hp => by
      obtain ⟨a, ha, hd, -⟩ := h.wbd p e hp
      exact ⟨a, ha, hd, fun _ => hm⟩
    tinv := fun p t st hx => (h.tinv p t st hx).mono rfl fun r b hb => ⟨b, hb, id, id⟩ }

/-- A ReadOnce reads memory. -/
theorem LInv.execRO (h : LInv n L wt v) {p : Nat} {t : Txn}
    (hx : v.tx p = some (t, .clean)) (hc : t.cmd = .readOnce) :
    LInv n L wt { v with tx := upd v.tx p (some ({ t with got := some v.mem }, .cleaned)) } := by
  have hT := h.tinv p t _ hx
  have hr : t.cmd.ac.isRead = true := by rw [hc]; rfl
  have hdsw : t.dsw = none := by
    rcases e : t.dsw with _ | d
    · rfl
    · have := (hT.dsw d e).1
      rw [hr] at this; cases this
  have hg : t.got = none := by
    rcases (hT.exec trivial).1 (hT.clean rfl) with e | e
    · rw [hdsw] at e; cases e
    · exact e.2
  have hd : t.dirty = false := by
    cases e : t.dirty
    · rfl
    · have := (hT.dirty e).1
      rw [hg] at this; cases this
  have hn := h.noCopy hx (fun _ h => h) hr hg
  have hm : EqL L v.mem v.gold := by
    refine h.memGold hx (fun q b hb => by rw [hn] at hb; cases hb) ?_
    rintro (o | ⟨o, -⟩ | o | ⟨o, -⟩)
    · rw [hd] at o; cases o
    · rw [hdsw] at o; cases o
    · rw [hc] at o; cases o
    · rw [hc] at o; cases o
  refine h.setTx hx ?_ (fun d => rfl) (fun _ => Or.inr (Or.inl hm))
  exact { hT with
    rd := fun _ q b _ _ hb => by rw [hn] at hb; cases hb
    got := fun d e => ⟨hr, by cases e; exact hm, fun q b hb => by rw [hn] at hb; cases hb⟩
    dirty := fun e => by rw [hd] at e; cases e
    dsw := fun d e => by rw [hdsw] at e; cases e
    exec := fun hp => hp.elim, clean := nofun
    ok := fun x y _ => absurd hc y
    que := nofun
    fin := fun _ _ => rfl
    todo := fun _ hr => hr.elim }

/-- Dirty data is written to memory. -/
theorem LInv.execDs (h : LInv n L wt v) {p : Nat} {t : Txn} {d : Mem}
    (hx : v.tx p = some (t, .clean)) (hd : t.dsw = some d) :
    LInv n L wt { v with mem := d, tx := upd v.tx p (some (t, .cleaned)) } := by
  have hT := h.tinv p t _ hx
  have hdg := ((hT.dsw d hd).2 trivial).1
  have h2 := h.setMem hdg
  refine h2.setTx (v := { v with mem := d }) hx ?_ (fun d => rfl) (fun _ => Or.inr (Or.inl hdg))
  have hT2 := h2.tinv p t _ hx
  exact { hT2 with
    dsw := fun d' hd => ⟨(hT.dsw d' hd).1, fun hp => hp.elim⟩
    exec := fun hp => hp.elim, clean := nofun
    ok := fun x y _ => hT.ok x y (Or.inl trivial)
    que := nofun
    fin := fun e x => by
      rcases e with e | ⟨e, -⟩
      · cases e
      · have := (hT.dsw d hd).1
        rw [e] at this; cases this
    todo := fun _ hr => hr.elim }

/-- A read that found no data in the caches reads memory. -/
theorem LInv.execRd (h : LInv n L wt v) {p : Nat} {t : Txn}
    (hx : v.tx p = some (t, .queued)) (hr : t.cmd.ac.isRead = true) :
    LInv n L wt { v with tx := upd v.tx p (some ({ t with got := some v.mem }, .done)) } := by
  have hT := h.tinv p t _ hx
  have hg : t.got = none := (hT.que rfl).2 hr
  have hd : t.dirty = false := by
    cases e : t.dirty
    · rfl
    · have := (hT.dirty e).1
      rw [hg] at this; cases this
  have hn := h.noCopy hx (fun _ h => h) hr hg
  have hw : t.cmd.isWr = false ∧ t.cmd ≠ .makeUnique ∧ t.cmd ≠ .writeLineUnique := by
    cases hc : t.cmd <;> rw [hc] at hr <;> simp_all [Bus.ac, Ac.isRead, Bus.isWr]
  have hm : EqL L v.mem v.gold := by
    refine h.memGold hx (fun q b hb => by rw [hn] at hb; cases hb) ?_
    rintro (o | ⟨-, o⟩ | o | ⟨o, -⟩)
    · rw [hd] at o; cases o
    · exact o
    · exact hw.2.1 o
    · exact hw.2.2 o
  refine h.setTx hx ?_ (fun d => ?_) (fun _ => Or.inr (Or.inl hm))
  · exact { hT with
      inv := fun _ q _ _ => hn q
      rd := fun _ q b _ _ hb => by rw [hn] at hb; cases hb
      got := fun d e => ⟨hr, by cases e; exact hm, fun q b hb => by rw [hn] at hb; cases hb⟩
      dirty := fun e => by rw [hd] at e; cases e
      dsw := fun d e => ⟨(hT.dsw d e).1, fun hp => hp.elim⟩
      exec := fun hp => hp.elim, clean := nofun
      ok := fun x y z => by rcases z with z | z; exact z.elim; cases z
      que := nofun
      fin := fun _ _ => rfl
      todo := fun _ hr => hr.elim }
  · show (if t.cmd.isWr = true then _ else _) = _
    rw [hw.1]; rfl

/-- CleanUnique, MakeUnique and CleanShared pass the downstream port without effect. -/
theorem LInv.execNop (h : LInv n L wt v) {p : Nat} {t : Txn}
    (hx : v.tx p = some (t, .queued)) (hr : t.cmd.ac.isRead = false) (hw : t.cmd.isWr = false) :
    LInv n L wt { v with tx := upd v.tx p (some (t, .done)) } := by
  have hT := h.tinv p t _ hx
  refine h.setTx hx ?_ (fun d => ?_) (fun o => Or.inl ?_)
  · exact { hT with
      dsw := fun d e => ⟨(hT.dsw d e).1, fun hp => hp.elim⟩
      exec := fun hp => hp.elim, clean := nofun
      ok := fun x y z => by rcases z with z | z; exact z.elim; cases z
      que := nofun
      fin := fun _ x => by rw [hr] at x; cases x
      todo := fun _ hr => hr.elim }
  · show (if t.cmd.isWr = true then _ else _) = _
    rw [hw]; rfl
  · rcases o with o | ⟨-, o⟩ | o | ⟨o, -⟩
    · exact Or.inl o
    · exact o.elim
    · exact Or.inr (Or.inr (Or.inl o))
    · rw [o] at hw; cases hw

/-- A WriteUnique or WriteLineUnique writes memory. -/
theorem LInv.execWr (h : LInv n L wt v) {p : Nat} {t : Txn}
    (hx : v.tx p = some (t, .queued)) (hw : t.cmd.isWr = true)
    (hcov : t.cmd = .writeLineUnique → Covers L t.ws) :
    LInv n L wt { v with
      mem := writeBytes v.mem t.ws, gold := writeBytes v.gold t.ws
      tx := upd v.tx p (some (t, .done)) } := by
  have hT := h.tinv p t _ hx
  have hr : t.cmd.ac.isRead = false ∧ t.cmd.inval = true ∧ t.cmd ≠ .makeUnique ∧ t.cmd.passDirty = false ∧
      t.cmd.fill = false ∧ t.cmd ≠ .readOnce ∧ t.cmd ≠ .cleanUnique := by
    cases hc : t.cmd <;> rw [hc] at hw <;> simp_all [Bus.ac, Ac.isRead, Bus.isWr, Bus.inval, Bus.passDirty, Bus.fill]
  have hn : ∀ q, q ≠ p → v.copy q = none := fun q hq => hT.inv hr.2.1 q hq (fun h => h)
  have hnd : ∀ q b, v.copy q = some b → b.dirty = false := by
    intro q b hb
    by_cases e : q = p
    · subst e; exact hT.ownWr hw b hb
    · rw [hn q e] at hb; cases hb
  have hm : EqL L (writeBytes v.mem t.ws) (writeBytes v.gold t.ws) := by
    by_cases hc : t.cmd = .writeLineUnique
    · exact (hcov hc).writeBytes _ _
    · apply EqL.writeBytes
      refine h.memGold hx hnd ?_
      rintro (o | ⟨-, o⟩ | o | ⟨o, -⟩)
      · have := (hT.dirty o).2.2
        rw [hr.2.2.2.1] at this; cases this
      · exact o
      · exact hr.2.2.1 o
      · exact hc o
  have hx' : ∀ q x, upd v.tx p (some (t, .done)) q = some x → q = p ∧ x = (t, .done) := by
    intro q x hq
    by_cases e : q = p
    · subst e; rw [upd_same] at hq; cases hq; exact ⟨rfl, rfl⟩
    · rw [upd_ne _ _ e] at hq
      exact absurd (h.excl _ _ _ _ hq hx) e
  refine { h with
    val := fun q a ha => ?_, memv := Or.inl hm, excl := fun q r x y hq hr => ?_, txwb := fun q x hq => ?_
    wbd := fun q e hq => ?_, tinv := fun q t' st hq => ?_ }
  · by_cases e : q = p
    · subst e
      have := h.val q a ha
      rw [hx] at this
      show EqL L (expect (upd v.tx q _ q) a.data) _
      rw [upd_same]
      show EqL L (if t.cmd.isWr = true then writeBytes a.data t.ws else a.data) _
      rw [if_pos hw]
      exact EqL.writeBytes t.ws this
    · have := hn q e
      rw [this] at ha; cases ha
  · rw [(hx' q x hq).1, (hx' r y hr).1]
  · rw [(hx' q x hq).1]; exact h.txwb _ _ hx
  · obtain ⟨a, ha, hd, -⟩ := h.wbd q e hq
    rw [hnd q a ha] at hd; cases hd
  · obtain ⟨rfl, e⟩ := hx' q _ hq
    cases e
    exact {
      fine := hT.fine, snp := hT.snp, own := hT.own, ownCU := hT.ownCU, ownWr := hT.ownWr
      inv := hT.inv, rd := fun x => by rw [hr.2.1] at x; cases x
      sh := hT.sh
      got := fun d e => by have := (hT.got d e).1; rw [hr.1] at this; cases this
      dirty := fun o => by have := (hT.dirty o).2.2; rw [hr.2.2.2.1] at this; cases this
      dsw := fun d e => ⟨(hT.dsw d e).1, fun hp => hp.elim⟩
      exec := fun hp => hp.elim, clean := nofun
      ok := fun x _ _ => by rw [hr.1] at x; cases x
      okW := hT.okW
      que := nofun
      fin := fun _ x => by rw [hr.1] at x; cases x
      todo := fun _ hr => hr.elim }

/-- The initiator takes note of the end of its transaction. -/
theorem LInv.commit' (h : LInv n L wt v) {p : Nat} {t : Txn} {x : Option Copy} {g : Mem}
    (hx : v.tx p = some (t, .done))
    (h1 : ∀ a, x = some a → EqL L a.data g ∧ p < n ∧ (wt p = true → a.dirty = false))
    (h2 : ∀ a q b, x = some a → q ≠ p → v.copy q = some b →
      a.shared = true ∧ b.shared = true ∧ (a.dirty = true → b.dirty = false))
    (h3 : g = v.gold ∨ ∀ q, q ≠ p → v.copy q = none)
    (h4 : EqL L v.mem g ∨ (∃ a, x = some a ∧ a.dirty = true) ∨
      (∃ q b, q ≠ p ∧ v.copy q = some b ∧ b.dirty = true)) :
    LInv n L wt { v with copy := upd v.copy p x, tx := upd v.tx p none, gold := g } := by
  have hno : ∀ q, upd v.tx p none q = none := by
    intro q
    by_cases e : q = p
    · subst e; exact upd_same ..
    · rw [upd_ne _ _ e]
      rcases e' : v.tx q with _ | y
      · rfl
      · exact absurd (h.excl _ _ _ _ e' hx) e
  have hc : ∀ q b, upd v.copy p x q = some b → (q = p ∧ x = some b) ∨ (q ≠ p ∧ v.copy q = some b) := by
    intro q b hq
    by_cases e : q = p
    · subst e; rw [upd_same] at hq; exact Or.inl ⟨rfl, hq⟩
    · rw [upd_ne _ _ e] at hq; exact Or.inr ⟨e, hq⟩
  refine
    { s1 := fun q r a b hne hq hr => ?_, s2 := fun q r a b hq hr ha hb => ?_
      val := fun q a hq => ?_, memv := ?_
      excl := fun q r y z hq hr => nomatch (hno q).symm.trans hq
      txwb := fun q y hq => nomatch (hno q).symm.trans hq
      lite := fun q a hq => ?_, wtc := fun q a hw hq => ?_, wbd := fun q e hq => ?_
      tinv := fun q t' st hq => nomatch (hno q).symm.trans hq }
  · rcases hc q a hq with ⟨rfl, hq'⟩ | ⟨nq, hq'⟩ <;> rcases hc r b hr with ⟨rfl, hr'⟩ | ⟨nr, hr'⟩
    · exact absurd rfl hne
    · exact (h2 a r b hq' nr hr').1
    · exact (h2 b q a hr' nq hq').2.1
    · exact h.s1 q r a b hne hq' hr'
  · rcases hc q a hq with ⟨rfl, hq'⟩ | ⟨nq, hq'⟩ <;> rcases hc r b hr with ⟨rfl, hr'⟩ | ⟨nr, hr'⟩
    · rfl
    · have := (h2 a r b hq' nr hr').2.2 ha
      rw [this] at hb; cases hb
    · have := (h2 b q a hr' nq hq').2.2 hb
      rw [this] at ha; cases ha
    · exact h.s2 q r a b hq' hr' ha hb
  · show EqL L (expect (upd v.tx p none q) a.data) g
    rw [hno]
    rcases hc q a hq with ⟨rfl, hq'⟩ | ⟨nq, hq'⟩
    · exact (h1 a hq').1
    · rcases h3 with rfl | h3
      · have hv := h.val q a hq'
        have e' : v.tx q = none := by
          rcases e' : v.tx q with _ | y
          · rfl
          · exact absurd (h.excl _ _ _ _ e' hx) nq
        rw [e'] at hv; exact hv
      · rw [h3 q nq] at hq'; cases hq'
  · rcases h4 with m | ⟨a, ha, hd⟩ | ⟨q, b, nq, hb, hd⟩
    · exact Or.inl m
    · exact Or.inr (Or.inl ⟨p, a, by show upd v.copy p x p = _; rw [upd_same]; exact ha, hd⟩)
    · exact Or.inr (Or.inl ⟨q, b, by show upd v.copy p x q = _; rw [upd_ne _ _ nq]; exact hb, hd⟩)
  · rcases hc q a hq with ⟨rfl, hq'⟩ | ⟨nq, hq'⟩
    · exact (h1 a hq').2.1
    · exact h.lite q a hq'
  · rcases hc q a hq with ⟨rfl, hq'⟩ | ⟨nq, hq'⟩
    · exact (h1 a hq').2.2 hw
    · exact h.wtc q a hw hq'
  · have nq : q ≠ p := by
      rintro rfl
      have hq' : v.wb q = some e := hq
      rw [h.txwb q _ hx] at hq'; cases hq'
    obtain ⟨b, hb, hd, hm⟩ := h.wbd q e hq
    refine ⟨b, by show upd v.copy p x q = _; rw [upd_ne _ _ nq]; exact hb, hd, fun he => ?_⟩
    rcases h3 with rfl | h3
    · exact hm he
    · rw [h3 q nq] at hb; cases hb

/-- What the memory owes once the transaction is done. -/
theorem LInv.owed (h : LInv n L wt v) {p : Nat} {t : Txn}
    (hx : v.tx p = some (t, .done)) : EqL L v.mem v.gold ∨ (∃ q b, v.copy q = some b ∧ b.dirty = true) ∨
      t.dirty = true ∨ t.cmd = .makeUnique := by
  rcases h.memv with m | m | ⟨q, t', st', m, o⟩
  · exact Or.inl m
  · exact Or.inr (Or.inl m)
  · have e := h.excl _ _ _ _ m hx
    subst e
    rw [hx] at m; cases m
    rcases o with o | ⟨-, o⟩ | o | ⟨-, o⟩
    · exact Or.inr (Or.inr (Or.inl o))
    · exact o.elim
    · exact Or.inr (Or.inr (Or.inr o))
    · exact absurd rfl o

/-- A line is filled. -/
theorem LInv.fill (h : LInv n L wt v) {p : Nat} {t : Txn} (junk : Mem)
    (hx : v.tx p = some (t, .done)) (hr : t.cmd.ac.isRead = true) (hro : t.cmd ≠ .readOnce)
    (hp : p < n) (hwt : wt p = true → t.cmd = .readClean) :
    LInv n L wt { v with
      copy := upd v.copy p (some ⟨t.shared, if t.cmd = .readClean then false else t.dirty, t.got.getD junk⟩)
      tx := upd v.tx p none } := by
  have hT := h.tinv p t _ hx
  have hg := hT.fin (Or.inl rfl) hr
  obtain ⟨d, hd⟩ := Option.isSome_iff_exists.1 hg
  obtain ⟨-, hdg, hnu⟩ := hT.got d hd
  have hcl : t.cmd = .readClean → t.dirty = false := by
    intro hc
    cases e : t.dirty
    · rfl
    · have := (hT.dirty e).2.2
      rw [hc] at this; cases this
  have hdd : (if t.cmd = .readClean then false else t.dirty) = t.dirty := by
    split
    · rename_i e; rw [hcl e]
    · rfl
  rw [hdd]
  have hown : v.copy p = none := by
    apply hT.own
    have hs := hT.snp
    cases hc : t.cmd <;> rw [hc] at hr hs <;> simp_all [Bus.ac, Ac.isRead, Bus.fill, Bus.snooping]
  have := h.commit' (p := p) (t := t) (x := some ⟨t.shared, t.dirty, t.got.getD junk⟩) (g := v.gold) hx
    (fun a ha => by
      cases ha
      refine ⟨by rw [hd]; exact hdg, hp, fun hw => hcl (hwt hw)⟩)
    (fun a q b ha nq hb => by
      cases ha
      refine ⟨?_, hnu q b hb, fun e => (hT.dirty e).2.1 q b hb⟩
      cases hi : t.cmd.inval
      · exact (hT.rd hi q b nq (fun h => h) hb).2.1
      · rw [hT.inv hi q nq (fun h => h)] at hb; cases hb)
    (Or.inl rfl)
    (by
      rcases h.owed hx with m | ⟨q, b, hb, hbd⟩ | m | m
      · exact Or.inl m
      · exact Or.inr (Or.inr ⟨q, b, fun e => (by rw [e, hown] at hb; cases hb), hb, hbd⟩)
      · exact Or.inr (Or.inl ⟨_, rfl, m⟩)
      · rw [m] at hr; cases hr)
  exact this

/-- The end of a CleanUnique. -/
theorem LInv.endCU (h : LInv n L wt v) {p : Nat} {t : Txn}
    (hx : v.tx p = some (t, .done)) (hc : t.cmd = .cleanUnique) :
    LInv n L wt { v with
      copy := upd v.copy p ((v.copy p).map fun a => { a with shared := false })
      tx := upd v.tx p none } := by
  have hT := h.tinv p t _ hx
  have hn : ∀ q, q ≠ p → v.copy q = none := fun q hq => hT.inv (by rw [hc]; rfl) q hq (fun h => h)
  refine h.commit' (t := t) (g := v.gold) hx (fun a ha => ?_) (fun a q b ha nq hb => ?_) (Or.inl rfl) ?_
  · rcases hb : v.copy p with _ | b
    · rw [hb] at ha; cases ha
    · rw [hb] at ha; cases ha
      have hv := h.val p b hb
      rw [hx] at hv
      have hv' : EqL L (if t.cmd.isWr = true then writeBytes b.data t.ws else b.data) v.gold := hv
      rw [hc] at hv'
      exact ⟨hv', h.lite p b hb, fun hw => h.wtc p b hw hb⟩
  · rw [hn q nq] at hb; cases hb
  · rcases h.owed hx with m | ⟨q, b, hb, hbd⟩ | m | m
    · exact Or.inl m
    · by_cases e : q = p
      · subst e
        exact Or.inr (Or.inl ⟨{ b with shared := false }, by rw [hb]; rfl, hbd⟩)
      · exact Or.inr (Or.inr ⟨q, b, e, hb, hbd⟩)
    · have := (hT.dirty m).2.2
      rw [hc] at this; cases this
    · rw [hc] at m; cases m

/-- The end of a transaction that leaves the caches alone. -/
theorem LInv.endNop (h : LInv n L wt v) {p : Nat} {t : Txn}
    (hx : v.tx p = some (t, .done))
    (hc : t.cmd = .readOnce ∨ t.cmd = .cleanShared ∨ (t.cmd.isWr = true ∧ v.copy p = none)) :
    LInv n L wt { v with tx := upd v.tx p none } := by
  have hT := h.tinv p t _ hx
  have hf : t.cmd.passDirty = false ∧ t.cmd ≠ .makeUnique := by
    rcases hc with e | e | ⟨e, -⟩
    · rw [e]; exact ⟨rfl, nofun⟩
    · rw [e]; exact ⟨rfl, nofun⟩
    · cases hc : t.cmd <;> rw [hc] at e <;> simp_all [Bus.passDirty, Bus.isWr]
  have := h.commit' (t := t) (g := v.gold) (x := v.copy p) hx (fun a ha => ?_) (fun a q b ha nq hb => ?_) (Or.inl rfl) ?_
  · have e : upd v.copy p (v.copy p) = v.copy := by
      funext q
      by_cases e : q = p
      · subst e; exact upd_same ..
      · exact upd_ne _ _ e
    rw [e] at this
    exact this
  · have hv := h.val p a ha
    rw [hx] at hv
    have hv' : EqL L (if t.cmd.isWr = true then writeBytes a.data t.ws else a.data) v.gold := hv
    refine ⟨?_, h.lite p a ha, fun hw => h.wtc p a hw ha⟩
    rcases hc with e | e | ⟨-, e⟩
    · rw [e] at hv'; exact hv'
    · rw [e] at hv'; exact hv'
    · rw [e] at ha; cases ha
  · exact ⟨h.s1 p q a b (Ne.symm nq) ha hb, h.s1 q p b a nq hb ha, fun hd => by
      cases hbd : b.dirty
      · rfl
      · exact absurd (h.s2 p q a b ha hb hd hbd) (Ne.symm nq)⟩
  · rcases h.owed hx with m | ⟨q, b, hb, hbd⟩ | m | m
    · exact Or.inl m
    · by_cases e : q = p
      · subst e
        exact Or.inr (Or.inl ⟨_, hb, hbd⟩)
      · exact Or.inr (Or.inr ⟨q, b, e, hb, hbd⟩)
    · have := (hT.dirty m).2.2
      rw [hf.1] at this; cases this
    · exact absurd m hf.2

/-- The end of a WriteUnique or WriteLineUnique that updates the line of the initiator. -/
theorem LInv.endWr (h : LInv n L wt v) {p : Nat} {t : Txn} {a : Copy}
    (hx : v.tx p = some (t, .done)) (hw : t.cmd.isWr = true) (ha : v.copy p = some a) :
    LInv n L wt { v with
      copy := upd v.copy p (some ⟨true, false, writeBytes a.data t.ws⟩)
      tx := upd v.tx p none } := by
  have hT := h.tinv p t _ hx
  have hf : t.cmd.passDirty = false ∧ t.cmd ≠ .makeUnique ∧ t.cmd.inval = true := by
    cases hc : t.cmd <;> rw [hc] at hw <;> simp_all [Bus.passDirty, Bus.isWr, Bus.inval]
  have hn : ∀ q, q ≠ p → v.copy q = none := fun q hq => hT.inv hf.2.2 q hq (fun h => h)
  refine h.commit' (t := t) (g := v.gold) hx (fun b hb => ?_) (fun b q d ha nq hb => ?_) (Or.inl rfl) ?_
  · cases hb
    have hv := h.val p a ha
    rw [hx] at hv
    have hv' : EqL L (if t.cmd.isWr = true then writeBytes a.data t.ws else a.data) v.gold := hv
    rw [if_pos hw] at hv'
    exact ⟨hv', h.lite p a ha, fun _ => rfl⟩
  · rw [hn q nq] at hb; cases hb
  · rcases h.owed hx with m | ⟨q, b, hb, hbd⟩ | m | m
    · exact Or.inl m
    · by_cases e : q = p
      · subst e
        rw [hT.ownWr hw b hb] at hbd; cases hbd
      · exact Or.inr (Or.inr ⟨q, b, e, hb, hbd⟩)
    · have := (hT.dirty m).2.2
      rw [hf.1] at this; cases this
    · exact absurd m hf.2.1

/-- The end of a MakeUnique together with the store that follows. -/
theorem LInv.endMU (h : LInv n L wt v) {p : Nat} {t : Txn} (junk : Mem) {ws : List (Nat × Byte)}
    (hx : v.tx p = some (t, .done)) (hc : t.cmd = .makeUnique) (hp : p < n) (hwt : wt p = false)
    (hcov : Covers L ws) :
    LInv n L wt { v with
      copy := upd v.copy p (some ⟨false, true, writeBytes junk ws⟩)
      tx := upd v.tx p none, gold := writeBytes v.gold ws } := by
  have hT := h.tinv p t _ hx
  have hn : ∀ q, q ≠ p → v.copy q = none := fun q hq => hT.inv (by rw [hc]; rfl) q hq (fun h => h)
  refine h.commit' (t := t) hx (fun b hb => ?_) (fun b q d ha nq hb => ?_) (Or.inr hn)
    (Or.inr (Or.inl ⟨_, rfl, rfl⟩))
  · cases hb
    exact ⟨hcov.writeBytes _ _, hp, fun e => by rw [hwt] at e; cases e⟩
  · rw [hn q nq] at hb; cases hb

end Verif.Ace
