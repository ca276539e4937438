import Verif.Ace.View

/-!
# Snooping one line
-/

set_option linter.unusedSimpArgs false

namespace Verif.Ace

variable {n L : Nat} {wt : Nat → Bool} {v : View}

theorem pend_afterSnoop (todo : List Nat) (q r : Nat) :
    (afterSnoop todo q).pend r ↔ r ∈ todo ∧ r ≠ q := by
  have hm : r ∈ todo.filter (· ≠ q) ↔ r ∈ todo ∧ r ≠ q := by simp
  unfold afterSnoop
  split
  · rename_i h
    rw [← hm, h]
    simp [Stage.pend]
  · exact hm

theorem afterSnoop_cases (todo : List Nat) (q : Nat) :
    afterSnoop todo q = .snooped ∨ ∃ l, afterSnoop todo q = .snoop l := by
  unfold afterSnoop; split
  · exact Or.inl rfl
  · exact Or.inr ⟨_, rfl⟩

theorem afterSnoop_pre (todo : List Nat) (q : Nat) : (afterSnoop todo q).pre := by
  rcases afterSnoop_cases todo q with e | ⟨l, e⟩ <;> rw [e] <;> exact trivial

theorem afterSnoop_expect (todo : List Nat) (q : Nat) (t : Txn) (d : Mem) :
    expect (some (t, afterSnoop todo q)) d = d := by
  rcases afterSnoop_cases todo q with e | ⟨l, e⟩ <;> rw [e] <;> rfl

theorem afterSnoop_ne (todo : List Nat) (q : Nat) :
    afterSnoop todo q ≠ .clean ∧ afterSnoop todo q ≠ .queued ∧ afterSnoop todo q ≠ .done ∧
      afterSnoop todo q ≠ .cleaned := by
  rcases afterSnoop_cases todo q with e | ⟨l, e⟩ <;> rw [e] <;> simp

/-- A snooped cache that has the line answers. -/
theorem LInv.snoopHit' (h : LInv n L wt v) {p q : Nat} {t t' : Txn} {todo : List Nat} {a : Copy}
    {x : Option Copy}
    (hx : v.tx p = some (t, .snoop todo)) (hq : q ∈ todo) (hwb : v.wb q = none)
    (ha : v.copy q = some a)
    (hcmd : t'.cmd = t.cmd)
    (hxs : ∀ b, x = some b → b.shared = true ∧ b.data = a.data ∧ (b.dirty = true → a.dirty = true))
    (hinv : t.cmd.inval = true → x = none ∧ t'.shared = false)
    (hrd : t.cmd.inval = false → t'.shared = true ∧ (t.cmd.ac.isRead = true → t'.got.isSome = true) ∧
      (t.cmd = .readShared → ∀ b, x = some b → b.dirty = false))
    (hgot : ∀ d, t'.got = some d → t.cmd.ac.isRead = true ∧ (d = a.data ∨ t.got = some d))
    (hdirty : t'.dirty = true → (t.dirty = true ∨ (a.dirty = true ∧
      (∀ b, x = some b → b.dirty = false) ∧ t.cmd.passDirty = true)) ∧ t'.got.isSome = true)
    (hdsw : ∀ d, t'.dsw = some d → t.cmd.ac.isRead = false ∧
      (t.dsw = some d ∨ (d = a.data ∧ a.dirty = true ∧ ∀ b, x = some b → b.dirty = false)))
    (hexec : t'.exec = true ↔ (t'.dsw.isSome = true ∨ (t.cmd = .readOnce ∧ t'.got = none)))
    (hok : t.cmd.ac.isRead = true → t.cmd ≠ .readOnce → (t'.ok = true ↔ t'.got.isSome = true))
    (hokW : t.cmd.isWr = true → t'.ok = false)
    (howe : a.dirty = true → (∃ b, x = some b ∧ b.dirty = true) ∨ Owes t' (afterSnoop todo q))
    (howe2 : Owes t (.snoop todo) → Owes t' (afterSnoop todo q)) :
    LInv n L wt { v with copy := upd v.copy q x, tx := upd v.tx p (some (t', afterSnoop todo q)) } := by
  have hT := h.tinv p t _ hx
  have hqp : q ≠ p := (hT.todo q hq).1
  have htq : v.tx q = none := by
    rcases e : v.tx q with _ | y
    · rfl
    · exact absurd (h.excl _ _ _ _ e hx) hqp
  have hav : EqL L a.data v.gold := h.dirtyVal ha htq
  have hx' : ∀ r y, upd v.tx p (some (t', afterSnoop todo q)) r = some y →
      r = p ∧ y = (t', afterSnoop todo q) := by
    intro r y hr
    by_cases e : r = p
    · subst e; rw [upd_same] at hr; cases hr; exact ⟨rfl, rfl⟩
    · rw [upd_ne _ _ e] at hr
      exact absurd (h.excl _ _ _ _ hr hx) e
  have hc : ∀ r b, upd v.copy q x r = some b → ∃ b0, v.copy r = some b0 ∧ b.shared = true ∧
      b.data = b0.data ∧ (b.dirty = true → b0.dirty = true) ∧ ((r ≠ q ∧ b = b0) ∨ (r = q ∧ x = some b)) := by
    intro r b hr
    by_cases e : r = q
    · subst e
      rw [upd_same] at hr
      obtain ⟨x1, x2, x3⟩ := hxs b hr
      exact ⟨a, ha, x1, x2, x3, Or.inr ⟨rfl, hr⟩⟩
    · rw [upd_ne _ _ e] at hr
      exact ⟨b, hr, h.s1 r q b a e hr ha, rfl, id, Or.inl ⟨e, rfl⟩⟩
  have hpn : v.copy p = none → upd v.copy q x p = none := by
    intro e; rw [upd_ne _ _ (Ne.symm hqp)]; exact e
  have hnd : a.dirty = true → (∀ b, x = some b → b.dirty = false) →
      ∀ r b, upd v.copy q x r = some b → b.dirty = false := by
    intro had hxd r b hr
    obtain ⟨b0, hb0, -, -, -, ⟨e, rfl⟩ | ⟨-, e⟩⟩ := hc r b hr
    · cases hd : b.dirty
      · rfl
      · exact absurd (h.s2 r q b a hb0 ha hd had) e
    · exact hxd b e
  have hnd2 : v.noDirty → ∀ r b, upd v.copy q x r = some b → b.dirty = false := by
    intro hn r b hr
    obtain ⟨b0, hb0, -, -, f, -⟩ := hc r b hr
    cases hd : b.dirty
    · rfl
    · have := hn r b0 hb0
      rw [f hd] at this; cases this
  refine
    { s1 := fun r r' y z hne hr hr' => (hc r y hr).elim fun _ g => g.2.1
      s2 := fun r r' y z hr hr' h1 h2 => ?_
      val := fun r b hr => ?_, memv := ?_, excl := fun r r' y z hr hr' => ?_, txwb := fun r y hr => ?_
      lite := fun r b hr => ?_, wtc := fun r b hw hr => ?_, wbd := fun r e hr => ?_
      tinv := fun r t0 st hr => ?_ }
  · obtain ⟨y0, hy0, -, -, f1, -⟩ := hc _ _ hr
    obtain ⟨z0, hz0, -, -, f2, -⟩ := hc _ _ hr'
    exact h.s2 _ _ _ _ hy0 hz0 (f1 h1) (f2 h2)
  · obtain ⟨y0, hy0, -, e, -⟩ := hc _ _ hr
    have := h.val r y0 hy0
    rw [← e] at this
    show EqL L (expect (upd v.tx p _ r) b.data) v.gold
    by_cases e' : r = p
    · subst e'
      rw [hx] at this
      rw [upd_same, afterSnoop_expect]
      exact this
    · rw [upd_ne _ _ e']; exact this
  · rcases h.memv with m | ⟨r, b, hb, hd⟩ | ⟨r, t0, st, m, o⟩
    · exact Or.inl m
    · by_cases e : r = q
      · subst e
        rw [ha] at hb; cases hb
        rcases howe hd with ⟨b, hb, hbd⟩ | o
        · exact Or.inr (Or.inl ⟨r, b, by show upd v.copy r x r = _; rw [upd_same]; exact hb, hbd⟩)
        · exact Or.inr (Or.inr ⟨p, t', _, upd_same .., o⟩)
      · exact Or.inr (Or.inl ⟨r, b, by show upd v.copy q x r = _; rw [upd_ne _ _ e]; exact hb, hd⟩)
    · have e := h.excl _ _ _ _ m hx
      subst e
      rw [hx] at m; cases m
      exact Or.inr (Or.inr ⟨r, t', _, upd_same .., howe2 o⟩)
  · rw [(hx' r y hr).1, (hx' r' z hr').1]
  · rw [(hx' r y hr).1]; exact h.txwb _ _ hx
  · obtain ⟨y0, hy0, -⟩ := hc _ _ hr
    exact h.lite r y0 hy0
  · obtain ⟨y0, hy0, -, -, f, -⟩ := hc _ _ hr
    have := h.wtc r y0 hw hy0
    cases hbd : b.dirty
    · rfl
    · rw [f hbd] at this; cases this
  · have e' : r ≠ q := by
      rintro rfl
      have hr' : v.wb r = some e := hr
      rw [hwb] at hr'; cases hr'
    obtain ⟨b, hb, g⟩ := h.wbd r e hr
    exact ⟨b, by show upd v.copy q x r = _; rw [upd_ne _ _ e']; exact hb, g⟩
  · obtain ⟨rfl, e⟩ := hx' r _ hr
    cases e
    have hnp : ∀ r', ¬ (afterSnoop todo q).pend r' → r' ≠ q → ¬ (Stage.snoop todo).pend r' := by
      intro r' hp hne hp'
      exact hp ((pend_afterSnoop _ _ _).2 ⟨hp', hne⟩)
    have hne := afterSnoop_ne todo q
    refine
      { fine := by rw [hcmd]; exact hT.fine, snp := by rw [hcmd]; exact hT.snp
        own := fun x => hpn (hT.own (by rw [← hcmd]; exact x))
        ownCU := fun x b hb => (hc _ _ hb).elim fun _ g => g.2.1
        ownWr := fun x b hb => ?_
        inv := fun x r' hr' hp => ?_, rd := fun x r' b hr' hp hb => ?_
        sh := fun x => (hinv (by rw [← hcmd]; exact x)).2
        got := fun d hd => ?_
        dirty := fun hd => ?_
        dsw := fun d hd => ?_
        exec := fun _ => by rw [hcmd]; exact hexec
        clean := fun e => absurd e hne.1
        ok := fun x y _ => by rw [hcmd] at x y; exact hok x y
        okW := fun x => hokW (by rw [← hcmd]; exact x)
        que := fun e => absurd e hne.2.1
        fin := fun e => ?_
        todo := fun r' hr' => hT.todo r' ((pend_afterSnoop _ _ _).1 hr').1 }
    · have hb' : v.copy r = some b := by rw [← hb]; exact (upd_ne _ _ (Ne.symm hqp)).symm
      exact hT.ownWr (by rw [← hcmd]; exact x) b hb'
    · rw [hcmd] at x
      show upd v.copy q _ r' = none
      by_cases e : r' = q
      · subst e; rw [upd_same]; exact (hinv x).1
      · rw [upd_ne _ _ e]; exact hT.inv x r' hr' (hnp r' hp e)
    · rw [hcmd] at x ⊢
      obtain ⟨g1, g2, g3⟩ := hrd x
      refine ⟨(hc _ _ hb).elim fun _ g => g.2.1, g1, g2, fun y => ?_⟩
      obtain ⟨b0, hb0, -, -, -, ⟨e, rfl⟩ | ⟨-, e⟩⟩ := hc r' b hb
      · exact (hT.rd x r' b hr' (hnp r' hp e) hb0).2.2.2 y
      · exact g3 y b e
    · rw [hcmd]
      obtain ⟨g1, g2⟩ := hgot d hd
      refine ⟨g1, ?_, fun r' b hb => (hc _ _ hb).elim fun _ g => g.2.1⟩
      rcases g2 with rfl | g2
      · exact hav
      · exact (hT.got d g2).2.1
    · rw [hcmd]
      obtain ⟨g1, g2⟩ := hdirty hd
      rcases g1 with g1 | ⟨g1, g3, g4⟩
      · exact ⟨g2, hnd2 (hT.dirty g1).2.1, (hT.dirty g1).2.2⟩
      · exact ⟨g2, hnd g1 g3, g4⟩
    · rw [hcmd]
      obtain ⟨g1, g2⟩ := hdsw d hd
      refine ⟨g1, fun _ => ?_⟩
      rcases g2 with g2 | ⟨rfl, g2, g3⟩
      · obtain ⟨f1, f2, f3⟩ := (hT.dsw d g2).2 trivial
        exact ⟨f1, hnd2 f2, fun r' b hb => (hc _ _ hb).elim fun _ g => g.2.1⟩
      · exact ⟨hav, hnd g2 g3, fun r' b hb => (hc _ _ hb).elim fun _ g => g.2.1⟩
    · rcases e with e | ⟨-, e⟩
      · exact absurd e hne.2.2.1
      · exact absurd e hne.2.2.2

/-- A snoop handler seen at the level of one line. -/
def Line.toCopy (l : Line) : Option Copy :=
  if l.valid then some ⟨l.shared, l.dirty, l.data⟩ else none

theorem LInv.snoopHit (h : LInv n L wt v) {p q : Nat} {t : Txn} {todo : List Nat} {l : Line}
    (hx : v.tx p = some (t, .snoop todo)) (hq : q ∈ todo) (hwb : v.wb q = none)
    (ha : v.copy q = l.toCopy) (hv : l.valid = true) :
    LInv n L wt { v with
      copy := upd v.copy q (snoopLine l t.cmd.ac).1.toCopy
      tx := upd v.tx p (some (portDone t (snoopLine l t.cmd.ac).2, afterSnoop todo q)) } := by
  have hT := h.tinv p t _ hx
  have ha' : v.copy q = some ⟨l.shared, l.dirty, l.data⟩ := by rw [ha, Line.toCopy, if_pos hv]
  have hfine := hT.fine
  have hsnp := hT.snp
  have hdswR : t.cmd.ac.isRead = true → t.dsw = none := by
    intro hr
    rcases e : t.dsw with _ | d
    · rfl
    · rw [(hT.dsw d e).1] at hr; cases hr
  have hgotR : t.cmd.ac.isRead = false → t.got = none := by
    intro hr
    rcases e : t.got with _ | d
    · rfl
    · rw [(hT.got d e).1] at hr; cases hr
  have hexec := hT.exec trivial
  have hok : t.cmd.ac.isRead = true → t.cmd ≠ .readOnce → (t.ok = true ↔ t.got.isSome = true) :=
    fun a b => hT.ok a b (Or.inl trivial)
  have hokW := hT.okW
  have hsh := hT.sh
  have hdirty := hT.dirty
  have hpre := afterSnoop_pre todo q
  have hnd := (afterSnoop_ne todo q).2.2.1
  clear hT ha
  obtain ⟨tcmd, tkey, lo, hi, ws, sh, di, got, dsw, exec, ok⟩ := t
  obtain ⟨lv, lk, ls, ld, ldata⟩ := l
  simp only at hfine hsnp hdswR hgotR hexec hok hokW hsh hdirty ha' hv hx ⊢
  subst hv
  refine h.snoopHit' hx hq hwb ha' rfl ?_ ?_ ?_ ?_ ?_ ?_ ?_ ?_ ?_ ?_ ?_ <;>
  · clear hx h ha'
    cases tcmd <;> first
      | (simp [Bus.fine] at hfine; done)
      | (simp [Bus.snooping] at hsnp; done)
      | (cases ld <;> simp_all [Bus.ac, snoopLine, Line.toCopy, portDone, Bus.inval, Ac.isRead, Bus.passDirty,
          respOk, Bus.isWr, Owes]; done)
      | (cases ld <;> cases dsw <;> cases got <;>
          simp_all [Bus.ac, snoopLine, Line.toCopy, portDone, Bus.inval, Ac.isRead, Bus.passDirty,
          respOk, Bus.isWr, Owes]; done)
      | skip

end Verif.Ace
