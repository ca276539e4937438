import Verif.Ace.Steps

/-!
# The invariant is kept: what a cache does between two waits
-/

set_option linter.unusedSimpArgs false

namespace Verif.Ace

variable {c : Cfg} {w : Bool} {m0 : LineId → Mem} {s : State}

/-- A plain line transaction. -/
theorem txnOk_fill {lines : Nat → Line} {p : Nat} {cmd : Bus} {k : LineId} {job : Job}
    (hk : k.2 = w) (hj : JobOk c w p job) (hf : FillOk c p cmd k job)
    (hl : (lines (c.slot k)).valid = false) : TxnOk c w lines p (lineTxn c cmd k) job none := by
  have hfl := hf.fill
  exact
    { key := hk, range := ⟨rfl, rfl⟩
      fine := by show cmd.fine = true; cases cmd <;> simp_all [Bus.fill, Bus.fine]
      jobOk := hj, fill := fun _ => ⟨hf, hl⟩
      cu := fun e => by rw [show cmd = .cleanUnique from e] at hfl; cases hfl
      out := fun e => by
        replace e : cmd.snooping = false := e
        cases cmd <;> simp_all [Bus.fill, Bus.snooping]
      outNext := fun e => by
        replace e : cmd.snooping = false := e
        cases cmd <;> simp_all [Bus.fill, Bus.snooping]
      nextOk := fun _ => rfl
      wr := fun e => by
        replace e : cmd.isWr = true := e
        cases cmd <;> simp_all [Bus.fill, Bus.isWr]
      wlu := fun e => by rw [show cmd = .writeLineUnique from e] at hfl; cases hfl
      ro := fun e => by rw [show cmd = .readOnce from e] at hfl; cases hfl }

/-- A write-out. -/
theorem txnOk_out {lines : Nat → Line} {p : Nat} {cmd cmd' : Bus} {k : LineId} {job : Job}
    (hk : k.2 = w) (hj : JobOk c w p job) (hc : cmd = .writeBack ∨ cmd = .writeClean)
    (hl : (lines (c.slot k)).valid = true ∧ (lines (c.slot k)).key = k ∧ (lines (c.slot k)).dirty = true)
    (hn : (∃ k', job = .maint .cleanShared k' ∧ k' = k ∧ cmd' = .cleanShared ∧ cmd = .writeClean) ∨
     (∃ k' cs, job.pieces = k' :: cs ∧ c.slot k'.key = c.slot k ∧ k'.key.2 = w ∧ FillOk c p cmd' k'.key job)) :
    TxnOk c w lines p (lineTxn c cmd k) job (some cmd') := by
  refine
    { key := hk, range := ⟨rfl, rfl⟩, jobOk := hj, out := fun _ => hl, outNext := fun _ => ⟨cmd', rfl, hn⟩
      fine := ?_, fill := fun e => ?_, cu := fun e => ?_, nextOk := fun e => ?_, wr := fun e => ?_
      wlu := fun e => ?_, ro := fun e => ?_ }
  · show cmd.fine = true; rcases hc with rfl | rfl <;> rfl
  all_goals rcases hc with rfl | rfl <;> cases e

theorem Inv.miss (h : Inv c w m0 s) (hL : 0 < c.lineSz) {p : Nat} (hp : (s.ports p).act = none)
    {cmd : Bus} {k : LineId} {job : Job} (hk : k.2 = w) (hj : JobOk c w p job)
    (hf : FillOk c p cmd k job) {k' : Chunk} {cs : List Chunk} (hpc : job.pieces = k' :: cs)
    (hk' : k'.key = k) : Inv c w m0 (miss c s p cmd k job) := by
  unfold Verif.Ace.miss
  dsimp only
  by_cases hv : (s.line c p k).valid = true
  · rw [if_pos hv]
    obtain ⟨e1, e2⟩ := h.line p (c.slot k) hv
    have e1' : c.slot (s.line c p k).key = c.slot k := e1
    by_cases hd : (s.line c p k).dirty = true
    · rw [if_pos hd]
      have hl' : ((s.flip p).ports p).lines (c.slot (s.line c p k).key) = s.line c p k := by
        show (s.flip p).line c p (s.line c p k).key = _
        rw [slot_line (s := s.flip p) e1' p, flip_line]
      have ht : ∀ cmd', cmd' = .writeBack ∨ cmd' = .writeClean →
          TxnOk c w ((s.flip p).ports p).lines p (lineTxn c cmd' (s.line c p k).key) job (some cmd) := by
        intro cmd' hc'
        refine txnOk_out e2 hj hc' (by rw [hl']; exact ⟨hv, rfl, hd⟩)
          (Or.inr ⟨k', cs, hpc, by rw [hk', e1'], by rw [hk', hk], by rw [hk']; exact hf⟩)
      have hp' : ((s.flip p).ports p).act = none := by rw [flip_act]; exact hp
      split
      · exact (h.flip p).issue hL hp' (ht _ (Or.inr rfl)) (fresh_lineTxn ..)
      · exact (h.flip p).issue hL hp' (ht _ (Or.inl rfl)) (fresh_lineTxn ..)
    · rw [if_neg hd]
      refine (h.dropLine hp hv (by simpa using hd)).issue hL (by rw [setLine_act]; exact hp)
        (txnOk_fill hk hj hf ?_) (fresh_lineTxn ..)
      show ((s.setLine c p k _).line c p k).valid = false
      rw [setLine_line]
  · rw [if_neg hv]
    exact h.issue hL hp (txnOk_fill hk hj hf (by
      show (s.line c p k).valid = false; simpa using hv)) (fresh_lineTxn ..)

/-- Reading a byte of a line in the cache of an idle port. -/
theorem Inv.readHit (h : Inv c w m0 s) {p : Nat} (hp : (s.ports p).act = none) {k : LineId}
    (hk : k.2 = w) (hin : s.inCache c p k = true) : EqL c.lineSz (s.line c p k).data (replay m0 s.log k) := by
  obtain ⟨h1, h2⟩ := inCache_iff.1 hin
  exact (h.view k hk).dirtyVal (a := ⟨(s.line c p k).shared, (s.line c p k).dirty, (s.line c p k).data⟩)
    (lineCopy_of h1 h2) (by show txOf k (s.ports p).act = none; rw [hp]; rfl)

theorem fill_load (c : Cfg) (p : Nat) (b : Bool) (k : LineId) (cs : List Chunk) (hp : p < c.masters)
    (hwt : c.wt p = false) :
    FillOk c p (if b = true then .readShared else .readNotSharedDirty) k (.load cs) := by
  refine ⟨hp, ?_, fun e => ?_, fun e => ?_⟩
  · cases b <;> rfl
  · rw [hwt] at e; cases e
  · cases b <;> cases e

theorem Inv.goLoad (hL : 0 < c.lineSz) {p : Nat} : ∀ (cs : List Chunk) (s : State), Inv c w m0 s →
    (s.ports p).act = none → JobOk c w p (.load cs) → Inv c w m0 (goLoad c p s cs)
  | [], _, h, _, _ => h
  | k :: cs, s, h, hp, hj => by
    have hk := hj k (by simp)
    unfold Verif.Ace.goLoad
    by_cases hm : c.masters ≤ p
    · rw [if_pos hm]
      obtain ⟨l1, l2⟩ := hk.lite hm
      refine h.issue hL hp
        { key := hk.key, range := ⟨l1, by simp [l1, l2]⟩, fine := rfl, jobOk := hj, fill := nofun, cu := nofun
          out := nofun, outNext := nofun, nextOk := fun _ => rfl, wr := nofun, wlu := nofun
          ro := fun _ => ⟨hm, k, cs, rfl, rfl⟩ } ⟨rfl, rfl, rfl, rfl, rfl, rfl⟩
    · rw [if_neg hm]
      have hm' : p < c.masters := Nat.lt_of_not_le hm
      by_cases hin : s.inCache c p k.key = true
      · rw [if_pos hin]
        refine Inv.goLoad hL cs _ ?_ hp (fun k' hk' => hj k' (by simp [hk']))
        exact h.emitRd p k.key (s.line c p k.key).data k.ws
          (fun e he => h.readHit hp hk.key hin e.1 (hk.lt e he))
      · rw [if_neg hin]
        by_cases hwt : c.wt p = true
        · rw [if_pos hwt]
          exact h.miss hL hp hk.key hj ⟨hm', rfl, fun _ => rfl, nofun⟩ rfl rfl
        · rw [if_neg hwt]
          exact (h.flip p).miss hL (by rw [flip_act]; exact hp) hk.key hj
            (fill_load c p _ _ _ hm' (by simpa using hwt)) rfl rfl

theorem Inv.issueWrite (h : Inv c w m0 s) (hL : 0 < c.lineSz) {p : Nat} (hp : (s.ports p).act = none)
    {k : Chunk} {cs : List Chunk} (hj : JobOk c w p (.store (k :: cs)))
    (hm : c.masters ≤ p ∨ c.wt p = true) : Inv c w m0 (issueWrite c p s k cs) := by
  have hk := hj k (by simp)
  obtain ⟨l1, l2⟩ := hk.whole hm
  unfold Verif.Ace.issueWrite
  by_cases hb : k.n = c.lineSz ∧ k.ws.length = k.n ∧ p < c.masters
  · rw [if_pos hb]
    exact h.issue hL hp
      { key := hk.key, range := ⟨rfl, rfl⟩, fine := rfl, jobOk := hj, fill := nofun, cu := nofun
        out := nofun, outNext := nofun, nextOk := fun _ => rfl
        wr := fun _ => ⟨hm, k, cs, rfl, rfl, rfl, nofun⟩
        wlu := fun _ => hk.full hb.1 hb.2.1
        ro := nofun } ⟨rfl, rfl, rfl, rfl, rfl, rfl⟩
  · rw [if_neg hb]
    refine h.issue hL hp
      { key := hk.key, range := ⟨l1, by simp [l1, l2]⟩, fine := rfl, jobOk := hj, fill := nofun, cu := nofun
        out := nofun, outNext := nofun, nextOk := fun _ => rfl
        wr := fun _ => ⟨hm, k, cs, rfl, rfl, rfl, fun hp _ => ?_⟩
        wlu := nofun
        ro := nofun } ⟨rfl, rfl, rfl, rfl, rfl, rfl⟩
    rcases hk.wu hp (hm.resolve_left (Nat.not_le.2 hp)) with e | e
    · exact absurd ⟨l2, e, hp⟩ hb
    · exact e

theorem Inv.goStore (hL : 0 < c.lineSz) {p : Nat} : ∀ (cs : List Chunk) (s : State), Inv c w m0 s →
    (s.ports p).act = none → JobOk c w p (.store cs) → Inv c w m0 (goStore c p s cs)
  | [], _, h, _, _ => h
  | k :: cs, s, h, hp, hj => by
    have hk := hj k (by simp)
    unfold Verif.Ace.goStore
    by_cases hm : c.masters ≤ p ∨ c.wt p = true
    · rw [if_pos hm]
      exact h.issueWrite hL hp hj hm
    · rw [if_neg hm]
      dsimp only
      have hm' : p < c.masters := Nat.lt_of_not_le (fun e => hm (Or.inl e))
      have hwt : c.wt p = false := by
        cases e : c.wt p
        · rfl
        · exact absurd (Or.inr e) hm
      by_cases hin : s.inCache c p k.key = true
      · rw [if_pos hin]
        obtain ⟨h1, h2⟩ := inCache_iff.1 hin
        by_cases hs : (s.line c p k.key).shared = true
        · rw [if_pos hs]
          have hk2 : (s.line c p k.key).key.2 = w := by rw [h2]; exact hk.key
          have hl : (s.ports p).lines (c.slot (s.line c p k.key).key) = s.line c p k.key := by rw [h2]; rfl
          refine h.issue hL hp
            { key := hk2, range := ⟨rfl, rfl⟩, fine := rfl, jobOk := hj, fill := nofun
              cu := fun _ => ⟨hm', hwt, fun _ => ?_⟩
              out := nofun, outNext := nofun, nextOk := fun _ => rfl
              wr := nofun, wlu := nofun, ro := nofun } (fresh_lineTxn ..)
          show ((s.ports p).lines (c.slot (s.line c p k.key).key)).key = _ ∧
            ((s.ports p).lines (c.slot (s.line c p k.key).key)).shared = true
          rw [hl]
          exact ⟨rfl, hs⟩
        · rw [if_neg hs]
          exact Inv.goStore hL cs _ (h.storeLine hp hk.key hin (by simpa using hs) hwt k.ws)
            (by show ((s.setLine ..).ports p).act = none; rw [setLine_act]; exact hp)
            (fun k' hk' => hj k' (by simp [hk']))
      · rw [if_neg hin]
        by_cases hn : k.n = c.lineSz
        · rw [if_pos hn]
          exact h.miss hL hp hk.key hj ⟨hm', rfl, fun e => (by rw [hwt] at e; cases e),
            fun _ => ⟨k, cs, rfl, rfl, hk.mu hm' hwt hn⟩⟩ rfl rfl
        · rw [if_neg hn]
          exact h.miss hL hp hk.key hj ⟨hm', rfl, fun e => (by rw [hwt] at e; cases e), nofun⟩ rfl rfl

theorem txnOk_cs {lines : Nat → Line} {p : Nat} {k : LineId} {job : Job} (hk : k.2 = w)
    (hj : JobOk c w p job) : TxnOk c w lines p (lineTxn c .cleanShared k) job none :=
  { key := hk, range := ⟨rfl, rfl⟩, fine := rfl, jobOk := hj, fill := nofun, cu := nofun
    out := nofun, outNext := nofun, nextOk := fun _ => rfl, wr := nofun, wlu := nofun, ro := nofun }

theorem Inv.goMaint (h : Inv c w m0 s) (hL : 0 < c.lineSz) {p : Nat} (hp : (s.ports p).act = none)
    {cmd : Bus} {k : LineId} (hj : JobOk c w p (.maint cmd k)) : Inv c w m0 (goMaint c p s cmd k) := by
  obtain ⟨rfl, hk⟩ := hj
  unfold Verif.Ace.goMaint
  dsimp only
  have hcs := h.issue hL hp (txnOk_cs (lines := (s.ports p).lines) (p := p) hk (job := .maint .cleanShared k) ⟨rfl, hk⟩)
    (fresh_lineTxn ..)
  by_cases hin : s.inCache c p k = true
  · rw [if_pos hin, if_pos rfl]
    obtain ⟨h1, h2⟩ := inCache_iff.1 hin
    by_cases hd : (s.line c p k).dirty = true
    · rw [if_pos hd]
      have hl : (s.ports p).lines (c.slot (s.line c p k).key) = s.line c p k := by rw [h2]; rfl
      refine h.issue hL hp (txnOk_out (by rw [h2]; exact hk) ⟨rfl, hk⟩ (Or.inr rfl)
        (by rw [hl]; exact ⟨h1, rfl, hd⟩) (Or.inl ⟨k, rfl, h2.symm, rfl, rfl⟩)) (fresh_lineTxn ..)
    · rw [if_neg hd]
      exact hcs
  · rw [if_neg hin]
    exact hcs

theorem Inv.go (h : Inv c w m0 s) (hL : 0 < c.lineSz) {p : Nat} (hp : (s.ports p).act = none)
    {job : Job} (hj : JobOk c w p job) : Inv c w m0 (go c p s job) := by
  cases job
  · exact Inv.goLoad hL _ _ h hp hj
  · exact Inv.goStore hL _ _ h hp hj
  · exact h.goMaint hL hp hj

/-! ## The end of a transaction -/

theorem leave_act (s : State) (p : Nat) : ((leave s p).ports p).act = none := setAct_act ..
theorem leave_line (s : State) (p q : Nat) (k : LineId) : (leave s p).line c q k = s.line c q k :=
  setAct_line ..
theorem leave_lines (s : State) (p q : Nat) : ((leave s p).ports q).lines = (s.ports q).lines :=
  setAct_lines ..
theorem leave_ne (s : State) {p q : Nat} (h : q ≠ p) : (leave s p).ports q = s.ports q := setAct_ne _ _ h

/-- The invariant after the end of a transaction on line `K`, with what the initiator does to its
line. -/
theorem Inv.leave (h : Inv c w m0 s) {p : Nat} {a : Act} (ha : (s.ports p).act = some a)
    {l : Line} {s' : State}
    (hs : s'.ports = ((leave s p).setLine c p a.txn.key l).ports)
    (hong : s'.ongoing = (Verif.Ace.leave s p).ongoing)
    (hmem : s'.mem = s.mem) (hlog : Consistent m0 s'.log)
    (hgold : ∀ X, X ≠ a.txn.key → replay m0 s'.log X = replay m0 s.log X)
    (hk : l = s.line c p a.txn.key ∨ ((l.valid = true → l.key = a.txn.key) ∧
      ((s.line c p a.txn.key).valid = true → (s.line c p a.txn.key).key = a.txn.key)))
    {x : Option Copy} {g : Mem} (hx : lineCopy a.txn.key l = x) (hg : replay m0 s'.log a.txn.key = g)
    (hview : LInv c.masters c.lineSz c.wt { viewOf c m0 s a.txn.key with
      copy := upd (viewOf c m0 s a.txn.key).copy p x
      tx := upd (viewOf c m0 s a.txn.key).tx p none
      wb := upd (viewOf c m0 s a.txn.key).wb p none
      gold := g }) : Inv c w m0 s' := by
  subst hx; subst hg
  have hA := h.act p a ha
  have hv : ∀ X, viewOf c m0 s' X = { viewOf c m0 ((Verif.Ace.leave s p).setLine c p a.txn.key l) X with
      gold := replay m0 s'.log X } := by
    intro X
    simp [viewOf, State.line, hs, hmem]; rfl
  have hlv : ∀ X, viewOf c m0 (Verif.Ace.leave s p) X = { viewOf c m0 s X with
      tx := upd (viewOf c m0 s X).tx p none
      wb := upd (viewOf c m0 s X).wb p none } := fun X => view_setAct p none
  refine
    { line := fun q i hq => ?_, act := fun q b hb => ?_, ong := fun q b hb hst => ?_
      view := fun X hX => ?_, log := hlog }
  · rw [hs] at hq ⊢
    by_cases e : q = p
    · subst e
      rw [setLine_lines] at hq ⊢
      split at hq
      · rename_i e
        rw [if_pos e]
        rcases hk with rfl | hk
        · rw [e]; exact h.line q _ hq
        · rw [hk.1 hq]; exact ⟨e.symm, hA.key⟩
      · rename_i e; rw [if_neg e]; rw [leave_lines] at hq ⊢; exact h.line q i hq
    · rw [setLine_ne _ _ _ _ e, leave_ne _ e] at hq ⊢; exact h.line q i hq
  · rw [hs, setLine_act] at hb
    have e : q ≠ p := by rintro rfl; rw [leave_act] at hb; cases hb
    rw [hs, setLine_ne _ _ _ _ e, leave_ne _ e]
    rw [leave_ne _ e] at hb
    exact h.act q b hb
  · rw [hs, setLine_act] at hb
    have e : q ≠ p := by rintro rfl; rw [leave_act] at hb; cases hb
    rw [leave_ne _ e] at hb
    rw [hong]
    show q ∈ s.ongoing.filter (· ≠ p)
    simp [e, h.ong q b hb hst]
  · by_cases e : X = a.txn.key
    · subst e
      rw [hv, view_setLine, if_pos rfl, hlv]
      exact hview
    · have hcopy : viewOf c m0 ((Verif.Ace.leave s p).setLine c p a.txn.key l) X = viewOf c m0 (Verif.Ace.leave s p) X := by
        rcases hk with rfl | hk
        · rw [view_setLine]
          split
          · rename_i hsl
            rw [upd_self]
            show lineCopy X ((Verif.Ace.leave s p).line c p X) = lineCopy X (s.line c p a.txn.key)
            rw [leave_line, slot_line hsl]
          · rfl
        · exact view_setLine_other (Ne.symm e) hk.1 (by rw [leave_line]; exact hk.2)
      rw [hv, hcopy, hgold X e, hlv, upd_self, upd_self]
      · exact h.view X hX
      · show wbOf X (s.ports p).act = none
        rw [ha]; exact wbOf_ne (Ne.symm e)
      · show txOf X (s.ports p).act = none
        rw [ha]; exact txOf_ne (Ne.symm e)

theorem view_tx {p : Nat} {a : Act} (ha : (s.ports p).act = some a) (h1 : a.stage = .done)
    (h2 : a.txn.cmd.snooping = true) : (viewOf c m0 s a.txn.key).tx p = some (a.txn, .done) := by
  show txOf a.txn.key (s.ports p).act = _
  rw [ha, ← h1]
  exact txOf_eq rfl (by rw [h1]; nofun) h2

theorem view_wb {p : Nat} {a : Act} (ha : (s.ports p).act = some a)
    (h2 : a.txn.cmd.snooping = true) : upd (viewOf c m0 s a.txn.key).wb p none = (viewOf c m0 s a.txn.key).wb := by
  apply upd_self
  show wbOf a.txn.key (s.ports p).act = _
  rw [ha]; exact wbOf_in h2

theorem view_copy_self (s : State) (X : LineId) (p : Nat) :
    upd (viewOf c m0 s X).copy p (lineCopy X (s.line c p X)) = (viewOf c m0 s X).copy := upd_self rfl

theorem setLine_self (s : State) (p : Nat) (k : LineId) : (s.setLine c p k (s.line c p k)).ports = s.ports := by
  funext q
  by_cases e : q = p
  · subst e
    simp only [State.setLine, setPort_same]
    have : (fun i => if i = c.slot k then s.line c q k else (s.ports q).lines i) = (s.ports q).lines := by
      funext i
      split
      · rename_i e; rw [e]; rfl
      · rfl
    rw [this]
  · rw [setLine_ne _ _ _ _ e]

/-- What the cache does at the end of a transaction other than MakeUnique. -/
theorem Inv.commit (h : Inv c w m0 s) {p : Nat} {a : Act} (ha : (s.ports p).act = some a)
    (hst : a.stage = .done) (hmu : a.txn.cmd ≠ .makeUnique) :
    Inv c w m0 (commit c p (Verif.Ace.leave s p) a) := by
  have hA := h.act p a ha
  have hV := h.view a.txn.key hA.key
  have hll : (Verif.Ace.leave s p).line c p a.txn.key = s.line c p a.txn.key := leave_line ..
  -- nothing changes in the cache
  have nop : a.txn.cmd.snooping = true →
      (a.txn.cmd = .readOnce ∨ a.txn.cmd = .cleanShared ∨
        (a.txn.cmd.isWr = true ∧ (viewOf c m0 s a.txn.key).copy p = none)) →
      Inv c w m0 (Verif.Ace.leave s p) := by
    intro h2 h3
    refine h.leave ha (l := s.line c p a.txn.key) (by rw [← hll]; exact (setLine_self _ _ _).symm) rfl rfl h.log
      (fun _ _ => rfl) (Or.inl rfl) rfl rfl ?_
    rw [view_copy_self, view_wb ha h2]
    exact hV.endNop (view_tx ha hst h2) h3
  have notIn : a.txn.cmd.isWr = true → a.txn.cmd.snooping = true → s.inCache c p a.txn.key = false →
      Inv c w m0 (Verif.Ace.leave s p) := by
    intro h1 h2 h3
    refine nop h2 (Or.inr (Or.inr ⟨h1, ?_⟩))
    show lineCopy _ _ = none
    rw [lineCopy, if_neg]
    intro e
    rw [inCache_iff.2 e] at h3; cases h3
  have fill : a.txn.cmd.ac.isRead = true → a.txn.cmd ≠ .readOnce → a.txn.cmd.fill = true →
      a.txn.cmd.snooping = true → Inv c w m0 ((Verif.Ace.leave s p).setLine c p a.txn.key
        { valid := true, key := a.txn.key, shared := a.txn.shared
          dirty := if a.txn.cmd = .readClean then false else a.txn.dirty
          data := a.txn.got.getD (s.line c p a.txn.key).data }) := by
    intro h1 h2 h3 h4
    obtain ⟨hf, hv⟩ := hA.fill h3
    refine h.leave ha rfl rfl rfl h.log (fun _ _ => rfl) (Or.inr ⟨fun _ => rfl, fun e => ?_⟩) (lineCopy_of rfl rfl) rfl ?_
    · rw [show (s.line c p a.txn.key).valid = false from hv] at e; cases e
    · rw [view_wb ha h4]
      exact hV.fill _ (view_tx ha hst h4) h1 h2 hf.master hf.wt
  have wr : a.txn.cmd.isWr = true → a.txn.cmd.snooping = true → s.inCache c p a.txn.key = true →
      Inv c w m0 ((Verif.Ace.leave s p).setLine c p a.txn.key
        { s.line c p a.txn.key with
          data := writeBytes (s.line c p a.txn.key).data a.txn.ws, dirty := false, shared := true }) := by
    intro h1 h2 h3
    obtain ⟨i1, i2⟩ := inCache_iff.1 h3
    refine h.leave ha rfl rfl rfl h.log (fun _ _ => rfl) (Or.inr ⟨fun _ => i2, fun _ => i2⟩) (lineCopy_of i1 i2) rfl ?_
    rw [view_wb ha h2]
    exact hV.endWr (a := ⟨(s.line c p a.txn.key).shared, (s.line c p a.txn.key).dirty, (s.line c p a.txn.key).data⟩)
      (view_tx ha hst h2) h1 (lineCopy_of i1 i2)
  -- write-outs
  have out : a.txn.cmd.snooping = false → ∀ l : Line, l.key = a.txn.key →
      (l.valid = false ∨ (l.valid = true ∧ l.shared = (s.line c p a.txn.key).shared ∧
        l.data = (s.line c p a.txn.key).data ∧ l.dirty = false)) →
      Inv c w m0 ((Verif.Ace.leave s p).setLine c p a.txn.key l) := by
    intro h2 l hlk hl
    obtain ⟨o1, o2, o3⟩ := hA.out h2
    have hwb : (viewOf c m0 s a.txn.key).wb p = some true := by
      show wbOf a.txn.key (s.ports p).act = _
      rw [ha, wbOf_eq rfl h2, hst]; rfl
    have htx : (viewOf c m0 s a.txn.key).tx p = none := by
      show txOf a.txn.key (s.ports p).act = _
      rw [ha]; exact txOf_out h2
    refine h.leave ha rfl rfl rfl h.log (fun _ _ => rfl) (Or.inr ⟨fun _ => hlk, fun _ => o2⟩) rfl rfl ?_
    rw [upd_self htx]
    refine hV.wbEnd (a := ⟨(s.line c p a.txn.key).shared, (s.line c p a.txn.key).dirty, (s.line c p a.txn.key).data⟩)
      hwb (lineCopy_of o1 o2) _ ?_
    rcases hl with e | ⟨e1, e2, e3, e4⟩
    · exact Or.inl (lineCopy_none e)
    · right
      rw [lineCopy_of e1 hlk, e2, e3, e4]
  unfold Verif.Ace.commit
  dsimp only
  have hin : (Verif.Ace.leave s p).inCache c p a.txn.key = s.inCache c p a.txn.key := by
    simp only [State.inCache, hll]
  rw [hll, hin]
  cases hc : a.txn.cmd <;> dsimp only
  case makeUnique => exact absurd hc hmu
  case readShared =>
    have := fill (by rw [hc]; rfl) (by rw [hc]; nofun) (by rw [hc]; rfl) (by rw [hc]; rfl)
    rw [hc] at this; exact this
  case readNotSharedDirty =>
    have := fill (by rw [hc]; rfl) (by rw [hc]; nofun) (by rw [hc]; rfl) (by rw [hc]; rfl)
    rw [hc] at this; exact this
  case readClean =>
    have := fill (by rw [hc]; rfl) (by rw [hc]; nofun) (by rw [hc]; rfl) (by rw [hc]; rfl)
    rw [hc] at this; exact this
  case readUnique =>
    have := fill (by rw [hc]; rfl) (by rw [hc]; nofun) (by rw [hc]; rfl) (by rw [hc]; rfl)
    rw [hc] at this; exact this
  case cleanUnique =>
    have h2 : a.txn.cmd.snooping = true := by rw [hc]; rfl
    obtain ⟨hm, -, hcu⟩ := hA.cu hc
    by_cases hv : (s.line c p a.txn.key).valid = true
    · rw [if_pos hv]
      have i2 : (s.line c p a.txn.key).key = a.txn.key := (hcu hv).1
      refine h.leave ha rfl rfl rfl h.log (fun _ _ => rfl) (Or.inr ⟨fun _ => i2, fun _ => i2⟩) (lineCopy_of hv i2) rfl ?_
      rw [view_wb ha h2]
      have := hV.endCU (view_tx ha hst h2) hc
      rw [show (viewOf c m0 s a.txn.key).copy p =
        some ⟨(s.line c p a.txn.key).shared, (s.line c p a.txn.key).dirty, (s.line c p a.txn.key).data⟩ from
        lineCopy_of hv i2] at this
      exact this
    · rw [if_neg hv]
      refine h.leave ha (l := s.line c p a.txn.key) (by rw [← hll]; exact (setLine_self _ _ _).symm) rfl rfl h.log
        (fun _ _ => rfl) (Or.inl rfl) rfl rfl ?_
      rw [view_wb ha h2]
      have := hV.endCU (view_tx ha hst h2) hc
      rw [show (viewOf c m0 s a.txn.key).copy p = none from lineCopy_none (by simpa using hv)] at this
      rw [lineCopy_none (by simpa using hv)]
      exact this
  case cleanShared => exact nop (by rw [hc]; rfl) (Or.inr (Or.inl hc))
  case cleanInvalid => have := hA.fine; rw [hc] at this; cases this
  case makeInvalid => have := hA.fine; rw [hc] at this; cases this
  case readOnce =>
    have h2 : a.txn.cmd.snooping = true := by rw [hc]; rfl
    have hN := nop h2 (Or.inl hc)
    obtain ⟨-, k, cs, hj, hk⟩ := hA.ro hc
    rw [hj]
    dsimp only [Job.pieces]
    have hT := hV.tinv p a.txn .done (view_tx ha hst h2)
    have hg := hT.fin (Or.inl rfl) (by rw [hc]; rfl)
    obtain ⟨d, hd⟩ := Option.isSome_iff_exists.1 hg
    have hdg : EqL c.lineSz d (replay m0 s.log a.txn.key) := (hT.got d hd).2.1
    have hjob := hA.jobOk
    rw [hj] at hjob
    refine hN.emitRd p a.txn.key _ k.ws (fun e he => ?_)
    rw [hd]
    exact hdg e.1 ((hjob k (by simp)).lt e he)
  case writeUnique =>
    have h1 : a.txn.cmd.isWr = true := by rw [hc]; rfl
    have h2 : a.txn.cmd.snooping = true := by rw [hc]; rfl
    obtain ⟨-, k, cs, hj, -, -, hpos⟩ := hA.wr h1
    cases hi : s.inCache c p a.txn.key
    · rw [if_neg (by simp)]
      exact notIn h1 h2 hi
    · obtain ⟨i1, i2⟩ := inCache_iff.1 hi
      have hm : p < c.masters := hV.lite p _ (lineCopy_of i1 i2)
      rw [if_pos ⟨rfl, k, by rw [hj]; rfl, hpos hm hc⟩]
      exact wr h1 h2 hi
  case writeLineUnique =>
    have h1 : a.txn.cmd.isWr = true := by rw [hc]; rfl
    have h2 : a.txn.cmd.snooping = true := by rw [hc]; rfl
    cases hi : s.inCache c p a.txn.key
    · rw [if_neg (by simp)]
      exact notIn h1 h2 hi
    · rw [if_pos rfl]
      exact wr h1 h2 hi
  case writeBack =>
    have h2 : a.txn.cmd.snooping = false := by rw [hc]; rfl
    exact out h2 _ (hA.out h2).2.1 (Or.inl rfl)
  case writeClean =>
    have h2 : a.txn.cmd.snooping = false := by rw [hc]; rfl
    obtain ⟨o1, o2, o3⟩ := hA.out h2
    cases a.job
    · exact out h2 _ o2 (Or.inl rfl)
    · exact out h2 _ o2 (Or.inl rfl)
    · exact out h2 _ o2 (Or.inr ⟨o1, rfl, rfl, rfl⟩)

/-- MakeUnique and the store that follows. -/
theorem Inv.commitMU (h : Inv c w m0 s) {p : Nat} {a : Act} (ha : (s.ports p).act = some a)
    (hst : a.stage = .done) (hmu : a.txn.cmd = .makeUnique) {k : Chunk}
    (hcov : Covers c.lineSz k.ws) :
    Inv c w m0 (((Verif.Ace.leave s p).setLine c p a.txn.key
      { valid := true, key := a.txn.key, shared := false, dirty := true
        data := writeBytes (s.line c p a.txn.key).data k.ws }).emit
        (k.ws.map fun e => .wr p a.txn.key e.1 e.2)) := by
  have hA := h.act p a ha
  have hV := h.view a.txn.key hA.key
  have h2 : a.txn.cmd.snooping = true := by rw [hmu]; rfl
  obtain ⟨hf, hv⟩ := hA.fill (by rw [hmu]; rfl)
  have hwt : c.wt p = false := by
    cases e : c.wt p
    · rfl
    · have := hf.wt e; rw [hmu] at this; cases this
  have hr : ∀ X, replay m0 (s.log ++ k.ws.map fun e => .wr p a.txn.key e.1 e.2) X =
      if X = a.txn.key then writeBytes (replay m0 s.log X) k.ws else replay m0 s.log X := by
    intro X; rw [replay_append, replay_wrs]
  refine h.leave ha
    (l := { valid := true, key := a.txn.key, shared := false, dirty := true
            data := writeBytes (s.line c p a.txn.key).data k.ws })
    rfl rfl rfl ((consistent_append _ _ _).2 ⟨h.log, consistent_wrs ..⟩)
    (fun X e => (hr X).trans (if_neg e)) (Or.inr ⟨fun _ => rfl, fun e => ?_⟩) (lineCopy_of rfl rfl)
    ((hr _).trans (if_pos rfl)) ?_
  · rw [show (s.line c p a.txn.key).valid = false from hv] at e; cases e
  · rw [view_wb ha h2]
    exact hV.endMU _ (view_tx ha hst h2) hmu hf.master hwt hcov

end Verif.Ace
