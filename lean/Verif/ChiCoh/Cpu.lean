import Verif.ChiCoh.Local

/-!
# The CPU side: loads and stores against the abstract memory
-/

namespace Verif.ChiCoh

theorem run_nil (t : Spec) : t.run [] = some t := rfl

theorem loadKind_ok (c : Chunk) (n : Nat) (h : c.wr = false) : FillOk c (loadKind n) := by
  unfold loadKind
  split <;> exact ⟨by decide, fun _ => h, by simp, by simp, by decide⟩

theorem setCache_same (s : St) (i : Nat) (ca : Cache) (h : ca = s.cache i) : setCache s i ca = s := by
  unfold setCache
  have : upd s.cache i ca = s.cache := by
    funext j
    by_cases e : j = i
    · subst e; rw [upd_same, h]
    · rw [upd_ne _ _ _ e]
  rw [this]

/-- The CPU side finishes its chunk. -/
theorem finish_ok {cfg : Cfg} {s : St} {t : Spec} (h : Inv cfg s t) {i : Nat} {w : Wait} {d : Data}
    (hp : (s.cache i).pc = some w) (hw : w.st = .done) (nh : w.op ≠ .makeUnique ∧ w.op ≠ .cleanUnique)
    (hd : (if w.c.wr then t.com i else (t.seen i).any (sees w.c d)) = true) :
    ∃ t', t.run [.finish i d] = some t' ∧ Inv cfg (setCache s i { s.cache i with pc := none }) t' := by
  have hact : t.act i = some w.c := by rw [h.act, hp]; rfl
  refine ⟨{ t with act := upd t.act i none }, ?_, ?_⟩
  · simp only [Spec.run, Spec.ev, hact, if_pos hd]
  · refine local_ok h hp hw nh ?_ ?_ ?_ rfl rfl rfl (fun _ _ => rfl) ?_
    · intro y _; rfl
    · intro y _ _; rfl
    · intro y; exact ⟨rfl, rfl, rfl⟩
    · intro v e; cases e

/-- A new request, the slot as it is. -/
theorem reissue_ok {cfg : Cfg} {s : St} {t : Spec} (h : Inv cfg s t) {i : Nat} {w : Wait} {f : Kind} {a : Bool}
    (hp : (s.cache i).pc = some w) (hw : w.st = .done) (nh : w.op ≠ .makeUnique ∧ w.op ≠ .cleanUnique)
    (nw : w.op.isWrU = false) (hf : f.isFill = true) (h1 : f.isOnce = true → w.c.wr = false)
    (h2 : (f = .makeUnique ∨ f = .wrUFull) → ∀ o, w.c.be o = true)
    (h3 : (f = .makeUnique ∨ f = .wrUFull ∨ f = .wrUPtl ∨ f = .cleanUnique) → w.c.wr = true)
    (h4 : a = true → f.isWrU = true)
    (hl : LineOk ((s.cache i).slot (w.c.tag % cfg.num)) (t.seen i) (fillReq w.c f a)) :
    Inv cfg (setCache s i { s.cache i with pc := some (fillReq w.c f a) }) t := by
  have q := h.pcs i w hp
  have hcom : t.com i = false := by rw [q.com, nw]; rfl
  refine local_ok h hp hw nh ?_ ?_ ?_ rfl ?_ rfl (fun _ _ => rfl) ?_
  · intro y _; rfl
  · intro y _ _; rfl
  · intro y; exact ⟨rfl, rfl, rfl⟩
  · funext j
    by_cases e : j = i
    · subst e; rw [upd_same, h.act, hp]; rfl
    · rw [upd_ne _ _ _ e]
  · intro v e
    cases e
    refine ⟨rfl, { ix := rfl, fill := fun _ => rfl, ff := hf, onceLd := h1, opf := fun _ => rfl, uniqSt := h2, stWr := h3, fvic := ?_, dense := q.dense, seen := q.seen, com := ?_, comp := ?_, ack := h4, line := hl }⟩
    · intro e; simp only [fillReq] at e; rw [hf] at e; exact absurd e (by decide)
    · simp [fillReq, hcom]
    · simp [fillReq]

theorem topLoad_ok {cfg : Cfg} {s : St} {t : Spec} (h : Inv cfg s t) {i : Nat} {w : Wait} (r : Rnd)
    (hp : (s.cache i).pc = some w) (hw : w.st = .done) (ho : w.op.isFill = true) (nw : w.op.isWrU = false)
    (hc : w.c.wr = false) :
    ∃ t', t.run (topLoad cfg.num i w.c r (s.cache i)).2 = some t' ∧
      Inv cfg (setCache s i (topLoad cfg.num i w.c r (s.cache i)).1) t' := by
  have q := h.pcs i w hp
  have nh : w.op ≠ .makeUnique ∧ w.op ≠ .cleanUnique := by
    constructor <;> intro e <;> have := q.stWr (by rw [← q.opf ho, e]; simp) <;> rw [hc] at this <;>
      exact absurd this (by decide)
  unfold topLoad
  simp only
  by_cases hh : ((s.cache i).slot (w.c.tag % cfg.num)).valid = true ∧
      ((s.cache i).slot (w.c.tag % cfg.num)).full = true ∧
      ((s.cache i).slot (w.c.tag % cfg.num)).tag = w.c.tag
  · rw [if_pos hh]
    refine finish_ok h hp hw nh ?_
    rw [hc]
    have := h.slotFull hp nh.1 hh.1
    rw [hh.2.2] at this
    rw [this.2]
    simp only [Bool.false_eq_true, if_false]
    exact List.any_eq_true.2 ⟨_, q.seen, by simp [sees]⟩
  · rw [if_neg hh]
    exact ⟨t, rfl, clearFill_ok h r hp hw nh nw (loadKind_ok _ _ hc)⟩

theorem topStore_ok {cfg : Cfg} {s : St} {t : Spec} (h : Inv cfg s t) {i : Nat} {w : Wait} (r : Rnd)
    (hp : (s.cache i).pc = some w) (hw : w.st = .done) (ho : w.op.isFill = true) (nw : w.op.isWrU = false)
    (hc : w.c.wr = true) :
    ∃ t', t.run (topStore cfg.num i w.c r (s.cache i)).2 = some t' ∧
      Inv cfg (setCache s i (topStore cfg.num i w.c r (s.cache i)).1) t' := by
  have q := h.pcs i w hp
  have hcom : t.com i = false := by rw [q.com, nw]; rfl
  have hact : t.act i = some w.c := by rw [h.act, hp]; rfl
  have hotH : (w.op = .makeUnique ∨ w.op = .cleanUnique) → Holds cfg s i w.c.tag ∧
      (ln cfg s i w.c.tag).shared = false := by
    intro e
    exact h.hotHolds ⟨w, hp, hw, e, q.fill ho⟩
  unfold topStore
  simp only
  by_cases hh : ((s.cache i).slot (w.c.tag % cfg.num)).valid = true ∧
      ((s.cache i).slot (w.c.tag % cfg.num)).tag = w.c.tag
  · rw [if_pos hh]
    by_cases hs : ((s.cache i).slot (w.c.tag % cfg.num)).shared = false
    · rw [if_pos hs]
      refine ⟨_, ?_, store_ok h hp hw ho hh hs⟩
      have e1 : (t.store i w.c).act i = some w.c := hact
      have e2 : (t.store i w.c).com i = true := upd_same _ _ _
      have e3 : t.ev (.commit i) = some (t.store i w.c) := by simp [Spec.ev, hact, hc, hcom]
      have e4 : (t.store i w.c).ev (.finish i w.c.data) =
          some { t.store i w.c with act := upd t.act i none } := by
        simp only [Spec.ev, e1, e2, hc]
        rfl
      simp only [Spec.run, e3, e4]
    · rw [if_neg hs]
      have nh : w.op ≠ .makeUnique ∧ w.op ≠ .cleanUnique :=
        ⟨fun e => hs (hotH (.inl e)).2, fun e => hs (hotH (.inr e)).2⟩
      refine ⟨t, rfl, reissue_ok h hp hw nh nw (by decide) (by simp [Kind.isOnce]) (by simp) (fun _ => hc) (by simp) ?_⟩
      simp only [LineOk, fillReq]
      exact ⟨hh.1, hh.2, by simp⟩
  · rw [if_neg hh]
    have nh : w.op ≠ .makeUnique ∧ w.op ≠ .cleanUnique :=
      ⟨fun e => hh (hotH (.inl e)).1, fun e => hh (hotH (.inr e)).1⟩
    by_cases hr : r.store = 0
    · rw [if_pos hr]
      refine ⟨t, rfl, clearFill_ok h r hp hw nh nw ?_⟩
      by_cases hw' : w.c.whole = true
      · rw [if_pos hw']
        exact ⟨by decide, by simp [Kind.isOnce], fun _ => q.dense hc (.inl hw'), fun _ => hc, by decide⟩
      · rw [if_neg hw']
        exact ⟨by decide, by simp [Kind.isOnce], by simp, by simp, by decide⟩
    · rw [if_neg hr]
      refine ⟨t, rfl, ?_⟩
      by_cases hb : w.c.allBe = true
      · rw [if_pos hb]
        refine reissue_ok h hp hw nh nw (by decide) (by simp [Kind.isOnce]) (fun _ => q.dense hc (.inr hb)) (fun _ => hc)
          (fun _ => rfl) ?_
        simp only [LineOk, fillReq]
        exact ⟨fun _ => hh, trivial, trivial⟩
      · rw [if_neg hb]
        refine reissue_ok h hp hw nh nw (by decide) (by simp [Kind.isOnce]) (by simp) (fun _ => hc) (fun _ => rfl) ?_
        simp only [LineOk, fillReq]
        exact ⟨fun _ => hh, trivial, trivial⟩

theorem top_ok {cfg : Cfg} {s : St} {t : Spec} (h : Inv cfg s t) {i : Nat} {w : Wait} (r : Rnd)
    (hp : (s.cache i).pc = some w) (hw : w.st = .done) (ho : w.op.isFill = true) (nw : w.op.isWrU = false) :
    ∃ t', t.run (top cfg.num i w.c r (s.cache i)).2 = some t' ∧
      Inv cfg (setCache s i (top cfg.num i w.c r (s.cache i)).1) t' := by
  unfold top
  cases hc : w.c.wr
  · exact topLoad_ok h r hp hw ho nw hc
  · exact topStore_ok h r hp hw ho nw hc

theorem resume_ok {cfg : Cfg} {s : St} {t : Spec} (h : Inv cfg s t) {i : Nat} {w : Wait} (r : Rnd)
    (hp : (s.cache i).pc = some w) (hw : w.st = .done) :
    ∃ t', t.run (resumeAt cfg.num i w r (s.cache i)).2 = some t' ∧
      Inv cfg (setCache s i (resumeAt cfg.num i w r (s.cache i)).1) t' := by
  have q := h.pcs i w hp
  have fo : w.op.isFill = false → FillOk w.c w.f := fun e =>
    ⟨q.ff, q.onceLd, q.uniqSt, q.stWr, q.fvic e⟩
  have refill : w.op.isFill = false → ((s.cache i).slot (w.c.tag % cfg.num)).valid = false →
      w.op.isWrU = false → (w.op ≠ .makeUnique ∧ w.op ≠ .cleanUnique) →
      Inv cfg (setCache s i { s.cache i with pc := some (fillReq w.c w.f false) }) t := by
    intro e hv nw nh
    have f := fo e
    refine reissue_ok h hp hw nh nw f.isFill f.onceLd f.uniqSt f.stWr (by simp) ?_
    have a := f.isFill
    have b := f.fvic
    cases hf : w.f <;> simp_all [LineOk, fillReq, Kind.isFill, Kind.isCb, Kind.isWrU]
  have l := q.line
  unfold LineOk at l
  unfold resumeAt
  cases ho : w.op <;> simp only [ho] at l
  case writeClean => exact ⟨t, rfl, evictNext_ok h r hp hw (by rw [ho]; decide) (by rw [ho]; decide)
    (fo (by rw [ho]; decide))⟩
  case writeBack | writeBackPtl | writeEvict =>
    exact ⟨t, rfl, refill (by rw [ho]; decide) (l.2 hw) (by rw [ho]; decide) (by rw [ho]; decide)⟩
  case evict =>
    exact ⟨t, rfl, refill (by rw [ho]; decide) l (by rw [ho]; decide) (by rw [ho]; decide)⟩
  case readShared | readClean | readNSD | readUnique | makeUnique | cleanUnique =>
    exact top_ok h r hp hw (by rw [ho]; decide) (by rw [ho]; decide)
  case once | onceCI | onceMI =>
    refine finish_ok h hp hw (by rw [ho]; decide) ?_
    have hc : w.c.wr = false := q.onceLd (by rw [← q.opf (by rw [ho]; decide), ho]; decide)
    rw [hc]
    simp only [Bool.false_eq_true, if_false]
    exact List.any_eq_true.2 ⟨_, l.2 hw, by simp [sees]⟩
  case wrUPtl | wrUFull =>
    refine finish_ok h hp hw (by rw [ho]; decide) ?_
    have hc : w.c.wr = true := q.stWr (by rw [← q.opf (by rw [ho]; decide), ho]; simp)
    rw [hc, q.com, ho, hw]
    rfl

/-- Starting a chunk is like resuming after an imagined completed read. -/
theorem begin_ok {cfg : Cfg} {s : St} {t : Spec} (h : Inv cfg s t) {i : Nat} {c : Chunk} (hn : i < cfg.n)
    (hp : (s.cache i).pc = none) (hd : Dense c) :
    ∃ t' w, t.ev (.begin i c) = some t' ∧ w.c = c ∧ w.st = .done ∧ w.op = .readShared ∧
      Inv cfg (setCache s i { s.cache i with pc := some w }) t' := by
  have hact : t.act i = none := by rw [h.act, hp]; rfl
  let w : Wait := { fillReq c .readShared false with st := .done }
  refine ⟨{ t with act := upd t.act i (some c), com := upd t.com i false, seen := upd t.seen i [t.mem c.tag] },
    w, by simp only [Spec.ev, hact], rfl, rfl, rfl, ?_⟩
  let ca : Cache := { s.cache i with pc := some w }
  have hci : (setCache s i ca).cache i = ca := upd_same _ _ _
  have hcj : ∀ j, j ≠ i → (setCache s i ca).cache j = s.cache j := fun j hj => upd_ne _ _ _ hj
  have hsl : ∀ j, ((setCache s i ca).cache j).slot = (s.cache j).slot := by
    intro j
    by_cases e : j = i
    · subst e; rw [hci]
    · rw [hcj j e]
  have hL : ∀ j x, ln cfg (setCache s i ca) j x = ln cfg s j x := by
    intro j x; simp only [ln, hsl]
  have hH : ∀ j x, Holds cfg (setCache s i ca) j x ↔ Holds cfg s j x := by
    intro j x; unfold Holds; rw [hsl]
  have hHot : ∀ j x, Hot (setCache s i ca) j x ↔ Hot s j x := by
    intro j x
    by_cases e : j = i
    · subst e
      unfold Hot
      rw [hci, hp]
      refine ⟨fun ⟨w', a, b, c, d⟩ => ?_, fun ⟨w', a, b⟩ => by cases a⟩
      cases a
      rcases c with c | c <;> cases c
    · unfold Hot; rw [hcj j e]
  have hMade : ∀ j x, Made s j x → Made (setCache s i ca) j x := by
    intro j x ⟨w', a, b⟩
    by_cases e : j = i
    · subst e; rw [hp] at a; cases a
    · exact ⟨w', by rw [hcj j e]; exact a, b⟩
  refine { act := ?_, pcn := ?_, pcs := ?_, ixs := ?_, copy := ?_, uniq := ?_, filt := ?_, avail := ?_, cur := ?_ }
  · intro j
    by_cases e : j = i
    · subst e; rw [hci]; exact upd_same _ _ _
    · rw [hcj j e]; simp only [upd_ne _ _ _ e]; exact h.act j
  · intro j w' a
    by_cases e : j = i
    · subst e; exact hn
    · rw [hcj j e] at a; exact h.pcn j w' a
  · intro j w' a
    by_cases e : j = i
    · subst e
      rw [hci] at a ⊢
      cases a
      refine { ix := rfl, fill := fun _ => rfl, ff := rfl, onceLd := by simp [w, fillReq, Kind.isOnce], opf := fun _ => rfl, uniqSt := by simp [w, fillReq], stWr := by simp [w, fillReq], fvic := fun e => absurd e (by simp [w, fillReq, Kind.isFill, Kind.isCb]), dense := hd, seen := ?_, com := ?_, comp := by simp [w], ack := by simp [w, fillReq], line := ?_ }
      · simp only [upd_same]; exact List.mem_cons_self
      · simp only [upd_same]; rfl
      · simp [LineOk, w, fillReq]
    · rw [hcj j e] at a ⊢
      simp only [upd_ne _ _ _ e]; exact h.pcs j w' a
  · intro j y; rw [hsl]; exact h.ixs j y
  · intro j x a nm
    rw [hL]
    exact h.copy j x ((hH _ _).1 a) (fun m => nm (hMade j x m))
  · intro j j' x a b c
    rw [hL] at b
    exact h.uniq j j' x ((hH _ _).1 a) b ((hH _ _).1 c)
  · intro j x a; exact h.filt j x ((hH _ _).1 a)
  · intro x
    exact (h.avail x).mono rfl rfl (fun j a b => ⟨(hH _ _).2 a, by rw [hL]; exact b⟩) rfl
      (fun j a => (hHot j x).2 a)
  · intro k hk
    have hk' : s.cur = some k := hk
    have ck := h.cur k hk'
    have hns : k.phase.early = true → k.src ≠ i := by
      intro e a
      obtain ⟨w', b, _⟩ := ck.early e
      rw [a, hp] at b; cases b
    refine ck.mono (fun j a => (hH _ _).1 a) (fun j a => by rw [hL]) (fun j a => (hHot j _).1 a) ?_
      (fun _ => rfl) ?_ ?_
    · intro e; rw [hcj _ (hns e)]
    · intro j r a b
      obtain ⟨c0, c1, c2, _⟩ := (ck.sn j r a).data b
      rw [hL]; exact ⟨c0, c1, c2⟩
    · intro e v a
      simp only [upd_ne _ _ _ (hns e)]; exact a

end Verif.ChiCoh
