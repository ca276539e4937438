import Verif.ChiCoh.Cpu
import Verif.ChiCoh.Snoop
import Verif.ChiCoh.Findings

/-!
# C50: the caches of a CHI system show their users one memory

Full statement: in every run, loads and stores on the caches behave like accesses to one memory. The code
does not have it (`Findings`). Proved here: it holds in every run, of any length, with any number of
caches and lines and any random choices, without direct cache transfer, over pin-level links, that keeps
clear of the races named in `Calm`.
-/

namespace Verif.ChiCoh

theorem init_inv (cfg : Cfg) (m : Nat → Data) : Inv cfg (init m) (Spec.init m) := by
  have nh : ∀ i x, ¬ Holds cfg (init m) i x := by intro i x a; cases a.1
  exact {
    act := fun _ => rfl
    pcn := fun _ _ a => by cases a
    pcs := fun _ _ a => by cases a
    ixs := fun _ _ a => by cases a
    copy := fun i x a => absurd a (nh i x)
    uniq := fun i _ x a => absurd a (nh i x)
    filt := fun i x a => absurd a (nh i x)
    avail := fun _ => .mem rfl
    cur := fun _ a => by cases a }

theorem topSlot (num i : Nat) (c : Chunk) (r : Rnd) (ca cb : Cache) (h : ca.slot = cb.slot) :
    top num i c r ca = top num i c r cb := by
  cases ca
  cases cb
  cases h
  simp only [top, topStore, topLoad]

theorem setCache_twice (s : St) (i : Nat) (a b : Cache) : setCache (setCache s i a) i b = setCache s i b := by
  unfold setCache
  congr 1
  funext j
  by_cases e : j = i
  · subst e; rw [upd_same, upd_same]
  · rw [upd_ne _ _ _ e, upd_ne _ _ _ e]; exact upd_ne _ _ _ e

/-- Every calm step is matched by the abstract memory. -/
theorem step_inv {cfg : Cfg} {s s' : St} {t : Spec} {es : List Ev} {lb : Label} (hd : cfg.dct = false)
    (hl : cfg.link = true) (h : Inv cfg s t) (hc : Calm s lb) (hs : step cfg s lb = .next s' es) :
    ∃ t', t.run es = some t' ∧ Inv cfg s' t' := by
  have fin : es = [] ∧ Inv cfg s' t → ∃ t', t.run es = some t' ∧ Inv cfg s' t' := by
    rintro ⟨rfl, a⟩; exact ⟨t, rfl, a⟩
  cases lb with
  | start i c r =>
    unfold step at hs
    by_cases hn : i < cfg.n
    · simp only [if_pos hn] at hs
      cases hp : (s.cache i).pc with
      | some w => simp [hp] at hs
      | none =>
        simp only [hp, Out.next.injEq] at hs
        obtain ⟨rfl, rfl⟩ := hs
        obtain ⟨t1, w, e1, rfl, e3, e4, h1⟩ := begin_ok h hn hp hc
        have hci : (setCache s i { s.cache i with pc := some w }).cache i = { s.cache i with pc := some w } :=
          upd_same _ _ _
        obtain ⟨t2, e5, h2⟩ := top_ok (w := w) h1 r (by rw [hci]) e3 (by rw [e4]; rfl) (by rw [e4]; rfl)
        rw [topSlot cfg.num i w.c r _ (s.cache i) (by rw [hci])] at e5 h2
        rw [setCache_twice] at h2
        exact ⟨t2, by simp only [Spec.run, e1]; exact e5, h2⟩
    · simp [if_neg hn] at hs
  | resume i r =>
    unfold step at hs
    cases hp : (s.cache i).pc with
    | none => simp [hp] at hs
    | some w =>
      by_cases hw : w.st = .done
      · simp only [hp, if_pos hw, Out.next.injEq] at hs
        obtain ⟨rfl, rfl⟩ := hs
        exact resume_ok h r hp hw
      · simp [hp, if_neg hw] at hs
  | pick i => exact fin (pick_ok hd h hs)
  | snoop j => exact fin (snoop_ok h hc hs)
  | resp j junk => exact fin (resp_ok h hs)
  | snAck => exact fin (snAck_ok h hs)
  | memRead => exact fin (memRead_ok hl h hc hs)
  | memWrite => exact fin (memWrite_ok h hs)
  | rxDat => exact fin (rxDat_ok h hs)
  | rxComp => exact fin (rxComp_ok h hs)
  | rxEvict i => exact fin (rxEvict_ok h hs)
  | rxDbid => exact rxDbid_ok h hs
  | wrDat => exact fin (wrDat_ok h hs)
  | snWr => exact fin (snWr_ok h hs)
  | ack => exact fin (ack_ok h hs)

theorem Spec.run_append (t : Spec) (a b : List Ev) :
    t.run (a ++ b) = (t.run a).bind (fun t' => t'.run b) := by
  induction a generalizing t with
  | nil => rfl
  | cons e a ih =>
    simp only [List.cons_append, Spec.run]
    cases t.ev e with
    | none => rfl
    | some t' => exact ih t'

theorem run_inv {cfg : Cfg} (hd : cfg.dct = false) (hl : cfg.link = true) (ls : List Label) :
    ∀ {s s' : St} {t : Spec} {es : List Ev}, Inv cfg s t → CalmRun cfg s ls → run cfg s ls = some (s', es) →
      ∃ t', t.run es = some t' ∧ Inv cfg s' t' := by
  induction ls with
  | nil =>
    intro s s' t es h _ hr
    cases hr
    exact ⟨t, rfl, h⟩
  | cons lb ls ih =>
    intro s s' t es h hc hr
    unfold run at hr
    cases hs : step cfg s lb with
    | blocked => simp [hs] at hr
    | abort => simp [hs] at hr
    | next s1 e1 =>
      simp only [hs] at hr
      cases hr2 : run cfg s1 ls with
      | none => simp [hr2] at hr
      | some p =>
        obtain ⟨s2, e2⟩ := p
        simp only [hr2, Option.some.injEq, Prod.mk.injEq] at hr
        obtain ⟨rfl, rfl⟩ := hr
        obtain ⟨t1, r1, h1⟩ := step_inv hd hl h hc.1 hs
        obtain ⟨t2, r2, h2⟩ := ih h1 (hc.2 s1 e1 hs) hr2
        exact ⟨t2, by rw [Spec.run_append, r1]; exact r2, h2⟩

/-! ## The property theorems -/

/-- Whatever the caches do, their users see one memory. -/
theorem coherent_partial {cfg : Cfg} {m : Nat → Data} {ls : List Label} {s : St} {es : List Ev}
    (hd : cfg.dct = false) (hl : cfg.link = true) (hc : CalmRun cfg (init m) ls)
    (hr : run cfg (init m) ls = some (s, es)) : Coherent m es := by
  obtain ⟨t, h, _⟩ := run_inv hd hl ls (init_inv cfg m) hc hr
  exact ⟨t, h⟩

/-- At every moment a line that one cache may write is in no other cache. -/
theorem unique_exclusive_partial {cfg : Cfg} {m : Nat → Data} {ls : List Label} {s : St} {es : List Ev}
    (hd : cfg.dct = false) (hl : cfg.link = true) (hc : CalmRun cfg (init m) ls)
    (hr : run cfg (init m) ls = some (s, es)) (i j x : Nat) (hi : Holds cfg s i x)
    (hu : ((s.cache i).slot (x % cfg.num)).shared = false) (hj : Holds cfg s j x) : j = i := by
  obtain ⟨_, _, h⟩ := run_inv hd hl ls (init_inv cfg m) hc hr
  exact h.uniq i j x hi hu hj

/-- At every moment all caches that hold a line hold the same bytes, the last ones stored; except a cache
whose MakeUnique has completed and whose store follows. -/
theorem copies_current_partial {cfg : Cfg} {m : Nat → Data} {ls : List Label} {s : St} {es : List Ev}
    (hd : cfg.dct = false) (hl : cfg.link = true) (hc : CalmRun cfg (init m) ls)
    (hr : run cfg (init m) ls = some (s, es)) :
    ∃ t, (Spec.init m).run es = some t ∧ ∀ i x, Holds cfg s i x → justGranted s i x = false →
      ((s.cache i).slot (x % cfg.num)).data = t.mem x := by
  obtain ⟨t, h0, h⟩ := run_inv hd hl ls (init_inv cfg m) hc hr
  refine ⟨t, h0, fun i x a b => (h.copy i x a ?_).2⟩
  rintro ⟨w, c1, c2, c3, c4⟩
  simp [justGranted, c1, c2, c3, c4] at b

/-- No store is ever lost: when nothing is going on, a line that no cache holds dirty is in memory as last
stored. -/
theorem memory_current_partial {cfg : Cfg} {m : Nat → Data} {ls : List Label} {s : St} {es : List Ev}
    (hd : cfg.dct = false) (hl : cfg.link = true) (hc : CalmRun cfg (init m) ls)
    (hr : run cfg (init m) ls = some (s, es)) (idle : (∀ i, (s.cache i).pc = none) ∧ s.cur = none ∧ s.posted = []) :
    ∃ t, (Spec.init m).run es = some t ∧ ∀ x,
      (∀ i, Holds cfg s i x → ((s.cache i).slot (x % cfg.num)).dirty = false) → s.mem x = t.mem x := by
  obtain ⟨t, h0, h⟩ := run_inv hd hl ls (init_inv cfg m) hc hr
  refine ⟨t, h0, fun x a => ?_⟩
  cases h.avail x with
  | dirty i b c => rw [show (ln cfg s i x).dirty = false from a i b] at c; cases c
  | mem b => rw [← b]; simp [eff, pend, idle.2.1, idle.2.2]
  | home k b => rw [idle.2.1] at b; cases b
  | over k b => rw [idle.2.1] at b; cases b
  | hot i b =>
    obtain ⟨w, c, _⟩ := b
    rw [idle.1 i] at c; cases c

/-- No assertion of the modelled code fails. -/
theorem no_abort_partial {cfg : Cfg} {m : Nat → Data} {ls : List Label} {s : St} {es : List Ev}
    (hd : cfg.dct = false) (hl : cfg.link = true) (hc : CalmRun cfg (init m) ls)
    (hr : run cfg (init m) ls = some (s, es)) (lb : Label) : step cfg s lb ≠ .abort := by
  obtain ⟨t, _, h⟩ := run_inv hd hl ls (init_inv cfg m) hc hr
  cases lb with
  | rxDat => exact rxDat_noabort h
  | start i c r =>
    simp only [step]; repeat' split
    all_goals simp
  | resume i r =>
    simp only [step]; repeat' split
    all_goals simp
  | pick i =>
    simp only [step, stepPick]; repeat' split
    all_goals simp
  | snoop j =>
    simp only [step, stepSnoop]; repeat' split
    all_goals simp
  | resp j junk =>
    simp only [step, stepResp]; repeat' split
    all_goals simp
  | snAck =>
    simp only [step, stepSnAck]; repeat' split
    all_goals simp
  | memRead =>
    simp only [step, stepMemRead]; repeat' split
    all_goals simp
  | memWrite =>
    simp only [step, stepMemWrite]; repeat' split
    all_goals simp
  | rxComp =>
    simp only [step, stepRxComp]; repeat' split
    all_goals simp
  | rxEvict i =>
    simp only [step, stepRxEvict]; repeat' split
    all_goals simp
  | rxDbid =>
    simp only [step, stepRxDbid]; repeat' split
    all_goals simp
  | wrDat =>
    simp only [step, stepWrDat]; repeat' split
    all_goals simp
  | snWr =>
    simp only [step, stepSnWr]; repeat' split
    all_goals simp
  | ack =>
    simp only [step, stepAck]; repeat' split
    all_goals simp

/-! ## The hypotheses are met -/

/-- `CalmRun` as a computation. -/
def calmB (s : St) : Label → Bool
  | .start _ c _ => !c.wr || !(c.whole || c.allBe) || decide (∀ o, c.be o = true)
  | .snoop j =>
    match s.cur with
    | some k => justGranted s j k.tag = false &&
        (!((snpOp k.fwd k.kind).any invalidating) || upgrading s j k.tag = false)
    | none => true
  | .memRead =>
    match s.cur with
    | some k => s.posted.all fun p => p.1 != k.tag
    | none => true
  | _ => true

def calmRunB (cfg : Cfg) : St → List Label → Bool
  | _, [] => true
  | s, l :: ls => calmB s l &&
    match step cfg s l with
    | .next s' _ => calmRunB cfg s' ls
    | _ => true

theorem calmB_ok {s : St} {l : Label} (h : calmB s l = true) : Calm s l := by
  cases l <;> simp only [Calm, calmB] at h ⊢
  case start i c r =>
    intro a b o
    simp only [Bool.or_eq_true, Bool.not_eq_true', decide_eq_true_eq] at h
    rcases h with (h | h) | h
    · rw [a] at h; cases h
    · rcases b with b | b <;> simp [b] at h
    · exact h o
  case snoop j =>
    cases hc : s.cur with
    | none => trivial
    | some k =>
      simp only [hc, Bool.and_eq_true, Bool.or_eq_true, decide_eq_true_eq] at h ⊢
      refine ⟨h.1, fun a => ?_⟩
      rcases h.2 with b | b
      · rw [a] at b; cases b
      · exact b
  case memRead =>
    cases hc : s.cur with
    | none => trivial
    | some k =>
      simp only [hc, List.all_eq_true] at h ⊢
      intro p hp
      simpa using h p hp

theorem calmRunB_ok {cfg : Cfg} (ls : List Label) : ∀ {s : St}, calmRunB cfg s ls = true → CalmRun cfg s ls := by
  induction ls with
  | nil => intro s _; trivial
  | cons l ls ih =>
    intro s h
    simp only [calmRunB, Bool.and_eq_true] at h
    refine ⟨calmB_ok h.1, fun s' es e => ih ?_⟩
    rw [e] at h; exact h.2

/-- Loads, stores, upgrades, snoops with dirty data, write-backs, ReadOnce and WriteUnique by three
caches. -/
def longRun : List Label :=
  [.start 0 (st0 1 7) r0] ++ miss 0 ++
  [.start 1 (ldAll 1) r0] ++ missFrom 1 0 ++
  [.start 1 (st1 1 9) r0, .pick 1, .snoop 0, .resp 0 allBytes, .snAck, .memWrite, .rxComp, .resume 1 r0, .ack] ++
  [.start 2 (ldAll 1) { load := 2 }, .pick 2, .snoop 1, .resp 1 allBytes, .rxDat, .resume 2 r0, .ack] ++
  [.start 2 (st0 1 5) { store := 1 }, .pick 2, .snoop 1, .resp 1 allBytes, .snAck, .rxDbid, .resume 2 r0,
   .wrDat, .snWr, .memWrite, .memWrite] ++
  [.start 0 (ldAll 1) r0] ++ miss 0 ++
  [.start 0 (stAll 5 3) r0, .pick 0, .rxEvict 0, .resume 0 r0, .pick 0, .rxComp, .resume 0 r0, .ack] ++
  [.start 0 (ldAll 1) r0, .pick 0, .rxDbid, .wrDat, .snWr, .memWrite, .resume 0 r0] ++ miss 0

/-- It runs to its end, is calm, and ends idle. -/
example : ∃ s es, run { cfgN with n := 3 } (init zero) longRun = some (s, es) ∧
    CalmRun { cfgN with n := 3 } (init zero) longRun := by
  have h : (run { cfgN with n := 3 } (init zero) longRun).isSome = true := by decide +kernel
  obtain ⟨⟨s, es⟩, e⟩ := Option.isSome_iff_exists.1 h
  exact ⟨s, es, e, calmRunB_ok _ (by decide +kernel)⟩

/-- The loads of that run return what the stores left: the last one sees bytes 5 and 9. -/
example : (match run { cfgN with n := 3 } (init zero) longRun with
    | some (s, es) => (match es.getLast? with
        | some (.finish 0 d) => d 0 == 5 && d 1 == 9 && d 2 == 0
        | _ => false) && s.posted.isEmpty && s.cur.isNone && (s.cache 0).pc.isNone
    | none => false) = true := by decide +kernel

/-- The races of the findings are exactly what `Calm` excludes, and the first finding what `dct` does. -/
example : calmRunB cfgN (init zero) upgradeRace = false ∧ calmRunB cfgN (init zero) sparseLoss = false ∧
    calmRunB cfgN (init zero) grantRace = false ∧ calmRunB { cfgN with n := 3 } (init zero) cleanUniqueRace = false ∧
    calmRunB cfgN (init zero) memRace = false ∧ calmRunB cfgD (init zero) dctLoss = true := by decide +kernel

end Verif.ChiCoh
