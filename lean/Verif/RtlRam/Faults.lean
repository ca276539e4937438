import Verif.RtlRam.Props

/-!
# The data RAM allocator: runs

Runs which satisfy the hypotheses of the properties, and runs in which the
allocators go wrong.
-/

namespace Verif.RtlRam

/-- `Polite`, calculated. -/
def politeB (w : World) (i : In) : Bool :=
  decide (i.size < 256) && (!w.busy || decide (i.size = w.prev.size)) &&
  (!assignNow w.prev i ||
    ((w.g i.alcNode).any (fun x => x.desc.isNone) && !w.s.save i.alcDesc && !w.s.vec i.alcDesc &&
      !doneNow w.prev i i.alcDesc))

theorem politeB_ok {w : World} {i : In} (h : politeB w i = true) : Polite w i := by
  unfold politeB at h
  rw [Bool.and_eq_true, Bool.and_eq_true] at h
  obtain ⟨⟨h1, h2⟩, h3⟩ := h
  refine ⟨of_decide_eq_true h1, fun hb => ?_, fun ha => ?_⟩
  · rw [hb] at h2; simpa using h2
  · rw [ha] at h3
    simp only [Bool.not_true, Bool.false_or, Bool.and_eq_true] at h3
    obtain ⟨⟨⟨a, b⟩, d⟩, e⟩ := h3
    refine ⟨?_, by simpa using b, by simpa using d, by simpa using e⟩
    cases hg : w.g i.alcNode with
    | none => rw [hg] at a; cases a
    | some x =>
      rw [hg] at a
      exact ⟨x, rfl, by simpa [Option.any] using a⟩

def allPoliteB (c : Cfg) : World → List In → Bool
  | _, [] => true
  | w, i :: t => politeB w i && allPoliteB c (w.next c i) t

theorem allPoliteB_ok {c : Cfg} (ins : List In) : ∀ {w : World}, allPoliteB c w ins = true → AllPolite c w ins := by
  induction ins with
  | nil => intro w _; trivial
  | cons i t ih =>
    intro w h
    unfold allPoliteB at h
    rw [Bool.and_eq_true] at h
    exact ⟨politeB_ok h.1, ih h.2⟩

/-- A request for `z + 1` locations, held for 11 cycles. -/
def ask (z : Nat) : List In :=
  List.replicate 11 { quiet with txnValid := true, size := z } ++ [{ quiet with size := z }]

/-- Descriptor `d` is attached to node `n`. -/
def attach (n d : Nat) : List In := [{ quiet with alcValid := true, alcNode := n, alcDesc := d }, quiet]

/-- Descriptor `d` completes. -/
def complete (d : Nat) : List In := { quiet with cmpl := fun k => k == d } :: List.replicate 11 quiet

/-- What is under way: node, first location, length. -/
def World.pieces (w : World) : List (Nat × Nat × Nat) :=
  (List.range 16).filterMap (fun n => (w.g n).map (fun x => (n, x.off, x.len)))

/-- Four pieces fill the RAM, the second is returned, and two small ones take
its place. -/
def refill : List In :=
  ask 255 ++ attach 0 0 ++ ask 255 ++ attach 1 1 ++ ask 255 ++ attach 2 2 ++ ask 255 ++ attach 3 3 ++
  complete 1 ++ ask 99 ++ attach 1 4 ++ ask 155 ++ attach 4 1

theorem refill_polite : AllPolite (aceCfg 10) World.start refill :=
  allPoliteB_ok _ (by decide +kernel)

example : (World.start.run (aceCfg 10) refill).pieces =
    [(0, 0, 256), (1, 256, 100), (2, 512, 256), (3, 768, 256), (4, 356, 156)] := by
  decide +kernel

/-- A request which is turned away: the RAM is full. -/
example : AllPolite (aceCfg 10) World.start (refill ++ List.replicate 7 { quiet with txnValid := true, size := 0 }) ∧
    (World.start.run (aceCfg 10) (refill ++ List.replicate 7 { quiet with txnValid := true, size := 0 })).s.preFail = true :=
  ⟨allPoliteB_ok _ (by decide +kernel), by decide +kernel⟩

/-- `Room`, calculated. -/
def allRoomB (c : Cfg) : World → List In → Bool
  | _, [] => true
  | w, i :: t =>
    (decide (w.s.alc ≠ .addNode) ||
      decide (i.size + 1 ≤ trueGap c.w (w.s.fin w.s.posIdx) (after w.s w.s.posIdx))) && allRoomB c (w.next c i) t

theorem allRoomB_ok {c : Cfg} (ins : List In) : ∀ {w : World}, allRoomB c w ins = true → AllRoom c w ins := by
  induction ins with
  | nil => intro w _; trivial
  | cons i t ih =>
    intro w h
    unfold allRoomB at h
    rw [Bool.and_eq_true, Bool.or_eq_true] at h
    refine ⟨fun ha => ?_, ih h.2⟩
    rcases h.1 with h | h
    · exact absurd ha (of_decide_eq_true h)
    · exact of_decide_eq_true h

/-- The same run meets the hypotheses for the AXI allocator. -/
example : AllPolite (axiCfg 10) World.start refill ∧ AllRoom (axiCfg 10) World.start refill :=
  ⟨allPoliteB_ok _ (by decide +kernel), allRoomB_ok _ (by decide +kernel)⟩

/-- Five bursts of 256 beats. -/
def five : List In := ask 255 ++ ask 255 ++ ask 255 ++ ask 255 ++ ask 255

/-- **The AXI allocator gives out the whole RAM, and then its first quarter
once more**: with 1024 locations, five bursts of 256 beats, none of which has
completed. -/
theorem axi_overlap : AllPolite (axiCfg 10) World.start five ∧
    (World.start.run (axiCfg 10) five).pieces =
      [(0, 0, 256), (1, 256, 256), (2, 512, 256), (3, 768, 256), (4, 0, 256)] ∧
    ¬ Sound (axiCfg 10) (World.start.run (axiCfg 10) five) := by
  refine ⟨allPoliteB_ok _ (by decide +kernel), by decide +kernel, ?_⟩
  intro h
  have h0 : ((World.start.run (axiCfg 10) five).g 0).map (fun x => (x.off, x.len)) = some (0, 256) := by decide +kernel
  have h4 : ((World.start.run (axiCfg 10) five).g 4).map (fun x => (x.off, x.len)) = some (0, 256) := by decide +kernel
  obtain ⟨x, hx, ex⟩ := Option.map_eq_some_iff.mp h0
  obtain ⟨y, hy, ey⟩ := Option.map_eq_some_iff.mp h4
  have ex := Prod.mk.inj ex
  have ey := Prod.mk.inj ey
  have := h 0 4 x y (by decide) hx hy 0 (by rw [ex.2]; decide) 0 (by rw [ey.2]; decide)
  apply this
  unfold Grant.loc
  rw [ex.1, ey.1]

/-- The ACE allocator turns the fifth away. -/
theorem ace_five : (World.start.run (aceCfg 10) five).pieces =
    [(0, 0, 256), (1, 256, 256), (2, 512, 256), (3, 768, 256)] := by
  decide +kernel

/-- **The gap round the end of the RAM is always too large in the AXI
allocator**, by the whole RAM: whatever the ends, if the next piece does not
start behind the end of this one. -/
theorem axi_gap_wrong (w e t : Nat) (he : e < 2 ^ w) (ht : t ≤ e) :
    gapWrap (axiCfg w) e t = 2 ^ w + trueGap w e t ∧ gapWrap (aceCfg w) e t = trueGap w e t := by
  unfold gapWrap trueGap trunc axiCfg aceCfg
  dsimp only
  rw [Nat.mod_self, Nat.pow_succ]
  generalize 2 ^ w = m at *
  have h1 : (t + m - e - 1) % m = t + m - e - 1 := Nat.mod_eq_of_lt (by omega)
  rw [h1]
  refine ⟨?_, ?_⟩
  · rw [Nat.mod_eq_of_lt (by omega)]; omega
  · have : m + m * 2 + t - 1 - e = (t + m - e - 1) + m * 2 := by omega
    rw [this, Nat.add_mod_right, Nat.mod_eq_of_lt (by omega)]

/-- Node 1 has belonged to descriptor 0 and is given out again; descriptor 2
is attached to it in the very cycle in which another node of descriptor 0 is
released. -/
def lost : List In :=
  ask 3 ++ attach 0 1 ++ ask 3 ++ attach 1 0 ++ complete 0 ++ complete 1 ++ ask 3 ++ attach 0 0 ++ ask 3 ++
  [{ quiet with cmpl := fun k => k == 0 }, quiet, quiet] ++ attach 1 2 ++ List.replicate 9 quiet ++ complete 2

/-- **A piece of the RAM is lost for ever**, in both allocators: a descriptor
attached in the cycle in which a release of the descriptor the node had before
begins is forgotten.  At the end every descriptor has completed, nothing is
under way and nothing waits to be released, but node 1 is in use and no
descriptor belongs to it. -/
theorem attach_lost (c : Cfg) (hc : c = aceCfg 10 ∨ c = axiCfg 10) :
    AllPolite c World.start lost ∧
    let w := World.start.run c lost
    w.pieces = [] ∧ w.s.ser = .idle ∧ any w.s.save = false ∧ any w.s.vec = false ∧
      w.s.vld 1 = true ∧ w.s.descVld 1 = false := by
  rcases hc with rfl | rfl
  · exact ⟨allPoliteB_ok _ (by decide +kernel), by decide +kernel⟩
  · exact ⟨allPoliteB_ok _ (by decide +kernel), by decide +kernel⟩

theorem vld_keep (c : Cfg) (s : Regs) (i : In) (n : Nat) (h : s.vld n = true) (hd : s.descVld n = false) :
    (step c s i).vld n = true := by
  have hput : ∀ k, put s.vld k true n = true := by
    intro k
    unfold put
    split
    · rfl
    · exact h
  have hf : (front s i).vld n = true := h
  unfold step
  dsimp only
  split
  · unfold alcStep
    split
    · split <;> exact hf
    all_goals first | exact hf | exact hput _
  · split
    · unfold dealcStep
      split
      · have : goes s n = false := by unfold goes; rw [hd]; simp
        change (if goes s n then false else s.vld n) = true
        rw [this]
        exact h
      all_goals exact hf
    · exact hf

theorem run_append (c : Cfg) (a : List In) : ∀ (w : World) (b : List In), w.run c (a ++ b) = (w.run c a).run c b := by
  induction a with
  | nil => intro w b; rfl
  | cons i t ih => intro w b; exact ih _ b

/-- A node without a descriptor which nothing under way belongs to stays. -/
theorem stays_lost {c : Cfg} (hw : 256 ≤ 2 ^ c.w) (ht : c.top = 2 ^ c.w) (n : Nat) (ins : List In) : ∀ w : World,
    Inv c w → AllPolite c w ins → w.s.vld n = true → w.s.descVld n = false → w.g n = none →
    (w.run c ins).s.vld n = true ∧ (w.run c ins).g n = none := by
  induction ins with
  | nil => intro w _ _ h _ hg; exact ⟨h, hg⟩
  | cons i t ih =>
    intro w v p h hd hg
    refine ih (w.next c i) (inv_next hw v p.1 (Or.inl ht)) p.2 (vld_keep c w.s i n h hd) ?_ ?_
    · change (step c w.s i).descVld n = false
      rw [(step_front c w.s i).descVld]
      change (if _ then false else if n == i.alcNode && i.alcValid && !w.s.alcFf then true else w.s.descVld n) = false
      have : (n == i.alcNode && i.alcValid && !w.s.alcFf) = false := by
        rw [Bool.and_assoc]
        cases ha : i.alcValid && !w.s.alcFf with
        | false => simp
        | true =>
          rw [v.alcFf] at ha
          obtain ⟨⟨x, hx, _⟩, _⟩ := p.1.assign ha
          by_cases e : n = i.alcNode
          · rw [← e, hg] at hx; cases hx
          · simp [e]
      rw [this, hd]
      split <;> rfl
    · change book w.g w.prev i (step c w.s i) n = none
      unfold book
      have : ((step c w.s i).ansValid && n == (step c w.s i).ansNode) = false := by
        cases ha : (step c w.s i).ansValid with
        | false => rfl
        | true =>
          have := ans_free v ha
          by_cases e : n = (step c w.s i).ansNode
          · rw [← e, h] at this; cases this
          · simp [e]
      rw [this, if_neg (by decide), hg]

/-- **Whatever happens afterwards, the piece does not come back.** -/
theorem lost_for_ever (more : List In) (h : AllPolite (aceCfg 10) World.start (lost ++ more)) :
    let w := World.start.run (aceCfg 10) (lost ++ more)
    w.s.vld 1 = true ∧ w.g 1 = none := by
  dsimp only
  rw [run_append]
  obtain ⟨h1, h2⟩ := AllPolite.split (aceCfg 10) lost World.start more h
  have hw : 256 ≤ 2 ^ (aceCfg 10).w := by decide
  refine stays_lost hw rfl 1 more _ (inv_run hw lost _ (inv_start _) h1 (Or.inl rfl)) h2 ?_ ?_ ?_
  · decide +kernel
  · decide +kernel
  · have : ((World.start.run (aceCfg 10) lost).g 1).isNone = true := by decide +kernel
    simpa using this

/-- Attached a cycle later, the node is free again at the end. -/
theorem attach_kept :
    let w := World.start.run (aceCfg 10) (ask 3 ++ attach 0 1 ++ ask 3 ++ attach 1 0 ++ complete 0 ++ complete 1 ++ ask 3 ++
      attach 0 0 ++ ask 3 ++ [{ quiet with cmpl := fun k => k == 0 }, quiet, quiet, quiet] ++ attach 1 2 ++
      List.replicate 9 quiet ++ complete 2)
    w.pieces = [] ∧ any w.s.vld = false := by
  decide +kernel

end Verif.RtlRam
