import Verif.RtlRam.Serve

/-!
# The data RAM allocator: properties
-/

namespace Verif.RtlRam

theorem AllPolite.split (c : Cfg) (a : List In) : ∀ (w : World) (b : List In), AllPolite c w (a ++ b) →
    AllPolite c w a ∧ AllPolite c (w.run c a) b := by
  induction a with
  | nil => intro w b h; exact ⟨trivial, h⟩
  | cons i t ih => intro w b h; exact ⟨⟨h.1, (ih _ b h.2).1⟩, (ih _ b h.2).2⟩

theorem AllRoom.split (c : Cfg) (a : List In) : ∀ (w : World) (b : List In), AllRoom c w (a ++ b) →
    AllRoom c w a ∧ AllRoom c (w.run c a) b := by
  induction a with
  | nil => intro w b h; exact ⟨trivial, h⟩
  | cons i t ih => intro w b h; exact ⟨⟨h.1, (ih _ b h.2).1⟩, (ih _ b h.2).2⟩

theorem inv_run {c : Cfg} (hw : 256 ≤ 2 ^ c.w) (ins : List In) : ∀ (w : World), Inv c w → AllPolite c w ins →
    (c.top = 2 ^ c.w ∨ AllRoom c w ins) → Inv c (w.run c ins) := by
  induction ins with
  | nil => intro w v _ _; exact v
  | cons i t ih =>
    intro w v p r
    refine ih _ (inv_next hw v p.1 (r.imp id (fun r => r.1))) p.2 (r.imp id (fun r => r.2))

theorem inv_sound {c : Cfg} {w : World} (v : Inv c w) (ho : ∀ n m, w.s.vld n = true → w.s.vld m = true →
    w.s.ll n = w.s.ll m → n = m) : Sound c w := by
  obtain ⟨a, len, g, b⟩ := v.geo
  intro n m x y hnm hx hy i hi j hj
  have lx := b.live n x hx
  have ly := b.live m y hy
  unfold Grant.loc
  rw [lx.2.1, ly.2.1, g.strt n lx.1, g.strt m ly.1]
  rw [lx.2.2] at hi
  rw [ly.2.2] at hj
  rcases Nat.lt_trichotomy (w.s.ll n) (w.s.ll m) with h | h | h
  · have := g.apart n m lx.1 ly.1 h
    exact apart_of this.1 this.2 i j hi hj
  · exact absurd (ho n m lx.1 ly.1 h) hnm
  · have := g.apart m n ly.1 lx.1 h
    exact (apart_of this.1 this.2 j i hj hi).symm

/-- Two nodes in use never have the same number. -/
theorem inv_inj {c : Cfg} {w : World} (v : Inv c w) (n m : Nat) (hn : w.s.vld n = true) (hm : w.s.vld m = true)
    (h : w.s.ll n = w.s.ll m) : n = m := by
  have hl := v.list
  unfold ListOk at hl
  cases hd : w.s.dst <;> rw [hd] at hl
  · exact hl.1.inj n m hn hm h
  · exact hl.1.inj n m (by simp [hn]) (by simp [hm]) h
  · exact hl.1.1.inj n m (by simp [hn]) (by simp [hm]) h
  · exact hl.1.1.inj n m (by simp [hn]) (by simp [hm]) h
  · exact hl.inj n m hn hm h
  · exact hl.1.inj n m hn hm h

/-- The node of an answer is one which was not in use. -/
theorem ans_free {c : Cfg} {w : World} {i : In} (v : Inv c w) (h : (step c w.s i).ansValid = true) :
    w.s.vld (step c w.s i).ansNode = false := by
  rw [(step_front c w.s i).ansValid] at h
  have h : w.s.preAlc = true := h
  have hs : w.s.ser = .alc := by
    by_cases e : w.s.ser = .alc
    · exact e
    · rw [v.fsm.preAlc, v.fsm.alc e] at h; cases h
  have hd := v.fsm.dst (by rw [hs]; decide)
  have hl := v.list
  unfold ListOk at hl
  rw [hd] at hl
  have e := step_alc c v.fsm i hs
  have hal := v.alc
  unfold AlcOk at hal
  rw [v.fsm.preAlc] at h
  cases ha : w.s.alc <;> rw [ha] at h <;> try (cases h; done)
  · rw [ha] at hal
    unfold alcStep at e
    rw [ha] at e
    rw [e]
    change w.s.vld 0 = false
    cases hv : w.s.vld 0 with
    | false => rfl
    | true => have := hl.2.some 0 hv; rw [hal] at this; cases this
  · rw [ha] at hal
    unfold alcStep at e
    rw [ha] at e
    rw [e]
    exact hal.2.2

theorem inv_fresh {c : Cfg} {w : World} {i : In} (v : Inv c w) : FreshAnswer c w i := by
  intro h
  change (step c w.s i).ansValid = true at h
  change w.g (step c w.s i).ansNode = none
  obtain ⟨a, len, _, b⟩ := v.geo
  have hn := ans_free v h
  cases hg : w.g (step c w.s i).ansNode with
  | none => rfl
  | some x => rw [(b.live _ x hg).1] at hn; cases hn

/-- **The ACE allocator never gives out a location twice.**  Whatever requests,
completions and descriptors its user sends, in whatever cycles, two pieces
under way have no location of the RAM in common; and an answer names a node
which is not in use. -/
theorem ace_pieces_apart (w : Nat) (hw : 8 ≤ w) (ins : List In)
    (h : AllPolite (aceCfg w) World.start ins) :
    Sound (aceCfg w) (World.start.run (aceCfg w) ins) ∧
      ∀ i, FreshAnswer (aceCfg w) (World.start.run (aceCfg w) ins) i := by
  have hm : 256 ≤ 2 ^ w := Nat.pow_le_pow_right (n := 2) (by decide) hw
  have v := inv_run (c := aceCfg w) hm ins _ (inv_start _) h (Or.inl rfl)
  exact ⟨inv_sound v (inv_inj v), fun i => inv_fresh v⟩

/-- **The AXI allocator gives out no location twice as long as** there really
is room in each place it chooses.  What is missing is that it chooses only
such places, which is false (`axi_overlap`). -/
theorem axi_pieces_apart_partial (w : Nat) (hw : 8 ≤ w) (ins : List In)
    (h : AllPolite (axiCfg w) World.start ins) (hr : AllRoom (axiCfg w) World.start ins) :
    Sound (axiCfg w) (World.start.run (axiCfg w) ins) ∧
      ∀ i, FreshAnswer (axiCfg w) (World.start.run (axiCfg w) ins) i := by
  have hm : 256 ≤ 2 ^ w := Nat.pow_le_pow_right (n := 2) (by decide) hw
  have v := inv_run (c := axiCfg w) hm ins _ (inv_start _) h (Or.inr hr)
  exact ⟨inv_sound v (inv_inj v), fun i => inv_fresh v⟩

/-- **The ACE allocator turns a request away only when it has to**: all 16
nodes are in use, or none of the free stretches between two pieces is long
enough. -/
theorem ace_refused_only_when_full (w : Nat) (hw : 8 ≤ w) (ins : List In)
    (h : AllPolite (aceCfg w) World.start ins)
    (hf : (World.start.run (aceCfg w) ins).s.preFail = true) :
    let s := (World.start.run (aceCfg w) ins).s
    (∀ n, n < 16 → s.vld n = true) ∨
      ∀ n, s.vld n = true → trueGap w (s.fin n) (after s n) < (World.start.run (aceCfg w) ins).prev.size + 1 := by
  have hm : 256 ≤ 2 ^ w := Nat.pow_le_pow_right (n := 2) (by decide) hw
  have v := inv_run (c := aceCfg w) hm ins _ (inv_start _) h (Or.inl rfl)
  generalize hW : World.start.run (aceCfg w) ins = W at *
  dsimp only
  rw [v.fsm.preFail] at hf
  have ha : W.s.alc = .failed := by simpa using hf
  have hs : W.s.ser = .alc := by
    by_cases e : W.s.ser = .alc
    · exact e
    · rw [v.fsm.alc e] at ha; cases ha
  have hal := v.alc
  unfold AlcOk at hal
  rw [ha] at hal
  refine hal.imp id (fun hal n hn => ?_)
  have hl := v.list
  unfold ListOk at hl
  rw [v.fsm.dst (by rw [hs]; decide)] at hl
  obtain ⟨a, len, g, _⟩ := v.geo
  have hp : 0 < 2 ^ w := Nat.two_pow_pos _
  have := hal n hn
  rw [seenGap_true (c := aceCfg w) rfl] at this
  · exact this
  · rw [g.fin _ hn]; exact Nat.mod_lt _ hp
  · rw [limit_strt g hl.2 hn]; exact Nat.mod_lt _ hp

end Verif.RtlRam
