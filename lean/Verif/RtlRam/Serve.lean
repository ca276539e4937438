import Verif.RtlRam.Step

/-!
# The data RAM allocator: allocations and releases keep the invariant

Helper lemmas.
-/

namespace Verif.RtlRam

theorem alcStep_idle (c : Cfg) (s : Regs) (i : In) (r : Regs) (h : s.alc = .idle) : alcStep c s i r =
    if s.headVld then { r with alc := .udLl, preAlc := false, preFail := false }
    else { r with alc := .newLl, preAlc := true, preFail := false } := by
  unfold alcStep; rw [h]

theorem listOk_idle {s : Regs} (hd : s.dst = .idle)
    (h : Order s.vld s.ll ∧ Links s.vld s.ll s.next s.nextVld s.head s.headVld) : ListOk s := by
  unfold ListOk; rw [hd]; exact h

/-- An allocation is served. -/
theorem inv_alc {c : Cfg} {w : World} {i : In} (hw : 256 ≤ 2 ^ c.w) (v : Inv c w) (p : Polite w i)
    (hr : c.top = 2 ^ c.w ∨ Room c w i) (hs : w.s.ser = .alc) : Inv c (w.next c i) := by
  have e := step_alc c v.fsm i hs
  have sf := step_front c w.s i
  have hd : w.s.dst = .idle := v.fsm.dst (by rw [hs]; decide)
  have hl := v.list
  unfold ListOk at hl
  rw [hd] at hl
  have hz : i.size = w.prev.size := p.steady (by rw [v.busy]; exact v.fsm.txn hs)
  have hal := v.alc
  rw [← hz] at hal
  unfold AlcOk at hal
  have hans : (step c w.s i).ansValid = w.s.preAlc := by rw [sf.ansValid]; rfl
  cases ha : w.s.alc with
  | idle =>
    rw [ha] at hal
    have han : (step c w.s i).ansValid = false := by rw [hans, v.fsm.preAlc, ha]; rfl
    rw [alcStep_idle c _ _ _ ha] at e
    cases hh : w.s.headVld with
    | true =>
      rw [hh, if_pos rfl] at e
      refine inv_of v ?_ ?_ (same_list v p (by rw [e]; rfl) (by rw [e]; rfl) (by rw [e]; rfl) (by rw [e]; rfl) han)
      · rw [e]; exact listOk_idle hd hl
      · rw [e]; trivial
    | false =>
      rw [hh, if_neg (by decide)] at e
      refine inv_of v ?_ ?_ (same_list v p (by rw [e]; rfl) (by rw [e]; rfl) (by rw [e]; rfl) (by rw [e]; rfl) han)
      · rw [e]; exact listOk_idle hd hl
      · rw [e]; exact hh
  | newLl =>
    rw [ha] at hal
    unfold alcStep at e
    rw [ha] at e
    dsimp only at e
    have hno : ∀ n, w.s.vld n = false := by
      intro n
      cases hv : w.s.vld n with
      | false => rfl
      | true => have := hl.2.some n hv; rw [hal] at this; cases this
    have only : ∀ n, put w.s.vld 0 true n = true → n = 0 := by
      intro n h
      rcases put_true h with h | ⟨_, h⟩
      · exact h
      · rw [hno n] at h; cases h
    have hsz : i.size % 2 ^ c.w = i.size := Nat.mod_eq_of_lt (by have := p.size; omega)
    refine inv_of v ?_ (by rw [e]; trivial) ⟨fun _ => 0, fun _ => i.size + 1, ?_, ?_⟩
    · rw [e]
      refine listOk_idle hd ⟨⟨?_, ?_, ?_⟩, ⟨?_, ?_, ?_, ?_⟩⟩
      · intro n h; have := only n h; omega
      · intro n m h1 h2 _; rw [only n h1, only m h2]
      · intro n k h hk; rw [only n h] at hk; exact absurd hk (Nat.not_lt_zero _)
      · intro _; exact ⟨rfl, rfl⟩
      · intro _ _; rfl
      · intro n h h2; rw [only n h] at h2; cases h2
      · intro n h _ m h2; rw [only n h, only m h2]; exact Nat.le_refl _
    · rw [e]
      refine ⟨?_, ?_, ?_, ?_⟩
      · intro n _; have := p.size; exact ⟨by omega, by omega⟩
      · intro n m h1 h2 h3; rw [only n h1, only m h2] at h3; exact absurd h3 (Nat.lt_irrefl _)
      · intro n h; rw [only n h]; exact (Nat.zero_mod _).symm
      · intro n h
        rw [only n h]
        change i.size = (0 + (i.size + 1) - 1) % 2 ^ c.w
        rw [Nat.zero_add, Nat.add_sub_cancel, hsz]
    · obtain ⟨a, len, g, b⟩ := v.geo
      refine book_step (a' := fun _ => 0) v b p ⟨?_, ?_, ?_⟩
      · intro n h; rw [hno n] at h; cases h
      · intro n h; rw [hno n] at h; cases h
      · intro _; rw [e]; exact ⟨hno 0, rfl, rfl, rfl⟩
  | udLl =>
    have han : (step c w.s i).ansValid = false := by rw [hans, v.fsm.preAlc, ha]; rfl
    unfold alcStep at e
    rw [ha] at e
    dsimp only at e
    refine inv_of v ?_ ?_ (same_list v p (by rw [e]; rfl) (by rw [e]; rfl) (by rw [e]; rfl) (by rw [e]; rfl) han)
    · rw [e]; exact listOk_idle hd hl
    · rw [e]
      intro n hn
      have hn : w.s.vld n = true := hn
      refine ⟨?_, rfl, rfl, rfl, rfl⟩
      change (w.s.vld n && !(decide (after w.s n > w.s.fin n))) = _
      rw [hn]; rfl
  | calDiff =>
    have han : (step c w.s i).ansValid = false := by rw [hans, v.fsm.preAlc, ha]; rfl
    rw [ha] at hal
    unfold alcStep at e
    rw [ha] at e
    dsimp only at e
    refine inv_of v ?_ ?_ (same_list v p (by rw [e]; rfl) (by rw [e]; rfl) (by rw [e]; rfl) (by rw [e]; rfl) han)
    · rw [e]; exact listOk_idle hd hl
    · rw [e]
      intro n
      change (if w.s.vld n then
            if w.s.nextVld n then (if w.s.wrap n then w.s.nextWrap n else w.s.nextNo n)
            else (if w.s.wrap n then w.s.headWrap n else w.s.headNo n)
          else 0) = if w.s.vld n then seenGap c w.s n else 0
      cases hv : w.s.vld n with
      | false => rfl
      | true =>
        obtain ⟨x1, x2, x3, x4, x5⟩ := hal n hv
        rw [if_pos rfl, if_pos rfl, x1, x2, x3, x4, x5]
        unfold seenGap after
        by_cases hnv : w.s.nextVld n = true
        · simp only [hnv, if_true]
          by_cases hc : w.s.strt (w.s.next n) > w.s.fin n
          · simp [hc]
          · simp [hc]
        · simp only [hnv]
          by_cases hc : w.s.strt w.s.head > w.s.fin n
          · simp [hc]
          · simp [hc]
  | calSpace =>
    have han : (step c w.s i).ansValid = false := by rw [hans, v.fsm.preAlc, ha]; rfl
    rw [ha] at hal
    unfold alcStep at e
    rw [ha] at e
    dsimp only at e
    refine inv_of v ?_ ?_ (same_list v p (by rw [e]; rfl) (by rw [e]; rfl) (by rw [e]; rfl) (by rw [e]; rfl) han)
    · rw [e]; exact listOk_idle hd hl
    · rw [e]
      refine ⟨fun n => ?_, fun n => rfl⟩
      change decide (w.s.diff n ≥ i.size + 1) = (w.s.vld n && decide (i.size + 1 ≤ seenGap c w.s n))
      rw [hal n]
      cases hv : w.s.vld n with
      | false => simp
      | true => rfl
  | checkAvail =>
    have han : (step c w.s i).ansValid = false := by rw [hans, v.fsm.preAlc, ha]; rfl
    rw [ha] at hal
    unfold alcStep at e
    rw [ha] at e
    dsimp only at e
    refine inv_of v ?_ ?_ (same_list v p (by rw [e]; rfl) (by rw [e]; rfl) (by rw [e]; rfl) (by rw [e]; rfl) han)
    · rw [e]; exact listOk_idle hd hl
    · cases hok : any w.s.avail && any w.s.space with
      | false =>
        rw [hok] at e
        rw [e]
        rw [Bool.and_eq_false_iff] at hok
        rcases hok with hok | hok
        · left
          intro n hn
          have := any_false hok hn
          rw [hal.2 n] at this
          change w.s.vld n = true
          cases hv : w.s.vld n with
          | true => rfl
          | false => rw [hv] at this; cases this
        · right
          intro n hn
          have hn : w.s.vld n = true := hn
          have := any_false hok (hl.1.lt n hn)
          rw [hal.1 n, hn] at this
          change seenGap c w.s n < i.size + 1
          have := of_decide_eq_false this
          omega
      | true =>
        rw [hok] at e
        rw [e]
        rw [Bool.and_eq_true] at hok
        obtain ⟨n, hn, hnd, hna⟩ := lowBit_decode hok.1
        obtain ⟨q, _, hqd, hqs⟩ := lowBit_decode hok.2
        rw [hal.1 q, Bool.and_eq_true] at hqs
        refine ⟨⟨q, hqd, hqs.1, of_decide_eq_true hqs.2⟩, n, hn, hnd, ?_⟩
        rw [hal.2 n] at hna
        change w.s.vld n = false
        cases hv : w.s.vld n with
        | false => rfl
        | true => rw [hv] at hna; cases hna
  | failed =>
    have han : (step c w.s i).ansValid = false := by rw [hans, v.fsm.preAlc, ha]; rfl
    unfold alcStep at e
    rw [ha] at e
    dsimp only at e
    refine inv_of v ?_ ?_ (same_list v p (by rw [e]; rfl) (by rw [e]; rfl) (by rw [e]; rfl) (by rw [e]; rfl) han)
    · rw [e]; exact listOk_idle hd hl
    · rw [e]; trivial
  | calIdx =>
    have han : (step c w.s i).ansValid = false := by rw [hans, v.fsm.preAlc, ha]; rfl
    rw [ha] at hal
    unfold alcStep at e
    rw [ha] at e
    dsimp only at e
    refine inv_of v ?_ ?_ (same_list v p (by rw [e]; rfl) (by rw [e]; rfl) (by rw [e]; rfl) (by rw [e]; rfl) han)
    · rw [e]; exact listOk_idle hd hl
    · rw [e]
      obtain ⟨⟨q, hq1, hq2, hq3⟩, n, hn1, hn2, hn3⟩ := hal
      refine ⟨?_, ?_⟩
      · change w.s.vld ((decode w.s.posVec).getD 0) = true ∧ i.size + 1 ≤ seenGap c w.s ((decode w.s.posVec).getD 0)
        rw [hq1]; exact ⟨hq2, hq3⟩
      · change (decode w.s.newVec).getD 0 < 16 ∧ w.s.vld ((decode w.s.newVec).getD 0) = false
        rw [hn2]; exact ⟨hn1, hn3⟩
  | addNode =>
    have hans1 : (step c w.s i).ansValid = true := by rw [hans, v.fsm.preAlc, ha]; rfl
    rw [ha] at hal
    obtain ⟨⟨hp, hgap⟩, hn, hf⟩ := hal
    obtain ⟨a, len, g, b⟩ := v.geo
    obtain ⟨o, l⟩ := hl
    have hm : 0 < 2 ^ c.w := Nat.two_pow_pos _
    have hroom : i.size + 1 ≤ trueGap c.w (w.s.fin w.s.posIdx) (after w.s w.s.posIdx) := by
      rcases hr with ht | hr
      · rw [seenGap_true ht] at hgap
        · exact hgap
        · rw [g.fin _ hp]; exact Nat.mod_lt _ hm
        · rw [limit_strt g l hp]; exact Nat.mod_lt _ hm
      · exact hr ha
    rw [trueGap_limit o g l hp] at hroom
    have hpp := g.pos _ hp
    have hb := limit_bounds o g l hp
    have npne : w.s.posIdx ≠ w.s.newIdx := fun h => by rw [h, hf] at hp; cases hp
    have hll : Inserted w.s.vld w.s.ll w.s.posIdx w.s.newIdx
        (put (fun k => if w.s.ll k > w.s.ll w.s.posIdx && w.s.vld k then (w.s.ll k + 1) % 16 else w.s.ll k)
          w.s.newIdx ((w.s.ll w.s.posIdx + 1) % 16)) := by
      refine ⟨?_, ?_⟩
      · rw [put_self, Nat.mod_eq_of_lt]
        have := o.le14 hp hn hf
        omega
      · intro k hk
        have kne : k ≠ w.s.newIdx := fun h => by rw [h, hf] at hk; cases hk
        have k14 := o.le14 hk hn hf
        rw [put_ne _ _ kne]
        by_cases h : w.s.ll k > w.s.ll w.s.posIdx
        · simp only [h, hk]
          simp
          omega
        · simp [h]
    have hch : Chained w.s.vld w.s.next w.s.nextVld w.s.posIdx w.s.newIdx
        (if w.s.nextVld w.s.posIdx then put (put w.s.next w.s.newIdx (w.s.next w.s.posIdx)) w.s.posIdx w.s.newIdx
          else put (put w.s.next w.s.newIdx 0) w.s.posIdx w.s.newIdx)
        (if w.s.nextVld w.s.posIdx then put w.s.nextVld w.s.newIdx true
          else put (put w.s.nextVld w.s.newIdx false) w.s.posIdx true) := by
      cases hnv : w.s.nextVld w.s.posIdx with
      | true =>
        refine ⟨⟨?_, ?_⟩, ⟨?_, fun _ => ?_⟩, ?_⟩
        · rw [if_pos rfl, put_self]
        · rw [if_pos rfl, put_ne _ _ npne]; exact hnv
        · rw [if_pos rfl, put_self, hnv]
        · rw [if_pos rfl, put_ne _ _ (Ne.symm npne), put_self]
        · intro k hk kp
          have kne : k ≠ w.s.newIdx := fun h => by rw [h, hf] at hk; cases hk
          rw [if_pos rfl, if_pos rfl, put_ne _ _ kp, put_ne _ _ kne, put_ne _ _ kne]
          exact ⟨rfl, rfl⟩
      | false =>
        refine ⟨⟨?_, ?_⟩, ⟨?_, fun h => by rw [hnv] at h; cases h⟩, ?_⟩
        · rw [if_neg (by decide), put_self]
        · rw [if_neg (by decide), put_self]
        · rw [if_neg (by decide), put_ne _ _ (Ne.symm npne), put_self, hnv]
        · intro k hk kp
          have kne : k ≠ w.s.newIdx := fun h => by rw [h, hf] at hk; cases hk
          rw [if_neg (by decide), if_neg (by decide), put_ne _ _ kp, put_ne _ _ kne, put_ne _ _ kp, put_ne _ _ kne]
          exact ⟨rfl, rfl⟩
    have g' := g.insert o l hp hf hll (z := i.size) (by omega)
    have o' := o.insert hp hn hll
    have l' := l.insert o hp hf hll hch
    unfold alcStep at e
    rw [ha] at e
    dsimp only at e
    have hhv : w.s.headVld = true := l.some _ hp
    refine inv_of v ?_ (by rw [e]; trivial) ⟨put a w.s.newIdx (a w.s.posIdx + len w.s.posIdx), put len w.s.newIdx (i.size + 1), ?_, ?_⟩
    · rw [e]
      refine listOk_idle hd ⟨o', ?_⟩
      change Links _ _ _ _ w.s.head w.s.headVld
      rw [hhv]
      exact l'
    · rw [e]; exact g'
    · refine book_step v b p ⟨?_, ?_, ?_⟩
      · intro k hk
        left
        rw [e]
        have kne : k ≠ w.s.newIdx := fun h => by rw [h, hf] at hk; cases hk
        change put w.s.vld w.s.newIdx true k = true
        rw [put_ne _ _ kne]; exact hk
      · intro k hk
        have kne : k ≠ w.s.newIdx := fun h => by rw [h, hf] at hk; cases hk
        rw [e]
        change put w.s.strt w.s.newIdx _ k = _ ∧ _
        rw [put_ne _ _ kne, put_ne _ _ kne]
        exact ⟨rfl, rfl⟩
      · intro _
        rw [e]
        exact ⟨hf, put_self _ _ _, put_self _ _ _, put_self _ _ _⟩

/-- The place of a node among those left is kept. -/
theorem Geo.subset {m : Nat} {v v' : Nat → Bool} {ll ll' strt fin a len : Nat → Nat}
    (g : Geo m v ll strt fin a len) (h : ∀ n, v' n = true → v n = true)
    (hl : ∀ i j, v' i = true → v' j = true → ll' i < ll' j → ll i < ll j) : Geo m v' ll' strt fin a len :=
  ⟨fun i hi => g.pos i (h i hi), fun i j hi hj e => g.apart i j (h i hi) (h j hj) (hl i j hi hj e),
    fun i hi => g.strt i (h i hi), fun i hi => g.fin i (h i hi)⟩

/-- A release is served. -/
theorem inv_dealc {c : Cfg} {w : World} {i : In} (v : Inv c w) (p : Polite w i)
    (hs : w.s.ser = .dealc) : Inv c (w.next c i) := by
  have e := step_dealc c v.fsm i hs
  have sf := step_front c w.s i
  have ha : w.s.alc = .idle := v.fsm.alc (by rw [hs]; decide)
  have hl := v.list
  unfold ListOk at hl
  have han : (step c w.s i).ansValid = false := by
    rw [sf.ansValid]
    change w.s.preAlc = false
    rw [v.fsm.preAlc, ha]; rfl
  have hact : (step c w.s i).alc = .idle := by
    rw [e]; unfold dealcStep; split <;> exact ha
  have hac : AlcOk c (step c w.s i) i.size := by unfold AlcOk; rw [hact]; trivial
  cases hd : w.s.dst with
  | idle =>
    rw [hd] at hl
    unfold dealcStep at e
    rw [hd] at e
    dsimp only at e
    have hv' : (step c w.s i).vld = fun n => if goes w.s n then false else w.s.vld n := by rw [e]
    have sub : ∀ n, (step c w.s i).vld n = true → w.s.vld n = true := by
      intro n h
      rw [hv'] at h
      dsimp only at h
      split at h
      · cases h
      · exact h
    refine inv_of v ?_ hac ?_
    · rw [e]
      have hor : (fun n => (if goes w.s n then false else w.s.vld n) || goes w.s n) = w.s.vld := by
        funext n
        unfold goes
        cases w.s.vld n <;> cases w.s.descVld n <;> cases w.s.vec (w.s.descIdx n) <;> rfl
      refine ⟨?_, ?_⟩
      · change Order (fun n => (if goes w.s n then false else w.s.vld n) || goes w.s n) w.s.ll
        rw [hor]; exact hl.1
      · intro n h
        change goes w.s n = false
        have h : (if goes w.s n then false else w.s.vld n) = true := h
        cases hg : goes w.s n with
        | false => rfl
        | true => rw [hg] at h; cases h
    · obtain ⟨a, len, g, b⟩ := v.geo
      refine ⟨a, len, ?_, book_step v b p ⟨?_, ?_, ?_⟩⟩
      · have h2 : (step c w.s i).ll = w.s.ll := by rw [e]; rfl
        have h3 : (step c w.s i).strt = w.s.strt := by rw [e]; rfl
        have h4 : (step c w.s i).fin = w.s.fin := by rw [e]; rfl
        rw [h2, h3, h4]
        exact g.subset sub (fun _ _ _ _ h => h)
      · intro n hn
        cases hg : goes w.s n with
        | true => exact Or.inr ⟨hs, hd, rfl⟩
        | false =>
          left
          rw [hv']
          dsimp only
          rw [hg, if_neg (by decide)]
          exact hn
      · intro n _; rw [e]; exact ⟨rfl, rfl⟩
      · intro h; rw [han] at h; cases h
  | calSubVec =>
    rw [hd] at hl
    unfold dealcStep at e
    rw [hd] at e
    dsimp only at e
    refine inv_of v ?_ hac (same_list v p (by rw [e]; rfl) (by rw [e]; rfl) (by rw [e]; rfl) (by rw [e]; rfl) han)
    rw [e]
    refine ⟨hl, fun n hn => ?_⟩
    have hn : w.s.vld n = true := hn
    change (fun m => w.s.vld n && (w.s.logical m && decide (w.s.ll m < w.s.ll n))) = _
    rw [hn]
    rfl
  | calSubcnt =>
    rw [hd] at hl
    unfold dealcStep at e
    rw [hd] at e
    dsimp only at e
    refine inv_of v ?_ hac (same_list v p (by rw [e]; rfl) (by rw [e]; rfl) (by rw [e]; rfl) (by rw [e]; rfl) han)
    rw [e]
    refine ⟨hl.1, fun n hn => ?_⟩
    have hn : w.s.vld n = true := hn
    change (if w.s.vld n then count (w.s.sub n) % 16 else 0) = below w.s.logical w.s.ll (w.s.ll n)
    rw [hn, if_pos rfl, hl.2 n hn]
    apply Nat.mod_eq_of_lt
    have hlt := hl.1.1.lt n (by simp [hn])
    have := count_lt (p := fun m => w.s.logical m && decide (w.s.ll m < w.s.ll n)) hlt (by simp)
    omega
  | calLlIdx =>
    rw [hd] at hl
    unfold dealcStep at e
    rw [hd] at e
    dsimp only at e
    obtain ⟨⟨o, dj⟩, hc⟩ := hl
    have hle : ∀ n, w.s.vld n = true → below w.s.logical w.s.ll (w.s.ll n) ≤ w.s.ll n ∧ w.s.ll n ≤ 15 := by
      intro n hn
      exact ⟨(o.remove (ll' := fun n => w.s.ll n - below w.s.logical w.s.ll (w.s.ll n)) dj (fun _ _ => rfl)).2.2 n hn,
        o.le15 (by simp [hn])⟩
    have hll : ∀ n, w.s.vld n = true →
        (step c w.s i).ll n = w.s.ll n - below w.s.logical w.s.ll (w.s.ll n) := by
      intro n hn
      rw [e]
      change (if w.s.vld n then (w.s.ll n + 16 - w.s.subcnt n) % 16 else 0) = _
      rw [hn, if_pos rfl, hc n hn]
      have := hle n hn
      have : w.s.ll n + 16 - below w.s.logical w.s.ll (w.s.ll n) =
        (w.s.ll n - below w.s.logical w.s.ll (w.s.ll n)) + 16 := by omega
      rw [this, Nat.add_mod_right]
      apply Nat.mod_eq_of_lt
      omega
    have rem := o.remove dj hll
    have h1 : (step c w.s i).vld = w.s.vld := by rw [e]; rfl
    have h3 : (step c w.s i).strt = w.s.strt := by rw [e]; rfl
    have h4 : (step c w.s i).fin = w.s.fin := by rw [e]; rfl
    have hdst : (step c w.s i).dst = .calNextVec := by rw [e]
    refine inv_of v ?_ hac ?_
    · unfold ListOk
      rw [hdst, h1]
      exact rem.1
    · obtain ⟨a, len, g, b⟩ := v.geo
      refine ⟨a, len, ?_, book_step v b p ⟨?_, ?_, ?_⟩⟩
      · rw [h1, h3, h4]
        exact g.subset (fun _ h => h) (fun n m hn hm h => (rem.2.1 n m hn hm).mp h)
      · intro n hn; left; rw [h1]; exact hn
      · intro n _; rw [h3]; exact ⟨rfl, rfl⟩
      · intro h; rw [han] at h; cases h
  | calNextVec =>
    rw [hd] at hl
    unfold dealcStep at e
    rw [hd] at e
    dsimp only at e
    refine inv_of v ?_ hac (same_list v p (by rw [e]; rfl) (by rw [e]; rfl) (by rw [e]; rfl) (by rw [e]; rfl) han)
    rw [e]
    refine ⟨hl, fun n => rfl, fun n hn m => ?_⟩
    have hn : w.s.vld n = true := hn
    change (w.s.vld n && (decide (w.s.ll n ≤ 14) && (w.s.ll n + 1 == w.s.ll m) && w.s.vld m)) = _
    rw [hn]
    rfl
  | updateLl =>
    rw [hd] at hl
    unfold dealcStep at e
    rw [hd] at e
    dsimp only at e
    refine inv_of v ?_ hac (same_list v p (by rw [e]; rfl) (by rw [e]; rfl) (by rw [e]; rfl) (by rw [e]; rfl) han)
    rw [e]
    obtain ⟨o, hh, hnx⟩ := hl
    refine ⟨o, ⟨?_, ?_, ?_, ?_⟩⟩
    · -- the head
      intro h
      change w.s.vld ((decode w.s.headVec).getD 0) = true ∧ w.s.ll ((decode w.s.headVec).getD 0) = 0
      have h : (decode w.s.headVec).isSome = true := h
      by_cases hz : ∃ n, w.s.vld n = true ∧ w.s.ll n = 0
      · obtain ⟨n, hn, hn0⟩ := hz
        rw [decode_one (a := n) (o.lt n hn)]
        · exact ⟨hn, hn0⟩
        · intro j _
          rw [hh j]
          simp
          constructor
          · rintro ⟨x, y⟩; exact o.inj j n y hn (by omega)
          · rintro rfl; exact ⟨hn0, hn⟩
      · rw [decode_none] at h
        · cases h
        · intro j _
          rw [hh j]
          cases hv : w.s.vld j with
          | false => simp
          | true =>
            have : w.s.ll j ≠ 0 := fun h0 => hz ⟨j, hv, h0⟩
            simp [this]
    · intro n hn
      have hn : w.s.vld n = true := hn
      change (decode w.s.headVec).isSome = true
      have : ∃ k, w.s.vld k = true ∧ w.s.ll k = 0 := by
        by_cases h0 : w.s.ll n = 0
        · exact ⟨n, hn, h0⟩
        · exact o.down n 0 hn (by omega)
      obtain ⟨k, hk, hk0⟩ := this
      rw [decode_one (a := k) (o.lt k hk)]
      · rfl
      · intro j _
        rw [hh j]
        simp
        constructor
        · rintro ⟨x, y⟩; exact o.inj j k y hk (by omega)
        · rintro rfl; exact ⟨hk0, hk⟩
    · intro n hn h
      have hn : w.s.vld n = true := hn
      have h : (w.s.vld n && (decode (w.s.nextVec n)).isSome) = true := h
      change w.s.vld (if w.s.vld n then (decode (w.s.nextVec n)).getD 0 else 0) = true ∧
        w.s.ll (if w.s.vld n then (decode (w.s.nextVec n)).getD 0 else 0) = w.s.ll n + 1
      rw [hn, if_pos rfl]
      rw [hn] at h
      by_cases hz : ∃ m, w.s.vld m = true ∧ w.s.ll m = w.s.ll n + 1
      · obtain ⟨m, hm, hm1⟩ := hz
        have := o.le15 hm
        rw [decode_one (a := m) (o.lt m hm)]
        · exact ⟨hm, hm1⟩
        · intro j _
          rw [hnx n hn j]
          simp
          constructor
          · rintro ⟨⟨_, x⟩, y⟩; exact o.inj j m y hm (by omega)
          · rintro rfl; exact ⟨⟨by omega, by omega⟩, hm⟩
      · rw [decode_none] at h
        · cases h
        · intro j _
          rw [hnx n hn j]
          cases hv : w.s.vld j with
          | false => simp
          | true =>
            have : ¬ w.s.ll n + 1 = w.s.ll j := fun h0 => hz ⟨j, hv, h0.symm⟩
            simp [this]
    · intro n hn h m hm
      have hn : w.s.vld n = true := hn
      have hm : w.s.vld m = true := hm
      have h : (w.s.vld n && (decode (w.s.nextVec n)).isSome) = false := h
      change w.s.ll m ≤ w.s.ll n
      by_cases hlt : w.s.ll n < w.s.ll m
      · exfalso
        have : ∃ k, w.s.vld k = true ∧ w.s.ll k = w.s.ll n + 1 := by
          by_cases h0 : w.s.ll m = w.s.ll n + 1
          · exact ⟨m, hm, h0⟩
          · exact o.down m _ hm (by omega)
        obtain ⟨k, hk, hk1⟩ := this
        have := o.le15 hk
        rw [hn, decode_one (a := k) (o.lt k hk)] at h
        · cases h
        · intro j _
          rw [hnx n hn j]
          simp
          constructor
          · rintro ⟨⟨_, x⟩, y⟩; exact o.inj j k y hk (by omega)
          · rintro rfl; exact ⟨⟨by omega, by omega⟩, hk⟩
      · omega

theorem inv_next {c : Cfg} {w : World} {i : In} (hw : 256 ≤ 2 ^ c.w) (v : Inv c w) (p : Polite w i)
    (hr : c.top = 2 ^ c.w ∨ Room c w i) : Inv c (w.next c i) := by
  by_cases h1 : w.s.ser = .alc
  · exact inv_alc hw v p hr h1
  · by_cases h2 : w.s.ser = .dealc
    · exact inv_dealc v p h2
    · exact inv_idle v p h1 h2

end Verif.RtlRam
