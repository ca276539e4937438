import Verif.Qdma.Lemmas

/-! Helper lemmas: one doorbell from start to end. -/

namespace Verif.Qdma

/-- The state with one consumer index, the memories and the log replaced. -/
def S.upd (s : S) (q : Nat) (h2c : Bool) (i : Nat) (m : Mems) (l : List Ev) : S :=
  { s.setCtx q (hwSel h2c) (setF (s.ctx q (hwSel h2c)) 0 16 i) with
    host := m.host, card := m.card, log := l }

theorem upd_ctx_ne (s : S) (q : Nat) (h2c : Bool) (i : Nat) (m : Mems) (l : List Ev) (a b : Nat)
    (h : ¬ (a = q ∧ b = hwSel h2c)) : (s.upd q h2c i m l).ctx a b = s.ctx a b :=
  setCtx_ne _ _ _ _ _ _ h

theorem upd_sw (s : S) (q : Nat) (h2c : Bool) (i : Nat) (m : Mems) (l : List Ev) (a : Nat) (h : Bool) :
    (s.upd q h2c i m l).ctx a (swSel h) = s.ctx a (swSel h) :=
  upd_ctx_ne _ _ _ _ _ _ _ _ fun x => swSel_ne _ _ x.2

theorem upd_cidx (s : S) (q : Nat) (h2c : Bool) (i : Nat) (m : Mems) (l : List Ev) :
    (s.upd q h2c i m l).cidx q h2c = i % 65536 := by
  unfold S.cidx S.upd
  simp only [setCtx_same]
  exact getF_setF_same _ _ _ _ (by decide)

theorem upd_upd (s : S) (q : Nat) (h2c : Bool) (i j : Nat) (m n : Mems) (l k : List Ev) :
    (s.upd q h2c i m l).upd q h2c j n k = s.upd q h2c j n k := by
  unfold S.upd S.setCtx
  simp only [and_self, if_true]
  congr 1
  funext a b
  by_cases h : a = q ∧ b = hwSel h2c
  · rw [if_pos h, if_pos h, setF_setF _ _ _ _ _ (by decide)]
  · rw [if_neg h, if_neg h, if_neg h]

theorem upd_self (s : S) (q : Nat) (h2c : Bool) :
    s.upd q h2c (s.cidx q h2c) ⟨s.host, s.card⟩ s.log = s := by
  unfold S.upd S.setCtx S.cidx
  rw [setF_getF _ _ _ (by decide)]
  cases s
  simp only
  congr 1
  funext a b
  by_cases h : a = q ∧ b = hwSel h2c
  · rw [if_pos h, h.1, h.2]
  · rw [if_neg h]

theorem range_take (m : Mem) (a n k : Nat) (h : k ≤ n) : (m.range a n).take k = m.range a k := by
  rw [show n = k + (n - k) by omega, ← range_append, List.take_append_of_le_length (by simp)]
  rw [List.take_of_length_le (by simp)]

theorem range_drop (m : Mem) (a n k : Nat) (h : k ≤ n) :
    (m.range a n).drop k = m.range (a + k) (n - k) := by
  rw [show n = k + (n - k) by omega, ← range_append,
    List.drop_append_of_le_length (by simp), List.drop_of_length_le (by simp)]
  simp

theorem parse_range (m : Mem) (a n : Nat) (h : 24 ≤ n) :
    parse (m.range a n) = .ok ((descAt m a).src, (descAt m a).len, (descAt m a).dst) := by
  unfold parse descAt
  rw [if_neg (by rw [Mem.range_length]; omega), range_take _ _ _ _ (by omega),
    range_drop _ _ _ _ (by omega), range_drop _ _ _ _ (by omega),
    range_take _ _ _ _ (by omega), range_take _ _ _ _ (by omega)]

theorem doMmDma_eq (env : Env) (s s' : S) (d : Desc) (h2c : Bool) (hp : d.Plain)
    (h : doMmDma env s d.src d.dst d.len h2c = .ok s') :
    s' = { s with host := (d.exec h2c ⟨s.host, s.card⟩).host,
                  card := (d.exec h2c ⟨s.host, s.card⟩).card } := by
  obtain ⟨h4, h1, h2⟩ := hp
  have e : 4 * ((d.len + 3) / 4) = d.len := by omega
  unfold doMmDma at h
  cases h2c with
  | true =>
    simp only [if_true] at h
    cases hc : copy (env.hostOk .read · 4) (env.cardOk .write · 4) s.host ((d.len + 3) / 4)
      d.src d.dst s.card with
    | error e => rw [hc] at h; cases h
    | ok m =>
      rw [hc] at h
      injection h with h
      rw [← h, copy_eq _ _ _ _ _ _ _ _ (by omega) (by omega) hc, e]
      rfl
  | false =>
    simp only [Bool.false_eq_true, if_false] at h
    cases hc : copy (env.cardOk .read · 4) (env.hostOk .write · 4) s.card ((d.len + 3) / 4)
      d.src d.dst s.host with
    | error e => rw [hc] at h; cases h
    | ok m =>
      rw [hc] at h
      injection h with h
      rw [← h, copy_eq _ _ _ _ _ _ _ _ (by omega) (by omega) hc, e]
      rfl

theorem doMmDma_frame (env : Env) (s s' : S) (a b n : Nat) (h2c : Bool)
    (h : doMmDma env s a b n h2c = .ok s') :
    s' = { s with host := s'.host, card := s'.card } := by
  unfold doMmDma at h
  cases h2c with
  | true =>
    simp only [if_true] at h
    split at h
    · injection h with h; rw [← h]
    · cases h
  | false =>
    simp only [Bool.false_eq_true, if_false] at h
    split at h
    · injection h with h; rw [← h]
    · cases h

theorem doMmDma_ok (env : Env) (s : S) (a b n : Nat) (h2c : Bool)
    (hh : ∀ c a n, env.hostOk c a n = true) (hc : ∀ c a n, env.cardOk c a n = true) :
    ∃ s', doMmDma env s a b n h2c = .ok s' := by
  unfold doMmDma
  cases h2c with
  | true =>
    simp only [if_true]
    obtain ⟨m, hm⟩ := copy_ok (env.hostOk .read · 4) (env.cardOk .write · 4) s.host
      (fun _ => hh _ _ _) (fun _ => hc _ _ _) ((n + 3) / 4) a b s.card
    rw [hm]; exact ⟨_, rfl⟩
  | false =>
    simp only [Bool.false_eq_true, if_false]
    obtain ⟨m, hm⟩ := copy_ok (env.cardOk .read · 4) (env.hostOk .write · 4) s.card
      (fun _ => hc _ _ _) (fun _ => hh _ _ _) ((n + 3) / 4) a b s.host
    rw [hm]; exact ⟨_, rfl⟩

theorem bind_ok {α β : Type} {x : Except Fault α} {f : α → Except Fault β} {b : β}
    (h : (x >>= f) = .ok b) : ∃ a, x = .ok a ∧ f a = .ok b := by
  cases x with
  | error e => cases h
  | ok a => exact ⟨a, rfl, h⟩

theorem descSize_mul (s : S) (q : Nat) (h2c : Bool) : 4 * (s.descSize q h2c / 4) = s.descSize q h2c := by
  have : s.descCode q h2c < 4 := getF_lt _ _ _
  unfold S.descSize
  match s.descCode q h2c, this with
  | 0, _ => rfl
  | 1, _ => rfl
  | 2, _ => rfl
  | 3, _ => rfl
  | k + 4, h => omega

theorem one_inv (env : Env) (q : Nat) (h2c : Bool) (s s' : S) (h : one env q h2c s = .ok s') :
    ∃ m, s' = s.upd q h2c (nextIdx (s.ringSize q h2c) (s.cidx q h2c)) m
        (s.log ++ [.desc q h2c (s.cidx q h2c)]) ∧
      (24 ≤ s.descSize q h2c → s.base q h2c + s.descSize q h2c * (s.cidx q h2c + 1) ≤ 2 ^ 64 →
        (descAt s.host (s.base q h2c + s.descSize q h2c * s.cidx q h2c)).Plain →
        m = (descAt s.host (s.base q h2c + s.descSize q h2c * s.cidx q h2c)).exec h2c
          ⟨s.host, s.card⟩) := by
  unfold one at h
  obtain ⟨d, hd, h⟩ := bind_ok h
  obtain ⟨p, hp, h⟩ := bind_ok h
  obtain ⟨s1, h1, h⟩ := bind_ok h
  injection h with h
  have hf := doMmDma_frame _ _ _ _ _ _ _ h1
  refine ⟨⟨s1.host, s1.card⟩, ?_, ?_⟩
  · rw [← h, hf]
    rfl
  · intro hs hb hpl
    have ha : s.descAddr q h2c (s.cidx q h2c) = s.base q h2c + s.descSize q h2c * s.cidx q h2c := by
      unfold S.descAddr
      rw [w64_of_lt]
      have : s.descSize q h2c * (s.cidx q h2c + 1) =
        s.descSize q h2c * s.cidx q h2c + s.descSize q h2c := Nat.mul_succ _ _
      omega
    rw [ha] at hd
    have := fetch_eq _ _ _ _ _ (by
      rw [descSize_mul]
      have : s.descSize q h2c * (s.cidx q h2c + 1) =
        s.descSize q h2c * s.cidx q h2c + s.descSize q h2c := Nat.mul_succ _ _
      omega) hd
    rw [descSize_mul] at this
    rw [this, parse_range _ _ _ hs] at hp
    injection hp with hp
    rw [← hp] at h1
    have := doMmDma_eq _ _ _ (descAt s.host (s.base q h2c + s.descSize q h2c * s.cidx q h2c)) _ hpl h1
    rw [this]

theorem one_ok (env : Env) (q : Nat) (h2c : Bool) (s : S) (hs : 24 ≤ s.descSize q h2c)
    (hh : ∀ c a n, env.hostOk c a n = true) (hc : ∀ c a n, env.cardOk c a n = true) :
    ∃ s', one env q h2c s = .ok s' := by
  unfold one
  obtain ⟨d, hd⟩ := fetch_ok env hh s.host (s.descSize q h2c / 4) (s.descAddr q h2c (s.cidx q h2c))
  have hl := fetch_length _ _ _ _ _ hd
  rw [descSize_mul] at hl
  have hp : ∃ p, parse d = .ok p := by
    unfold parse
    rw [if_neg (by omega)]
    exact ⟨_, rfl⟩
  obtain ⟨p, hp⟩ := hp
  obtain ⟨s1, h1⟩ := doMmDma_ok env s p.1 p.2.2 p.2.1 h2c hh hc
  exact ⟨_, by
    show (fetch env s.host (s.descSize q h2c / 4) (s.descAddr q h2c (s.cidx q h2c)) >>= _) = _
    rw [hd]
    show (parse d >>= _) = _
    rw [hp]
    show (doMmDma env s p.1 p.2.2 p.2.1 h2c >>= _) = _
    rw [h1]
    rfl⟩

/-! ### Walking the ring -/

theorem ringWalk_self (n c : Nat) (h : c < n) : ringWalk n c c = [] := by
  unfold ringWalk
  rw [show c + n - c = n by omega, Nat.mod_self]; rfl

theorem nextIdx_eq (n c : Nat) (hc : c < n) (hn : n ≤ 65536) : nextIdx n c = (c + 1) % n := by
  unfold nextIdx
  by_cases h : c = n - 1
  · rw [if_pos h, show c + 1 = n by omega, Nat.mod_self]
  · rw [if_neg h, Nat.mod_eq_of_lt (by omega), Nat.mod_eq_of_lt (by omega)]

theorem nextIdx_lt (n c : Nat) (hc : c < n) (hn : n ≤ 65536) : nextIdx n c < n := by
  rw [nextIdx_eq n c hc hn]; exact Nat.mod_lt _ (by omega)

theorem count_eq (n c p : Nat) (hc : c < n) (hp : p < n) :
    (p + n - c) % n = if c ≤ p then p - c else p + n - c := by
  by_cases h : c ≤ p
  · rw [if_pos h, show p + n - c = (p - c) + n by omega, Nat.add_mod_right, Nat.mod_eq_of_lt (by omega)]
  · rw [if_neg h, Nat.mod_eq_of_lt (by omega)]

theorem count_step (n c p : Nat) (hc : c < n) (hp : p < n) (hne : c ≠ p) (hn : n ≤ 65536) :
    (p + n - c) % n = (p + n - nextIdx n c) % n + 1 := by
  rw [count_eq n c p hc hp, count_eq n _ p (nextIdx_lt n c hc hn) hp, nextIdx_eq n c hc hn]
  by_cases h : c + 1 = n
  · rw [h, Nat.mod_self, if_neg (by omega), if_pos (by omega)]; omega
  · rw [Nat.mod_eq_of_lt (by omega)]
    by_cases h2 : c ≤ p
    · rw [if_pos h2, if_pos (by omega)]; omega
    · rw [if_neg h2, if_neg (by omega)]; omega

theorem ringWalk_step (n c p : Nat) (hc : c < n) (hp : p < n) (hne : c ≠ p) (hn : n ≤ 65536) :
    ringWalk n c p = c :: ringWalk n (nextIdx n c) p := by
  unfold ringWalk
  rw [count_step n c p hc hp hne hn, List.range_succ_eq_map, List.map_cons, List.map_map]
  rw [Nat.add_zero, Nat.mod_eq_of_lt hc]
  congr 1
  apply List.map_congr_left
  intro k _
  simp only [Function.comp]
  rw [nextIdx_eq n c hc hn, Nat.mod_add_mod]
  congr 1; omega

/-- Steps left until the consumer index meets the producer index. -/
def stepsLeft (n i p : Nat) : Nat := if i < n then (p + n - i) % n else 65536 - i + p

theorem stepsLeft_step (n i p : Nat) (hi : i < 65536) (hp : p < n) (hne : i ≠ p) (hn : n ≤ 65536) :
    stepsLeft n i p = stepsLeft n (nextIdx n i) p + 1 := by
  unfold stepsLeft
  by_cases h : i < n
  · rw [if_pos h, if_pos (nextIdx_lt n i h hn), count_step n i p h hp hne hn]
  · have e : nextIdx n i = (i + 1) % 65536 := by
      unfold nextIdx
      rw [if_neg (by omega)]
    rw [if_neg h, e]
    by_cases h2 : i + 1 < 65536
    · rw [Nat.mod_eq_of_lt h2, if_neg (by omega)]; omega
    · rw [show i + 1 = 65536 by omega, Nat.mod_self, if_pos (by omega), Nat.sub_zero,
        Nat.add_mod_right, Nat.mod_eq_of_lt hp]
      omega

theorem stepsLeft_lt (n i p : Nat) (hi : i < 65536) (hp : p < n) (hn : n ≤ 65536) :
    stepsLeft n i p < 65536 := by
  unfold stepsLeft
  by_cases h : i < n
  · rw [if_pos h]
    have := Nat.mod_lt (p + n - i) (show n > 0 by omega)
    omega
  · rw [if_neg h]; omega

theorem nextIdx_lt' (n i : Nat) : nextIdx n i < 65536 := by
  unfold nextIdx
  split
  · decide
  · exact Nat.mod_lt _ (by decide)

theorem upd_fields (s : S) (q : Nat) (h2c : Bool) (i : Nat) (m : Mems) (l : List Ev) (a : Nat) (h : Bool) :
    (s.upd q h2c i m l).pidx a h = s.pidx a h ∧ (s.upd q h2c i m l).ringSize a h = s.ringSize a h ∧
    (s.upd q h2c i m l).base a h = s.base a h ∧ (s.upd q h2c i m l).descSize a h = s.descSize a h := by
  unfold S.pidx S.ringSize S.base S.descSize S.ringCode S.descCode
  rw [upd_sw]
  exact ⟨rfl, rfl, rfl, rfl⟩

theorem loop_inv (v : Ver) (env : Env) (q : Nat) (h2c : Bool) (p n : Nat) (hp : p < n) (hn : n ≤ 65536) :
    ∀ (f : Nat) (s s' : S), s.ringSize q h2c = n → s.pidx q h2c = p → s.cidx q h2c ≠ p →
    stepsLeft n (s.cidx q h2c) p ≤ f → loop v env q h2c p f s = .ok s' →
    ∃ (is : List Nat) (m : Mems),
      finish v env q h2c p (s.upd q h2c p m (s.log ++ is.map (.desc q h2c ·))) = .ok s' ∧
      (s.cidx q h2c < n → is = ringWalk n (s.cidx q h2c) p) ∧
      (s.cidx q h2c < n → 24 ≤ s.descSize q h2c → s.base q h2c + s.descSize q h2c * n ≤ 2 ^ 64 →
        ∀ m', execAll h2c (s.base q h2c) (s.descSize q h2c) is ⟨s.host, s.card⟩ = some m' →
          m = m') := by
  intro f
  induction f with
  | zero =>
    intro s s' hr hpi hne hf _
    have := stepsLeft_step n _ p (getF_lt (s.ctx q (hwSel h2c)) 0 16) hp hne hn
    unfold S.cidx at hf
    omega
  | succ f ih =>
    intro s s' hr hpi hne hf h
    have hci : s.cidx q h2c < 65536 := getF_lt _ 0 16
    simp only [loop] at h
    rw [if_neg (by rw [hpi]; exact fun x => hne x.symm)] at h
    cases ho : one env q h2c s with
    | error e => rw [ho] at h; cases h
    | ok s1 =>
      rw [ho] at h
      simp only at h
      obtain ⟨m, e1, hm⟩ := one_inv _ _ _ _ _ ho
      rw [hr] at e1
      have hst := stepsLeft_step n _ p hci hp hne hn
      have hnl := nextIdx_lt' n (s.cidx q h2c)
      obtain ⟨g1, g2, g3, g4⟩ := upd_fields s q h2c (nextIdx n (s.cidx q h2c)) m
        (s.log ++ [.desc q h2c (s.cidx q h2c)]) q h2c
      have gc := upd_cidx s q h2c (nextIdx n (s.cidx q h2c)) m
        (s.log ++ [.desc q h2c (s.cidx q h2c)])
      rw [Nat.mod_eq_of_lt hnl] at gc
      rw [← e1] at g1 g2 g3 g4 gc
      have hone : ∀ (hc : s.cidx q h2c < n) (h24 : 24 ≤ s.descSize q h2c)
          (hb : s.base q h2c + s.descSize q h2c * n ≤ 2 ^ 64)
          (hpl : (descAt s.host (s.base q h2c + s.descSize q h2c * s.cidx q h2c)).Plain),
          m = (descAt s.host (s.base q h2c + s.descSize q h2c * s.cidx q h2c)).exec h2c
            ⟨s.host, s.card⟩ := by
        intro hc h24 hb hpl
        apply hm h24 _ hpl
        have := Nat.mul_le_mul_left (s.descSize q h2c) (show s.cidx q h2c + 1 ≤ n by omega)
        omega
      by_cases c : s1.pidx q h2c = s1.cidx q h2c
      · rw [if_pos c] at h
        rw [g1, gc, hpi] at c
        refine ⟨[s.cidx q h2c], m, ?_, ?_, ?_⟩
        · rw [e1, ← c] at h
          exact h
        · intro hc
          rw [ringWalk_step n _ p hc hp hne hn, ← c, ringWalk_self n p hp]
        · intro hc h24 hb m' hm'
          simp only [execAll] at hm'
          split at hm'
          · next hpl =>
            injection hm' with hm'
            rw [← hm']
            exact hone hc h24 hb hpl
          · cases hm'
      · rw [if_neg c] at h
        rw [g1, gc, hpi] at c
        obtain ⟨is, m2, k1, k2, k3⟩ := ih s1 s' (by rw [g2, hr]) (by rw [g1, hpi])
          (by rw [gc]; exact fun x => c x.symm) (by rw [gc]; omega) h
        refine ⟨s.cidx q h2c :: is, m2, ?_, ?_, ?_⟩
        · rw [e1, upd_upd] at k1
          rw [List.map_cons]
          have : s.log ++ Ev.desc q h2c (s.cidx q h2c) :: is.map (.desc q h2c ·) =
            (s.log ++ [Ev.desc q h2c (s.cidx q h2c)]) ++ is.map (.desc q h2c ·) := by simp
          rw [this]
          exact k1
        · intro hc
          rw [ringWalk_step n _ p hc hp hne hn, k2 (by rw [gc]; exact nextIdx_lt n _ hc hn), gc]
        · intro hc h24 hb m' hm'
          simp only [execAll] at hm'
          split at hm'
          · next hpl =>
            have hx := hone hc h24 hb hpl
            rw [← hx] at hm'
            rw [g3, g4] at k3
            apply k3 (by rw [gc]; exact nextIdx_lt n _ hc hn) h24 hb m'
            rw [e1]
            exact hm'
          · cases hm'

theorem loop_ok (v : Ver) (env : Env) (q : Nat) (h2c : Bool) (p n : Nat) (hp : p < n) (hn : n ≤ 65536)
    (hh : ∀ c a n, env.hostOk c a n = true) (hc : ∀ c a n, env.cardOk c a n = true) :
    ∀ (f : Nat) (s : S), s.ringSize q h2c = n → s.pidx q h2c = p → s.cidx q h2c ≠ p →
    24 ≤ s.descSize q h2c →
    stepsLeft n (s.cidx q h2c) p ≤ f →
    (∀ m l, ∃ s', finish v env q h2c p (s.upd q h2c p m l) = .ok s') →
    ∃ s', loop v env q h2c p f s = .ok s' := by
  intro f
  induction f with
  | zero =>
    intro s hr hpi hne _ hf _
    have := stepsLeft_step n _ p (getF_lt (s.ctx q (hwSel h2c)) 0 16) hp hne hn
    unfold S.cidx at hf
    omega
  | succ f ih =>
    intro s hr hpi hne h24 hf hfin
    have hci : s.cidx q h2c < 65536 := getF_lt _ 0 16
    simp only [loop]
    rw [if_neg (by rw [hpi]; exact fun x => hne x.symm)]
    obtain ⟨s1, ho⟩ := one_ok env q h2c s h24 hh hc
    rw [ho]
    simp only
    obtain ⟨m, e1, -⟩ := one_inv _ _ _ _ _ ho
    rw [hr] at e1
    have hst := stepsLeft_step n _ p hci hp hne hn
    have hnl := nextIdx_lt' n (s.cidx q h2c)
    obtain ⟨g1, g2, g3, g4⟩ := upd_fields s q h2c (nextIdx n (s.cidx q h2c)) m
      (s.log ++ [.desc q h2c (s.cidx q h2c)]) q h2c
    have gc := upd_cidx s q h2c (nextIdx n (s.cidx q h2c)) m
      (s.log ++ [.desc q h2c (s.cidx q h2c)])
    rw [Nat.mod_eq_of_lt hnl] at gc
    rw [← e1] at g1 g2 g3 g4 gc
    by_cases c : s1.pidx q h2c = s1.cidx q h2c
    · rw [if_pos c]
      rw [g1, gc, hpi] at c
      rw [e1, ← c]
      exact hfin _ _
    · rw [if_neg c]
      rw [g1, gc, hpi] at c
      apply ih s1 (by rw [g2, hr]) (by rw [g1, hpi]) (by rw [gc]; exact fun x => c x.symm)
        (by rw [g4]; exact h24) (by rw [gc]; omega)
      intro m' l'
      rw [e1, upd_upd]
      exact hfin _ _

/-! ### The end of a batch -/

/-- Not the execution of a descriptor. -/
def Ev.notDesc : Ev → Bool
  | .desc .. => false
  | _ => true

/-- What the actions at the end of a batch leave alone. -/
structure Tail (s s' : S) : Prop where
  regs : s'.regs = s.regs
  axi : s'.axi = s.axi
  card : s'.card = s.card
  ctx : ∀ a b, b ≠ intSel → s'.ctx a b = s.ctx a b
  log : ∃ t, s'.log = s.log ++ t ∧ ∀ e ∈ t, e.notDesc = true

theorem Tail.refl (s : S) : Tail s s :=
  ⟨rfl, rfl, rfl, fun _ _ _ => rfl, [], (List.append_nil _).symm, fun _ h => by cases h⟩

theorem Tail.trans {a b c : S} (h : Tail a b) (k : Tail b c) : Tail a c := by
  obtain ⟨t, ht, hn⟩ := h.log
  obtain ⟨u, hu, hm⟩ := k.log
  refine ⟨k.regs.trans h.regs, k.axi.trans h.axi, k.card.trans h.card,
    fun x y hy => (k.ctx x y hy).trans (h.ctx x y hy), t ++ u, by rw [hu, ht, List.append_assoc], ?_⟩
  intro e he
  rcases List.mem_append.1 he with he | he
  · exact hn e he
  · exact hm e he

theorem Tail.setInt (s : S) (r : Nat) (c : Ctx) : Tail s (s.setCtx r intSel c) :=
  ⟨rfl, rfl, rfl, fun _ _ h => setCtx_ne _ _ _ _ _ _ fun x => h x.2, [], (List.append_nil _).symm,
    fun _ h => by cases h⟩

theorem Tail.emit (s : S) (e : Ev) (h : e.notDesc = true) : Tail s (s.emit e) :=
  ⟨rfl, rfl, rfl, fun _ _ _ => rfl, [e], rfl, fun x hx => by
    rw [List.mem_singleton] at hx; rw [hx]; exact h⟩

theorem Tail.host (s : S) (m : Mem) : Tail s { s with host := m } :=
  ⟨rfl, rfl, rfl, fun _ _ _ => rfl, [], (List.append_nil _).symm, fun _ h => by cases h⟩

theorem Tail.slots (s : S) (f : Nat → Nat) : Tail s { s with slot := f } :=
  ⟨rfl, rfl, rfl, fun _ _ _ => rfl, [], (List.append_nil _).symm, fun _ h => by cases h⟩

theorem notify_tail (i : Nat) (s s' : S) (h : notify i s = .ok s') : Tail s s' := by
  unfold notify at h
  split at h
  · injection h with h; rw [← h]; exact Tail.emit _ _ rfl
  · cases h

theorem writeEntry_tail (v : Ver) (env : Env) (r : Nat) (e : BitVec 64) (s s' : S)
    (h : writeEntry v env r e s = .ok s') : Tail s s' := by
  unfold writeEntry at h
  simp only at h
  split at h
  · generalize w64 (w64 (icBaddr v (s.ctx r intSel) * 4096) + 8 * s.slot r) = a at h
    have base : Tail s ((s.storeHost a (leEnc 8 e.toNat)).emit (.entry r a e)) :=
      (Tail.host _ _).trans (Tail.emit _ _ rfl)
    split at h
    · injection h with h
      rw [← h]
      exact (base.trans (Tail.slots _ _)).trans (Tail.setInt _ _ _)
    · injection h with h
      rw [← h]
      exact base.trans (Tail.slots _ _)
  · cases h

theorem aggregate_tail (v : Ver) (env : Env) (q : Nat) (h2c : Bool) (p : Nat) (s s' : S)
    (h : aggregate v env q h2c p s = .ok s') : Tail s s' := by
  unfold aggregate at h
  simp only at h
  split at h
  · cases h
  · split at h
    · cases h
    · obtain ⟨s1, h1, h2⟩ := bind_ok h
      exact ((Tail.setInt _ _ _).trans (writeEntry_tail _ _ _ _ _ _ h1)).trans (notify_tail _ _ _ h2)

theorem writeStatus_tail (env : Env) (q : Nat) (h2c : Bool) (p : Nat) (s s' : S)
    (h : writeStatus env q h2c p s = .ok s') : Tail s s' := by
  unfold writeStatus at h
  split at h
  · cases h
  · split at h
    · injection h with h
      rw [← h]
      exact (Tail.host _ _).trans (Tail.emit _ _ rfl)
    · cases h

theorem signal_tail (v : Ver) (env : Env) (q : Nat) (h2c : Bool) (p : Nat) (s s' : S)
    (h : signal v env q h2c p s = .ok s') : Tail s s' := by
  unfold signal at h
  split at h
  · injection h with h; rw [← h]; exact Tail.refl _
  · split at h
    · exact aggregate_tail _ _ _ _ _ _ _ h
    · exact notify_tail _ _ _ h

theorem finish_tail (v : Ver) (env : Env) (q : Nat) (h2c : Bool) (p : Nat) (s s' : S)
    (h : finish v env q h2c p s = .ok s') : Tail s s' := by
  unfold finish at h
  split at h
  · split at h
    · next s1 h1 => exact (writeStatus_tail _ _ _ _ _ _ h1).trans (signal_tail _ _ _ _ _ _ _ h)
    · cases h
  · exact signal_tail _ _ _ _ _ _ _ h

theorem Tail.cidx {s s' : S} (h : Tail s s') (q : Nat) (h2c : Bool) : s'.cidx q h2c = s.cidx q h2c := by
  unfold S.cidx; rw [h.ctx _ _ (hwSel_ne_int _)]

theorem Tail.sw {s s' : S} (h : Tail s s') (q : Nat) (h2c : Bool) :
    s'.ctx q (swSel h2c) = s.ctx q (swSel h2c) := h.ctx _ _ (swSel_ne_int _)

end Verif.Qdma
