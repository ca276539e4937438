import Verif.ChiHw.Tx
/-! # CHI hardware bridges: receiving -/

namespace Verif.ChiHw

/-- The states of a receiving channel, flits having the channel's width. -/
inductive RxReach (c : Ch) (W : Nat) : Rx → Prop where
  | init : RxReach c W Rx.init
  | move {s s' : Rx} {m : RxMove} : RxReach c W s → (∀ f, m = .arrive f → f < 2 ^ W) → s.move c W m = some s' → RxReach c W s'

theorem RxReach.runs {c : Ch} {W : Nat} : ∀ (ms : List RxMove) {s s' : Rx}, RxReach c W s → (∀ m ∈ ms, ∀ f, m = .arrive f → f < 2 ^ W) →
    Rx.runs c W s ms = some s' → RxReach c W s'
  | [], s, s', h, _, e => by cases e; exact h
  | m :: ms, s, s', h, hok, e => by
    unfold Rx.runs at e
    cases hm : s.move c W m with
    | none => rw [hm] at e; cases e
    | some s1 =>
      rw [hm] at e
      exact RxReach.runs ms (h.move (hok m (by simp)) hm) (fun x hx => hok x (by simp [hx])) e

/-- Where the software is, `F` descriptors having been given back. -/
def PhaseOk (c : Ch) (s : Rx) (F : Nat) : RPhase → Prop
  | .idle => F = s.got.length ∧ (s.got.length < s.arrived.length → s.flag = true)
  | .seen => F = s.got.length
  | .cleared => F = s.got.length
  | .serving snap left => ∃ S, snap = ring (F % 15) (S - F) ∧ s.got.length ≤ S ∧ S ≤ s.arrived.length ∧
      pop 32 left.toNat = S - s.got.length ∧ (S < s.arrived.length → s.flag = true)
  | .reading snap left ws => ∃ S, snap = ring (F % 15) (S - F) ∧ s.got.length < S ∧ S ≤ s.arrived.length ∧
      pop 32 left.toNat + 1 = S - s.got.length ∧ (S < s.arrived.length → s.flag = true) ∧ ws.length ≤ descSz c / 4 ∧
      ((c = .dat → s.got.length % 15 % 4 = 0) → ∀ f, s.arrived[s.got.length]? = some f → ∀ i, i < ws.length → i < hwWords c →
        ws.getD i 0 = hwWord f i)
  | .giving snap => snap = ring (F % 15) (s.got.length - F) ∧ (s.got.length < s.arrived.length → s.flag = true)

structure RxInv (c : Ch) (W : Nat) (s : Rx) (F : Nat) : Prop where
  le1 : F ≤ s.got.length
  le2 : s.got.length ≤ s.arrived.length
  room : s.arrived.length ≤ F + 15
  wr : s.wr = s.arrived.length % 15
  idx : s.idx = s.got.length % 15
  own : s.own = ring (F % 15) (s.arrived.length - F)
  mem : ∀ m, F ≤ m → m < s.arrived.length → ∀ f, s.arrived[m]? = some f → ∀ i, s.mem c (m % 15) i = hwWord f i
  small : ∀ f ∈ s.arrived, f < 2 ^ W
  got : ∀ m, m < s.got.length → (c = .dat → m % 15 % 4 = 0) → s.got[m]? = s.arrived[m]?
  phase : PhaseOk c s F s.phase

theorem rx_init (c : Ch) (W : Nat) : RxInv c W Rx.init 0 :=
  { le1 := Nat.le_refl _, le2 := Nat.le_refl _, room := by decide, wr := rfl, idx := rfl, own := rfl,
    mem := fun m _ h => absurd h (by show ¬m < 0; omega), small := fun f h => by (cases h),
    got := fun m h => absurd h (by show ¬m < 0; omega), phase := ⟨rfl, fun h => absurd h (by show ¬0 < 0; omega)⟩ }

theorem rx_arrive {c : Ch} {W : Nat} {s s' : Rx} {f F : Nat} (hi : RxInv c W s F) (hf : f < 2 ^ W)
    (hm : s.move c W (.arrive f) = some s') : RxInv c W s' F := by
  simp only [Rx.move] at hm
  by_cases ho : s.own.getLsbD s.wr = true
  · rw [if_pos ho] at hm; cases hm
  · rw [if_neg ho] at hm
    simp only [Option.some.injEq] at hm
    subst hm
    have h1 := hi.le1
    have h2 := hi.le2
    have h3 := hi.room
    have hlt : s.arrived.length < F + 15 := by
      rcases Nat.lt_or_eq_of_le h3 with h | h
      · exact h
      · exfalso
        apply ho
        rw [hi.own, hi.wr, h, Nat.add_sub_cancel_left, Nat.add_mod_right]
        exact ring_full _ (Nat.mod_lt _ (by decide))
    have el : (s.arrived ++ [f]).length = s.arrived.length + 1 := by rw [List.length_append]; rfl
    refine { le1 := h1, le2 := ?_, room := ?_, wr := ?_, idx := hi.idx, own := ?_, mem := ?_, small := ?_, got := ?_, phase := ?_ }
    · show s.got.length ≤ (s.arrived ++ [f]).length
      omega
    · show (s.arrived ++ [f]).length ≤ F + 15
      omega
    · show (s.wr + 1) % 15 = (s.arrived ++ [f]).length % 15
      rw [el, hi.wr]; omega
    · show s.own ||| (1#32 <<< s.wr) = ring (F % 15) ((s.arrived ++ [f]).length - F)
      rw [el, show s.arrived.length + 1 - F = s.arrived.length - F + 1 by omega, hi.own, hi.wr]
      show _ = _ ||| (1#32 <<< ((F % 15 + (s.arrived.length - F)) % 15))
      rw [show (F % 15 + (s.arrived.length - F)) % 15 = s.arrived.length % 15 by omega]
    · intro m a b g hg i
      replace b : m < (s.arrived ++ [f]).length := b
      replace hg : (s.arrived ++ [f])[m]? = some g := hg
      show (if c = c ∧ m % 15 = s.wr then hwWord f i else s.mem c (m % 15) i) = _
      by_cases hmr : m = s.arrived.length
      · subst hmr
        rw [List.getElem?_append_right (Nat.le_refl _), Nat.sub_self] at hg
        cases hg
        rw [if_pos ⟨rfl, hi.wr.symm⟩]
      · rw [if_neg (by rintro ⟨_, h⟩; rw [hi.wr] at h; omega)]
        exact hi.mem m a (by omega) g (get_append (by omega) hg) i
    · intro g hg
      replace hg : g ∈ s.arrived ++ [f] := hg
      rcases List.mem_append.1 hg with h | h
      · exact hi.small g h
      · rw [List.mem_singleton] at h; subst h; exact hf
    · intro m a b
      show s.got[m]? = (s.arrived ++ [f])[m]?
      replace a : m < s.got.length := a
      rw [List.getElem?_append_left (by omega)]
      exact hi.got m a b
    · have hp := hi.phase
      show PhaseOk c _ F s.phase
      cases hph : s.phase with
      | idle => rw [hph] at hp; exact ⟨hp.1, fun _ => rfl⟩
      | seen => rw [hph] at hp; exact hp
      | cleared => rw [hph] at hp; exact hp
      | serving snap left =>
        rw [hph] at hp
        obtain ⟨S, a1, a2, a3, a4, _⟩ := hp
        exact ⟨S, a1, a2, by show S ≤ (s.arrived ++ [f]).length; omega, a4, fun _ => rfl⟩
      | reading snap left ws =>
        rw [hph] at hp
        obtain ⟨S, a1, a2, a3, a4, _, a6, a7⟩ := hp
        refine ⟨S, a1, a2, by show S ≤ (s.arrived ++ [f]).length; omega, a4, fun _ => rfl, a6, fun hq g hg => ?_⟩
        replace hg : (s.arrived ++ [f])[s.got.length]? = some g := hg
        exact a7 hq g (get_append (by omega) hg)
      | giving snap => rw [hph] at hp; exact ⟨hp.1, fun _ => rfl⟩

theorem flitOf_some (c : Ch) (W : Nat) (hW : W ≤ 32 * hwWords c) (ws : List (BitVec 32)) : ∃ f, flitOf c W ws = some f := by
  unfold flitOf
  rw [if_pos (toBytes_le.2 (Nat.le_trans hW (descSz_ge c)))]
  exact ⟨_, rfl⟩

theorem rx_step {c : Ch} {W : Nat} (hW : W ≤ 32 * hwWords c) {s : Rx} {F : Nat} (hi : RxInv c W s F) :
    ∃ s' F', s.step c W = some s' ∧ RxInv c W s' F' ∧ s'.arrived = s.arrived := by
  have h1 := hi.le1
  have h2 := hi.le2
  have h3 := hi.room
  have hp := hi.phase
  have hF : F % 15 < 15 := Nat.mod_lt _ (by decide)
  cases hph : s.phase with
  | idle =>
    rw [hph] at hp
    by_cases hfl : s.flag = true
    · refine ⟨{ s with phase := .seen }, F, by simp only [Rx.step, hph]; rw [if_pos hfl], ?_, rfl⟩
      exact { hi with phase := hp.1 }
    · refine ⟨s, F, by simp only [Rx.step, hph]; rw [if_neg hfl], ?_, rfl⟩
      exact hi
  | seen =>
    rw [hph] at hp
    exact ⟨{ s with flag := false, phase := .cleared }, F, by simp only [Rx.step, hph], { hi with phase := hp }, rfl⟩
  | cleared =>
    rw [hph] at hp
    replace hp : F = s.got.length := hp
    by_cases ho : s.own = 0
    · have hz : s.arrived.length - F = 0 := by
        have := hi.own
        rw [ho] at this
        exact (ring_zero hF (by omega)).1 this.symm
      refine ⟨{ s with phase := .idle }, F, by simp only [Rx.step, hph]; rw [if_pos ho], ?_, rfl⟩
      exact { hi with phase := ⟨hp, fun h => absurd h (by show ¬s.got.length < s.arrived.length; omega)⟩ }
    · refine ⟨{ s with phase := .serving s.own s.own }, F, by simp only [Rx.step, hph]; rw [if_neg ho], ?_, rfl⟩
      refine { hi with phase := ⟨s.arrived.length, hi.own, h2, Nat.le_refl _, ?_, fun h => absurd h (Nat.lt_irrefl _)⟩ }
      show pop 32 s.own.toNat = s.arrived.length - s.got.length
      rw [hi.own, ring_pop _ hF _ (by omega), hp]
  | serving snap left =>
    rw [hph] at hp
    obtain ⟨S, a1, a2, a3, a4, a5⟩ := hp
    by_cases hl : left = 0
    · refine ⟨{ s with phase := .giving snap }, F, by simp only [Rx.step, hph]; rw [if_pos hl], ?_, rfl⟩
      have hz : S = s.got.length := by
        rw [hl] at a4
        have : pop 32 (0 : BitVec 32).toNat = 0 := pop_zero 32
        omega
      subst hz
      exact { hi with phase := ⟨a1, a5⟩ }
    · refine ⟨{ s with phase := .reading snap (clearNext left) [] }, F, by simp only [Rx.step, hph]; rw [if_neg hl], ?_, rfl⟩
      have hc := clearNext_pop left hl
      refine { hi with phase := ⟨S, a1, ?_, a3, ?_, a5, Nat.zero_le _, fun _ _ _ i h => absurd h (by show ¬i < 0; omega)⟩ }
      · show s.got.length < S; omega
      · show pop 32 (clearNext left).toNat + 1 = S - s.got.length; omega
  | reading snap left ws =>
    rw [hph] at hp
    obtain ⟨S, a1, a2, a3, a4, a5, a6, a7⟩ := hp
    have hd : s.got.length % 15 < 15 := Nat.mod_lt _ (by decide)
    by_cases hl : ws.length < descSz c / 4
    · refine ⟨{ s with phase := .reading snap left (ws ++ [busRead s.mem (rxAddr c s.idx ws.length)]) }, F,
        by simp only [Rx.step, hph]; rw [if_pos hl], ?_, rfl⟩
      refine { hi with phase := ⟨S, a1, a2, a3, a4, a5, by rw [List.length_append]; exact hl, fun hq f hf i hlt hw => ?_⟩ }
      rw [List.length_append] at hlt
      replace hlt : i < ws.length + 1 := hlt
      by_cases he : i = ws.length
      · subst he
        rw [List.getD_eq_getElem?_getD, List.getElem?_append_right (Nat.le_refl _), Nat.sub_self]
        show busRead s.mem (rxAddr c s.idx ws.length) = _
        unfold busRead
        rw [hi.idx, decode_rx c _ hd hq _ hl]
        simp only []
        rw [if_pos hw]
        exact hi.mem _ h1 (by omega) f hf _
      · rw [List.getD_eq_getElem?_getD, List.getElem?_append_left (by omega), ← List.getD_eq_getElem?_getD]
        exact a7 hq f hf i (by omega) hw
    · obtain ⟨g, hg⟩ := flitOf_some c W hW ws
      refine ⟨{ s with idx := (s.idx + 1) % credits, got := s.got ++ [g], phase := .serving snap left }, F,
        by simp only [Rx.step, hph]; rw [if_neg hl, hg], ?_, rfl⟩
      have el : (s.got ++ [g]).length = s.got.length + 1 := by rw [List.length_append]; rfl
      refine { hi with le1 := ?_, le2 := ?_, idx := ?_, got := ?_, phase := ?_ }
      · show F ≤ (s.got ++ [g]).length; omega
      · show (s.got ++ [g]).length ≤ s.arrived.length; omega
      · show (s.idx + 1) % 15 = (s.got ++ [g]).length % 15
        rw [el, hi.idx]; omega
      · intro m hm hq
        replace hm : m < (s.got ++ [g]).length := hm
        show (s.got ++ [g])[m]? = s.arrived[m]?
        by_cases he : m = s.got.length
        · subst he
          rw [List.getElem?_append_right (Nat.le_refl _), Nat.sub_self]
          obtain ⟨f, hf⟩ : ∃ f, s.arrived[s.got.length]? = some f := ⟨_, List.getElem?_eq_getElem (by omega)⟩
          have hsm := hi.small f (List.mem_of_getElem? hf)
          have hge := hwWords_le c
          have := flitOf_eq c W f ws (Nat.le_trans hW (descSz_ge c)) hsm fun i hlt =>
            a7 hq f hf i (by have := toRegs_le hW; omega) (Nat.lt_of_lt_of_le hlt (toRegs_le hW))
          rw [hg] at this
          cases this
          rw [hf]; rfl
        · rw [List.getElem?_append_left (by omega)]
          exact hi.got m (by omega) hq
      · refine ⟨S, a1, ?_, a3, ?_, a5⟩
        · show (s.got ++ [g]).length ≤ S; omega
        · show pop 32 left.toNat = S - (s.got ++ [g]).length; omega
  | giving snap =>
    rw [hph] at hp
    obtain ⟨a1, a2⟩ := hp
    refine ⟨{ s with own := s.own &&& ~~~snap, phase := .idle }, s.got.length, by simp only [Rx.step, hph], ?_, rfl⟩
    refine { hi with le1 := Nat.le_refl _, room := ?_, own := ?_, mem := ?_, phase := ⟨rfl, a2⟩ }
    · show s.arrived.length ≤ s.got.length + 15; omega
    · show s.own &&& ~~~snap = ring (s.got.length % 15) (s.arrived.length - s.got.length)
      rw [hi.own, a1, ring_minus _ hF _ (by omega) _ (by omega)]
      rw [show (F % 15 + (s.got.length - F)) % 15 = s.got.length % 15 by omega]
      rw [show s.arrived.length - F - (s.got.length - F) = s.arrived.length - s.got.length by omega]
    · intro m hm
      exact hi.mem m (Nat.le_trans h1 hm)

theorem rx_inv {c : Ch} {W : Nat} (hW : W ≤ 32 * hwWords c) {s : Rx} (h : RxReach c W s) : ∃ F, RxInv c W s F := by
  induction h with
  | init => exact ⟨0, rx_init c W⟩
  | @move s s' m _ hok hm ih =>
    obtain ⟨F, hi⟩ := ih
    cases m with
    | arrive f => exact ⟨F, rx_arrive hi (hok f rfl) hm⟩
    | step =>
      obtain ⟨s1, F1, e, hi1, _⟩ := rx_step hW hi
      have hm' : s.step c W = some s' := hm
      rw [e] at hm'
      cases hm'
      exact ⟨F1, hi1⟩

/-- **Flits are passed on in order, each once.** However arrivals and the software's
register accesses interleave, no more flits are passed on than arrived, and the `m`-th one passed
on is the `m`-th that arrived; on the data channel this holds for every fourth
descriptor only. -/
theorem received_in_order_partial (c : Ch) (W : Nat) (hW : W ≤ 32 * hwWords c) (s : Rx) (h : RxReach c W s) :
    s.got.length ≤ s.arrived.length ∧
    ∀ m, m < s.got.length → (c = .dat → m % credits % 4 = 0) → s.got[m]? = s.arrived[m]? := by
  obtain ⟨F, hi⟩ := rx_inv hW h
  exact ⟨hi.le2, hi.got⟩

/-- Requests, snoops and responses: what was passed on is a beginning of what arrived. -/
theorem received_prefix (c : Ch) (hc : c ≠ .dat) (W : Nat) (hW : W ≤ 32 * hwWords c) (s : Rx) (h : RxReach c W s) :
    s.got <+: s.arrived := by
  obtain ⟨F, hi⟩ := rx_inv hW h
  rw [List.prefix_iff_eq_take]
  apply List.ext_getElem?
  intro m
  rw [List.getElem?_take]
  by_cases hm : m < s.got.length
  · rw [if_pos hm]
    exact hi.got m hm (fun e => absurd e hc)
  · rw [if_neg hm, List.getElem?_eq_none (by omega)]

/-- **No wake-up is lost.** When the software goes to wait for the interrupt, a flit not
yet passed on has the interrupt set. -/
theorem no_wakeup_lost (c : Ch) (W : Nat) (hW : W ≤ 32 * hwWords c) (s : Rx) (h : RxReach c W s)
    (hp : s.phase = .idle) (hl : s.got.length < s.arrived.length) : s.flag = true := by
  obtain ⟨F, hi⟩ := rx_inv hW h
  have := hi.phase
  rw [hp] at this
  exact this.2 hl

/-- What is left to do of one round. -/
def RPhase.weight (c : Ch) : RPhase → Nat
  | .idle => descSz c / 4 + 9
  | .seen => descSz c / 4 + 8
  | .cleared => descSz c / 4 + 7
  | .serving _ left => if left = 0 then descSz c / 4 + 11 else descSz c / 4 + 6
  | .reading _ _ ws => descSz c / 4 - ws.length + 3
  | .giving _ => descSz c / 4 + 10

theorem serve_all (c : Ch) (W : Nat) (hW : W ≤ 32 * hwWords c) : ∀ (n : Nat) (s : Rx) (F : Nat), RxInv c W s F →
    (s.arrived.length - s.got.length) * (descSz c / 4 + 12) + s.phase.weight c ≤ n →
    ∃ k s', Rx.runs c W s (List.replicate k .step) = some s' ∧ s'.got.length = s.arrived.length := by
  intro n
  induction n with
  | zero =>
    intro s F hi hn
    exfalso
    have : 0 < s.phase.weight c := by
      cases s.phase <;> simp only [RPhase.weight] <;> (try split) <;> omega
    omega
  | succ n ih =>
    intro s F hi hn
    by_cases hdone : s.got.length = s.arrived.length
    · exact ⟨0, s, rfl, hdone⟩
    have h1 := hi.le1
    have h2 := hi.le2
    obtain ⟨s1, F1, e, hi1, ea⟩ := rx_step hW hi
    have key : (s1.arrived.length - s1.got.length) * (descSz c / 4 + 12) + s1.phase.weight c ≤ n := by
      have hp := hi.phase
      cases hph : s.phase with
      | idle =>
        rw [hph] at hp hn
        have hfl := hp.2 (by omega)
        simp only [Rx.step, hph] at e
        rw [if_pos hfl] at e
        cases e
        simp only [RPhase.weight] at hn ⊢
        omega
      | seen =>
        rw [hph] at hn
        simp only [Rx.step, hph] at e
        cases e
        simp only [RPhase.weight] at hn ⊢
        omega
      | cleared =>
        rw [hph] at hn hp
        simp only [Rx.step, hph] at e
        have ho : s.own ≠ 0 := by
          intro h0
          have := hi.own
          rw [h0] at this
          have hr := hi.room
          have := (ring_zero (Nat.mod_lt _ (by decide)) (by omega)).1 this.symm
          omega
        rw [if_neg ho] at e
        cases e
        simp only [RPhase.weight] at hn ⊢
        rw [if_neg ho]
        omega
      | serving snap left =>
        rw [hph] at hn
        simp only [Rx.step, hph] at e
        by_cases hl : left = 0
        · rw [if_pos hl] at e
          cases e
          simp only [RPhase.weight] at hn ⊢
          rw [if_pos hl] at hn
          omega
        · rw [if_neg hl] at e
          cases e
          simp only [RPhase.weight, List.length_nil] at hn ⊢
          rw [if_neg hl] at hn
          omega
      | reading snap left ws =>
        rw [hph] at hn
        simp only [Rx.step, hph] at e
        by_cases hl : ws.length < descSz c / 4
        · rw [if_pos hl] at e
          cases e
          simp only [RPhase.weight, List.length_append, List.length_singleton] at hn ⊢
          omega
        · obtain ⟨g, hg⟩ := flitOf_some c W hW ws
          rw [if_neg hl, hg] at e
          cases e
          have hlen : (s.got ++ [g]).length = s.got.length + 1 := by rw [List.length_append]; rfl
          have hw : RPhase.weight c (.serving snap left) ≤ descSz c / 4 + 11 := by
            simp only [RPhase.weight]
            split <;> omega
          show (s.arrived.length - (s.got ++ [g]).length) * (descSz c / 4 + 12) + RPhase.weight c (.serving snap left) ≤ n
          rw [hlen]
          have e2 : s.arrived.length - s.got.length = s.arrived.length - (s.got.length + 1) + 1 := by omega
          rw [e2, Nat.add_mul, Nat.one_mul] at hn
          have : 0 < RPhase.weight c (.reading snap left ws) := by simp only [RPhase.weight]; omega
          have e3 : descSz c / 4 + 11 < descSz c / 4 + 12 := by omega
          generalize (s.arrived.length - (s.got.length + 1)) * (descSz c / 4 + 12) = P at hn ⊢
          omega
      | giving snap =>
        rw [hph] at hn
        simp only [Rx.step, hph] at e
        cases e
        simp only [RPhase.weight] at hn ⊢
        omega
    obtain ⟨k, s', e1, e2⟩ := ih s1 F1 hi1 key
    refine ⟨k + 1, s', ?_, by rw [e2, ea]⟩
    rw [List.replicate_succ]
    unfold Rx.runs
    show (match s.step c W with | some s' => Rx.runs c W s' (List.replicate k .step) | none => none) = some s'
    rw [e]
    exact e1

/-- **Every flit is passed on.** From every reachable state the software alone gets to
the last flit that arrived. -/
theorem received_all (c : Ch) (W : Nat) (hW : W ≤ 32 * hwWords c) (s : Rx) (h : RxReach c W s) :
    ∃ k s', Rx.runs c W s (List.replicate k .step) = some s' ∧ s'.got.length = s.arrived.length := by
  obtain ⟨F, hi⟩ := rx_inv hW h
  exact serve_all c W hW _ s F hi (Nat.le_refl _)

/-- The loop over the flits makes one turn for each bit of the ownership register. -/
theorem one_turn_per_bit (x : BitVec 32) (h : x ≠ 0) : pop 32 (clearNext x).toNat + 1 = pop 32 x.toNat := clearNext_pop x h

end Verif.ChiHw
