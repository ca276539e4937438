import Verif.ChiHw.Data
/-! # CHI hardware bridges: sending -/

namespace Verif.ChiHw

/-- One process and one bridge that is not reset; flits of the channel's width. -/
def TxMove.Plain (W : Nat) : TxMove → Prop
  | .start p b f => p = 0 ∧ b = 0 ∧ f < 2 ^ W
  | .poll p => p = 0
  | .put p => p = 0
  | .flip p => p = 0
  | .send b => b = 0
  | .reset _ => False

/-- The states that moves satisfying `ok` lead to. -/
inductive TxReach (c : Ch) (W : Nat) (ok : TxMove → Prop) : Tx → Prop where
  | init : TxReach c W ok Tx.init
  | move {s s' : Tx} {m : TxMove} : TxReach c W ok s → ok m → s.move c W m = some s' → TxReach c W ok s'

theorem TxReach.runs {c : Ch} {W : Nat} {ok : TxMove → Prop} : ∀ (ms : List TxMove) {s s' : Tx}, TxReach c W ok s → (∀ m ∈ ms, ok m) →
    Tx.runs c W s ms = some s' → TxReach c W ok s'
  | [], s, s', h, _, e => by cases e; exact h
  | m :: ms, s, s', h, hok, e => by
    unfold Tx.runs at e
    cases hm : s.move c W m with
    | none => rw [hm] at e; cases e
    | some s1 =>
      rw [hm] at e
      exact TxReach.runs ms (h.move (hok m (by simp)) hm) (fun x hx => hok x (by simp [hx])) e

theorem upd_same {α : Type} (f : Nat → α) (k : Nat) (v : α) : upd f k v k = v := if_pos rfl

/-- Where the call of process 0 is, `T` flits having been handed to the hardware. -/
def CallOk (c : Ch) (W : Nat) (s : Tx) (T : Nat) : Phase → Prop
  | .idle => (s.asked 0).length = T
  | .waiting b f bit => b = 0 ∧ bit = T % 15 ∧ (s.asked 0).length = T + 1 ∧ (s.asked 0)[T]? = some f
  | .writing b f bit d i => b = 0 ∧ bit = T % 15 ∧ (s.asked 0).length = T + 1 ∧ (s.asked 0)[T]? = some f ∧ d = T % 15 ∧
      T < (s.out 0).length + 15 ∧ i ≤ toRegs W ∧ ∀ j, j < i → s.mem 0 c (T % 15) j = flitWord W f j
  | .flipping b bit => b = 0 ∧ bit = T % 15 ∧ (s.asked 0).length = T + 1 ∧ T < (s.out 0).length + 15 ∧
      ∃ f, (s.asked 0)[T]? = some f ∧ ∀ j, j < toRegs W → s.mem 0 c (T % 15) j = flitWord W f j

structure TxInv (c : Ch) (W : Nat) (s : Tx) (T : Nat) : Prop where
  le : (s.out 0).length ≤ T
  room : T ≤ (s.out 0).length + 15
  idx : s.idx = T % 15
  rd : s.rd 0 = (s.out 0).length % 15
  own : s.own 0 = ring ((s.out 0).length % 15) (T - (s.out 0).length)
  pre : s.out 0 = (s.asked 0).take (s.out 0).length
  len : T ≤ (s.asked 0).length
  small : ∀ f ∈ s.asked 0, f < 2 ^ W
  mem : ∀ m, (s.out 0).length ≤ m → m < T → ∀ f, (s.asked 0)[m]? = some f → ∀ i, i < toRegs W → s.mem 0 c (m % 15) i = flitWord W f i
  call : CallOk c W s T (s.call 0)

theorem tx_init (c : Ch) (W : Nat) : TxInv c W Tx.init 0 :=
  { le := Nat.le_refl _, room := by decide, idx := rfl, rd := rfl, own := rfl, pre := rfl, len := Nat.le_refl _,
    small := fun f h => by (cases h), mem := fun m _ h => absurd h (by omega), call := rfl }

theorem get_append {l : List Nat} {m f g : Nat} (h : m < l.length) (e : (l ++ [g])[m]? = some f) : l[m]? = some f := by
  rwa [List.getElem?_append_left h] at e

theorem tx_step {c : Ch} {W : Nat} (hW : W ≤ 32 * hwWords c) {s s' : Tx} {m : TxMove} {T : Nat} (hi : TxInv c W s T)
    (hp : m.Plain W) (hm : s.move c W m = some s') : ∃ T', TxInv c W s' T' := by
  have hd : T % 15 < 15 := Nat.mod_lt _ (by decide)
  cases m with
  | start p b f =>
    obtain ⟨rfl, rfl, hf⟩ := hp
    simp only [Tx.move] at hm
    cases hc : s.call 0 with
    | idle =>
      rw [hc] at hm
      simp only [Option.some.injEq] at hm
      have hl := hi.call
      rw [hc] at hl
      replace hl : (s.asked 0).length = T := hl
      subst hm
      have ea : upd s.asked 0 (s.asked 0 ++ [f]) 0 = s.asked 0 ++ [f] := upd_same _ _ _
      refine ⟨T, { le := hi.le, room := hi.room, idx := hi.idx, rd := hi.rd, own := hi.own, pre := ?_, len := ?_, small := ?_, mem := ?_, call := ?_ }⟩
      · show s.out 0 = (upd s.asked 0 (s.asked 0 ++ [f]) 0).take (s.out 0).length
        rw [ea, List.take_append_of_le_length (by have := hi.le; omega)]
        exact hi.pre
      · show T ≤ (upd s.asked 0 (s.asked 0 ++ [f]) 0).length
        rw [ea, List.length_append]; omega
      · show ∀ g ∈ upd s.asked 0 (s.asked 0 ++ [f]) 0, _
        rw [ea]
        intro g hg
        rcases List.mem_append.1 hg with h | h
        · exact hi.small g h
        · rw [List.mem_singleton] at h; subst h; exact hf
      · intro m h1 h2 g hg
        replace hg : (upd s.asked 0 (s.asked 0 ++ [f]) 0)[m]? = some g := hg
        rw [ea] at hg
        exact hi.mem m h1 h2 g (get_append (by omega) hg)
      · show CallOk c W _ T (upd s.call 0 _ 0)
        rw [upd_same]
        refine ⟨rfl, hi.idx, ?_, ?_⟩
        · show (upd s.asked 0 (s.asked 0 ++ [f]) 0).length = _
          rw [ea, List.length_append, hl]; rfl
        · show (upd s.asked 0 (s.asked 0 ++ [f]) 0)[T]? = _
          rw [ea, ← hl, List.getElem?_append_right (Nat.le_refl _), Nat.sub_self]; rfl
    | waiting _ _ _ => rw [hc] at hm; cases hm
    | writing _ _ _ _ _ => rw [hc] at hm; cases hm
    | flipping _ _ => rw [hc] at hm; cases hm
  | poll p =>
    obtain rfl : p = 0 := hp
    simp only [Tx.move] at hm
    cases hc : s.call 0 with
    | waiting b f bit =>
      rw [hc] at hm
      simp only [] at hm
      have hl := hi.call
      rw [hc] at hl
      obtain ⟨rfl, hb, hlen, hf⟩ := hl
      by_cases ho : (s.own 0).getLsbD bit = true
      · rw [if_pos ho] at hm; cases hm; exact ⟨T, hi⟩
      · rw [if_neg ho] at hm
        simp only [Option.some.injEq] at hm
        subst hm
        refine ⟨T, { le := hi.le, room := hi.room, idx := hi.idx, rd := hi.rd, own := hi.own, pre := hi.pre, len := hi.len, small := hi.small, mem := hi.mem, call := ?_ }⟩
        show CallOk c W _ T (upd s.call 0 _ 0)
        rw [upd_same]
        refine ⟨rfl, hb, hlen, hf, hi.idx, ?_, Nat.zero_le _, fun j hj => absurd hj (by omega)⟩
        show T < (s.out 0).length + 15
        have h1 := hi.room
        have h2 := hi.le
        rcases Nat.lt_or_eq_of_le h1 with h | h
        · exact h
        · exfalso
          apply ho
          rw [hi.own, hb, h, Nat.add_sub_cancel_left, Nat.add_mod_right]
          exact ring_full _ (Nat.mod_lt _ (by decide))
    | idle => rw [hc] at hm; cases hm
    | writing _ _ _ _ _ => rw [hc] at hm; cases hm
    | flipping _ _ => rw [hc] at hm; cases hm
  | put p =>
    obtain rfl : p = 0 := hp
    simp only [Tx.move] at hm
    cases hc : s.call 0 with
    | writing b f bit d i =>
      rw [hc] at hm
      simp only [] at hm
      have hl := hi.call
      rw [hc] at hl
      obtain ⟨rfl, hb, hlen, hf, rfl, hr, hile, hw⟩ := hl
      by_cases hlt : i < toRegs W
      · rw [if_pos hlt] at hm
        simp only [Option.some.injEq] at hm
        subst hm
        have em : ∀ d' i', upd s.mem 0 (busWrite (s.mem 0) (txAddr c (T % 15) i) (flitWord W f i)) 0 c d' i' =
            if d' = T % 15 ∧ i' = i then flitWord W f i else s.mem 0 c d' i' := by
          intro d' i'
          rw [upd_same, busWrite_tx _ c _ _ hd (Nat.lt_of_lt_of_le hlt (toRegs_le hW))]
          by_cases h : d' = T % 15 ∧ i' = i
          · rw [if_pos ⟨rfl, h⟩, if_pos h]
          · rw [if_neg (fun e => h e.2), if_neg h]
        refine ⟨T, { le := hi.le, room := hi.room, idx := hi.idx, rd := hi.rd, own := hi.own, pre := hi.pre, len := hi.len, small := hi.small, mem := ?_, call := ?_ }⟩
        · intro m h1 h2 g hg j hj
          show upd s.mem 0 (busWrite (s.mem 0) (txAddr c (T % 15) i) (flitWord W f i)) 0 c (m % 15) j = _
          replace h1 : (s.out 0).length ≤ m := h1
          rw [em, if_neg (by omega)]
          exact hi.mem m h1 h2 g hg j hj
        · show CallOk c W _ T (upd s.call 0 _ 0)
          rw [upd_same]
          refine ⟨rfl, hb, hlen, hf, rfl, hr, by omega, fun j hj => ?_⟩
          show upd s.mem 0 (busWrite (s.mem 0) (txAddr c (T % 15) i) (flitWord W f i)) 0 c (T % 15) j = _
          rw [em]
          by_cases hji : j = i
          · rw [if_pos ⟨rfl, hji⟩, hji]
          · rw [if_neg (fun e => hji e.2)]; exact hw j (by omega)
      · rw [if_neg hlt] at hm
        simp only [Option.some.injEq] at hm
        subst hm
        refine ⟨T, { le := hi.le, room := hi.room, idx := hi.idx, rd := hi.rd, own := hi.own, pre := hi.pre, len := hi.len, small := hi.small, mem := hi.mem, call := ?_ }⟩
        show CallOk c W _ T (upd s.call 0 _ 0)
        rw [upd_same]
        exact ⟨rfl, hb, hlen, hr, f, hf, fun j hj => hw j (by omega)⟩
    | idle => rw [hc] at hm; cases hm
    | waiting _ _ _ => rw [hc] at hm; cases hm
    | flipping _ _ => rw [hc] at hm; cases hm
  | flip p =>
    obtain rfl : p = 0 := hp
    simp only [Tx.move] at hm
    cases hc : s.call 0 with
    | flipping b bit =>
      rw [hc] at hm
      simp only [Option.some.injEq] at hm
      have hl := hi.call
      rw [hc] at hl
      obtain ⟨rfl, hb, hlen, hr, f, hf, hw⟩ := hl
      subst hm
      have hle := hi.le
      refine ⟨T + 1, { le := ?_, room := ?_, idx := ?_, rd := hi.rd, own := ?_, pre := hi.pre, len := ?_, small := hi.small, mem := ?_, call := ?_ }⟩
      · show (s.out 0).length ≤ T + 1; omega
      · show T + 1 ≤ (s.out 0).length + 15; omega
      · show (s.idx + 1) % 15 = _
        rw [hi.idx]; omega
      · show upd s.own 0 (s.own 0 ||| (1#32 <<< bit)) 0 = ring ((s.out 0).length % 15) (T + 1 - (s.out 0).length)
        rw [upd_same, hi.own, hb, show T + 1 - (s.out 0).length = T - (s.out 0).length + 1 by omega]
        show _ = _ ||| (1#32 <<< (((s.out 0).length % 15 + (T - (s.out 0).length)) % 15))
        rw [show ((s.out 0).length % 15 + (T - (s.out 0).length)) % 15 = T % 15 by omega]
      · show T + 1 ≤ (s.asked 0).length; omega
      · intro m h1 h2 g hg i hi'
        by_cases hmT : m = T
        · subst hmT
          have : some f = some g := hf.symm.trans hg
          cases this
          exact hw i hi'
        · exact hi.mem m h1 (by omega) g hg i hi'
      · show CallOk c W _ (T + 1) (upd s.call 0 _ 0)
        rw [upd_same]
        exact hlen
    | idle => rw [hc] at hm; cases hm
    | waiting _ _ _ => rw [hc] at hm; cases hm
    | writing _ _ _ _ _ => rw [hc] at hm; cases hm
  | send b =>
    obtain rfl : b = 0 := hp
    simp only [Tx.move] at hm
    by_cases h0 : s.own 0 = 0
    · rw [if_pos h0] at hm; cases hm
    · rw [if_neg h0] at hm
      simp only [Option.some.injEq] at hm
      subst hm
      have hr := hi.room
      have hle := hi.le
      have hS : (s.out 0).length % 15 < 15 := Nat.mod_lt _ (by decide)
      have hne : T - (s.out 0).length ≠ 0 := by
        intro e
        apply h0
        rw [hi.own, e]; rfl
      have hlt : (s.out 0).length < (s.asked 0).length := by have := hi.len; omega
      obtain ⟨f, hf⟩ : ∃ f, (s.asked 0)[(s.out 0).length]? = some f := ⟨_, List.getElem?_eq_getElem hlt⟩
      have hflit : hwFlit c W (s.mem 0 c (s.rd 0)) = f := by
        rw [hi.rd]
        exact hwFlit_eq c W f _ hW (hi.small f (List.mem_of_getElem? hf)) (hi.mem _ (Nat.le_refl _) (by omega) f hf)
      have eo : upd s.out 0 (s.out 0 ++ [hwFlit c W (s.mem 0 c (s.rd 0))]) 0 = s.out 0 ++ [f] := by rw [upd_same, hflit]
      have el : (upd s.out 0 (s.out 0 ++ [hwFlit c W (s.mem 0 c (s.rd 0))]) 0).length = (s.out 0).length + 1 := by
        rw [eo, List.length_append]; rfl
      refine ⟨T, { le := ?_, room := ?_, idx := hi.idx, rd := ?_, own := ?_, pre := ?_, len := hi.len, small := hi.small, mem := ?_, call := ?_ }⟩
      · show (upd s.out 0 (s.out 0 ++ [hwFlit c W (s.mem 0 c (s.rd 0))]) 0).length ≤ T
        rw [el]; omega
      · show T ≤ (upd s.out 0 (s.out 0 ++ [hwFlit c W (s.mem 0 c (s.rd 0))]) 0).length + 15
        rw [el]; omega
      · show upd s.rd 0 ((s.rd 0 + 1) % credits) 0 = (upd s.out 0 (s.out 0 ++ [hwFlit c W (s.mem 0 c (s.rd 0))]) 0).length % 15
        rw [el, upd_same, hi.rd]
        show ((s.out 0).length % 15 + 1) % 15 = _
        omega
      · show upd s.own 0 (s.own 0 &&& ~~~(1#32 <<< s.rd 0)) 0 = ring ((upd s.out 0 (s.out 0 ++ [hwFlit c W (s.mem 0 c (s.rd 0))]) 0).length % 15) (T - (upd s.out 0 (s.out 0 ++ [hwFlit c W (s.mem 0 c (s.rd 0))]) 0).length)
        rw [el, upd_same, hi.own, hi.rd, ← ring_one _ hS, ring_minus _ hS _ (by omega) 1 (by omega)]
        rw [show ((s.out 0).length % 15 + 1) % 15 = ((s.out 0).length + 1) % 15 by omega]
        rw [show T - (s.out 0).length - 1 = T - ((s.out 0).length + 1) by omega]
      · show upd s.out 0 (s.out 0 ++ [hwFlit c W (s.mem 0 c (s.rd 0))]) 0 = (s.asked 0).take (upd s.out 0 (s.out 0 ++ [hwFlit c W (s.mem 0 c (s.rd 0))]) 0).length
        rw [el, eo, List.take_add_one, hf, ← hi.pre]
        rfl
      · intro m h1 h2 g hg
        replace h1 : (upd s.out 0 (s.out 0 ++ [hwFlit c W (s.mem 0 c (s.rd 0))]) 0).length ≤ m := h1
        rw [el] at h1
        exact hi.mem m (by omega) h2 g hg
      · have hcall := hi.call
        show CallOk c W _ T (s.call 0)
        cases hc : s.call 0 with
        | idle => rw [hc] at hcall; exact hcall
        | waiting b f bit => rw [hc] at hcall; exact hcall
        | writing b f bit d i =>
          rw [hc] at hcall
          obtain ⟨a1, a2, a3, a4, a5, a6, a7⟩ := hcall
          refine ⟨a1, a2, a3, a4, a5, ?_, a7⟩
          show T < (upd s.out 0 (s.out 0 ++ [hwFlit c W (s.mem 0 c (s.rd 0))]) 0).length + 15
          rw [el]; omega
        | flipping b bit =>
          rw [hc] at hcall
          obtain ⟨a1, a2, a3, a6, a7⟩ := hcall
          refine ⟨a1, a2, a3, ?_, a7⟩
          show T < (upd s.out 0 (s.out 0 ++ [hwFlit c W (s.mem 0 c (s.rd 0))]) 0).length + 15
          rw [el]; omega
  | reset b => exact hp.elim

theorem tx_inv {c : Ch} {W : Nat} (hW : W ≤ 32 * hwWords c) {s : Tx} (h : TxReach c W (TxMove.Plain W) s) : ∃ T, TxInv c W s T := by
  induction h with
  | init => exact ⟨0, tx_init c W⟩
  | move _ hok hm ih =>
    obtain ⟨T, hi⟩ := ih
    exact tx_step hW hi hok hm

/-- **Flits go out in order, each once, unchanged.** Under every schedule of one process and
the hardware, what was put on the link is a beginning of what was handed over. Missing: several
processes or bridges, and resets (`Faults`). -/
theorem sent_in_order_partial (c : Ch) (W : Nat) (hW : W ≤ 32 * hwWords c) (s : Tx) (h : TxReach c W (TxMove.Plain W) s) :
    s.out 0 <+: s.asked 0 := by
  obtain ⟨T, hi⟩ := tx_inv hW h
  rw [hi.pre]
  exact List.take_prefix _ _

/-- What is left to do. -/
def Phase.weight (W : Nat) : Phase → Nat
  | .idle => 0
  | .waiting _ _ _ => toRegs W + 5
  | .writing _ _ _ _ i => toRegs W - i + 4
  | .flipping _ _ => 3

theorem drain (c : Ch) (W : Nat) (hW : W ≤ 32 * hwWords c) : ∀ (n : Nat) (s : Tx) (T : Nat), TxInv c W s T →
    T - (s.out 0).length + (s.call 0).weight W ≤ n →
    ∃ ms s', Tx.runs c W s ms = some s' ∧ (∀ m ∈ ms, ∀ p b f, m ≠ .start p b f) ∧ s'.out 0 = s.asked 0 ∧ s'.call 0 = .idle := by
  intro n
  induction n with
  | zero =>
    intro s T hi hn
    cases hc : s.call 0 with
    | idle =>
      have hcall := hi.call
      rw [hc] at hcall
      replace hcall : (s.asked 0).length = T := hcall
      have hle := hi.le
      refine ⟨[], s, rfl, fun m hm => by (cases hm), ?_, hc⟩
      rw [hi.pre, List.take_of_length_le (by omega)]
    | waiting _ _ _ => rw [hc] at hn; simp [Phase.weight] at hn
    | writing _ _ _ _ _ => rw [hc] at hn; simp [Phase.weight] at hn
    | flipping _ _ => rw [hc] at hn; simp [Phase.weight] at hn
  | succ n ih =>
    intro s T hi hn
    have go : ∀ (m : TxMove) (s1 : Tx) (T1 : Nat), (∀ p b f, m ≠ .start p b f) → s.move c W m = some s1 → TxInv c W s1 T1 → s1.asked 0 = s.asked 0 →
        T1 - (s1.out 0).length + (s1.call 0).weight W ≤ n →
        ∃ ms s', Tx.runs c W s ms = some s' ∧ (∀ m ∈ ms, ∀ p b f, m ≠ .start p b f) ∧ s'.out 0 = s.asked 0 ∧ s'.call 0 = .idle := by
      intro m s1 T1 h0 h1 h2 h3 h4
      obtain ⟨ms, s', e1, e2, e3, e4⟩ := ih s1 T1 h2 h4
      refine ⟨m :: ms, s', ?_, ?_, by rw [e3, h3], e4⟩
      · unfold Tx.runs; rw [h1]; exact e1
      · intro x hx
        rcases List.mem_cons.1 hx with h | h
        · subst h; exact h0
        · exact e2 x h
    have hle := hi.le
    have hroom := hi.room
    by_cases h0 : s.own 0 = 0
    · have hT : T - (s.out 0).length = 0 := by
        have := hi.own
        rw [h0] at this
        exact (ring_zero (Nat.mod_lt _ (by decide)) (by omega)).1 this.symm
      have hcall := hi.call
      cases hc : s.call 0 with
      | idle =>
        rw [hc] at hcall
        replace hcall : (s.asked 0).length = T := hcall
        refine ⟨[], s, rfl, fun m hm => by (cases hm), ?_, hc⟩
        rw [hi.pre, List.take_of_length_le (by omega)]
      | waiting b f bit =>
        rw [hc] at hcall hn
        obtain ⟨rfl, _⟩ := hcall
        have hm : s.move c W (.poll 0) = some { s with call := upd s.call 0 (.writing 0 f bit s.idx 0) } := by
          simp only [Tx.move, hc]
          rw [if_neg (by rw [h0]; simp)]
        have hT' := tx_step hW hi (show TxMove.Plain W (.poll 0) from rfl) hm
        obtain ⟨T1, hi1⟩ := hT'
        have hcall1 := hi1.call
        have e1 : (upd s.call 0 (Phase.writing 0 f bit s.idx 0)) 0 = Phase.writing 0 f bit s.idx 0 := upd_same _ _ _
        replace hcall1 : CallOk c W _ T1 (upd s.call 0 (Phase.writing 0 f bit s.idx 0) 0) := hcall1
        rw [e1] at hcall1
        obtain ⟨_, _, hl1, _⟩ := hcall1
        rename_i hrest
        obtain ⟨_, hl, _⟩ := hrest
        replace hl1 : (s.asked 0).length = T1 + 1 := hl1
        refine go (.poll 0) _ T1 (fun _ _ _ h => by cases h) hm hi1 rfl ?_
        show T1 - (s.out 0).length + Phase.weight W (upd s.call 0 (Phase.writing 0 f bit s.idx 0) 0) ≤ n
        rw [e1]
        simp only [Phase.weight] at hn ⊢
        omega
      | writing b f bit d i =>
        rw [hc] at hcall hn
        obtain ⟨rfl, hrest⟩ := hcall
        obtain ⟨_, hl, _, _, _, hile, _⟩ := hrest
        by_cases hlt : i < toRegs W
        · have hm : s.move c W (.put 0) = some { s with mem := upd s.mem 0 (busWrite (s.mem 0) (txAddr c d i) (flitWord W f i)), call := upd s.call 0 (.writing 0 f bit d (i + 1)) } := by
            simp only [Tx.move, hc]
            rw [if_pos hlt]
          obtain ⟨T1, hi1⟩ := tx_step hW hi (show TxMove.Plain W (.put 0) from rfl) hm
          have hcall1 := hi1.call
          have e1 : (upd s.call 0 (Phase.writing 0 f bit d (i + 1))) 0 = Phase.writing 0 f bit d (i + 1) := upd_same _ _ _
          replace hcall1 : CallOk c W _ T1 (upd s.call 0 (Phase.writing 0 f bit d (i + 1)) 0) := hcall1
          rw [e1] at hcall1
          obtain ⟨_, _, hl1, _⟩ := hcall1
          replace hl1 : (s.asked 0).length = T1 + 1 := hl1
          refine go (.put 0) _ T1 (fun _ _ _ h => by cases h) hm hi1 rfl ?_
          show T1 - (s.out 0).length + Phase.weight W (upd s.call 0 (Phase.writing 0 f bit d (i + 1)) 0) ≤ n
          rw [e1]
          simp only [Phase.weight] at hn ⊢
          omega
        · have hm : s.move c W (.put 0) = some { s with call := upd s.call 0 (.flipping 0 bit) } := by
            simp only [Tx.move, hc]
            rw [if_neg hlt]
          obtain ⟨T1, hi1⟩ := tx_step hW hi (show TxMove.Plain W (.put 0) from rfl) hm
          have hcall1 := hi1.call
          have e1 : (upd s.call 0 (Phase.flipping 0 bit)) 0 = Phase.flipping 0 bit := upd_same _ _ _
          replace hcall1 : CallOk c W _ T1 (upd s.call 0 (Phase.flipping 0 bit) 0) := hcall1
          rw [e1] at hcall1
          obtain ⟨_, _, hl1, _⟩ := hcall1
          replace hl1 : (s.asked 0).length = T1 + 1 := hl1
          refine go (.put 0) _ T1 (fun _ _ _ h => by cases h) hm hi1 rfl ?_
          show T1 - (s.out 0).length + Phase.weight W (upd s.call 0 (Phase.flipping 0 bit) 0) ≤ n
          rw [e1]
          simp only [Phase.weight] at hn ⊢
          omega
      | flipping b bit =>
        rw [hc] at hcall hn
        obtain ⟨rfl, _, hl, _⟩ := hcall
        have hm : s.move c W (.flip 0) = some { s with own := upd s.own 0 (s.own 0 ||| (1#32 <<< bit)), idx := (s.idx + 1) % credits, call := upd s.call 0 .idle } := by
          simp only [Tx.move, hc]
        obtain ⟨T1, hi1⟩ := tx_step hW hi (show TxMove.Plain W (.flip 0) from rfl) hm
        have hcall1 := hi1.call
        have e1 : (upd s.call 0 Phase.idle) 0 = Phase.idle := upd_same _ _ _
        replace hcall1 : CallOk c W _ T1 (upd s.call 0 Phase.idle 0) := hcall1
        rw [e1] at hcall1
        replace hcall1 : (s.asked 0).length = T1 := hcall1
        refine go (.flip 0) _ T1 (fun _ _ _ h => by cases h) hm hi1 rfl ?_
        show T1 - (s.out 0).length + Phase.weight W (upd s.call 0 Phase.idle 0) ≤ n
        rw [e1]
        simp only [Phase.weight] at hn ⊢
        omega
    · have hm : s.move c W (.send 0) = some { s with out := upd s.out 0 (s.out 0 ++ [hwFlit c W (s.mem 0 c (s.rd 0))]), own := upd s.own 0 (s.own 0 &&& ~~~(1#32 <<< s.rd 0)), rd := upd s.rd 0 ((s.rd 0 + 1) % credits) } := by
        simp only [Tx.move]
        rw [if_neg h0]
      have hne : T - (s.out 0).length ≠ 0 := by
        intro e
        apply h0
        rw [hi.own, e]; rfl
      obtain ⟨T1, hi1⟩ := tx_step hW hi (show TxMove.Plain W (.send 0) from rfl) hm
      have eT : T1 = T := by
        have a := hi.call
        have b := hi1.call
        replace b : CallOk c W _ T1 (s.call 0) := b
        cases hc : s.call 0 with
        | idle =>
          rw [hc] at a b
          exact (show (s.asked 0).length = T1 from b).symm.trans a
        | waiting _ _ _ =>
          rw [hc] at a b
          have a' := a.2.2.1
          have b' : (s.asked 0).length = T1 + 1 := b.2.2.1
          omega
        | writing _ _ _ _ _ =>
          rw [hc] at a b
          have a' := a.2.2.1
          have b' : (s.asked 0).length = T1 + 1 := b.2.2.1
          omega
        | flipping _ _ =>
          rw [hc] at a b
          have a' := a.2.2.1
          have b' : (s.asked 0).length = T1 + 1 := b.2.2.1
          omega
      subst eT
      refine go (.send 0) _ T1 (fun _ _ _ h => by cases h) hm hi1 rfl ?_
      show T1 - (upd s.out 0 (s.out 0 ++ [hwFlit c W (s.mem 0 c (s.rd 0))]) 0).length + (s.call 0).weight W ≤ n
      rw [upd_same, List.length_append]
      show T1 - ((s.out 0).length + 1) + _ ≤ n
      omega

/-- **No flit is held back.** From every reachable state the call and the hardware can
finish: everything handed over goes out and the call returns. -/
theorem sent_all_partial (c : Ch) (W : Nat) (hW : W ≤ 32 * hwWords c) (s : Tx) (h : TxReach c W (TxMove.Plain W) s) :
    ∃ ms s', Tx.runs c W s ms = some s' ∧ (∀ m ∈ ms, ∀ p b f, m ≠ .start p b f) ∧ s'.out 0 = s.asked 0 ∧ s'.call 0 = .idle := by
  obtain ⟨T, hi⟩ := tx_inv hW h
  exact drain c W hW _ s T hi (Nat.le_refl _)

end Verif.ChiHw
