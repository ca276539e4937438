import Verif.RtlRdata.Keep

/-! # One cycle -/

namespace Verif.RtlRdata

open RtlFifo (Queue)

section
variable {δ σ : Type} {c : Cfg} {w : World δ σ} {g : View δ σ} {i : In δ σ}

theorem cur_rest {t : Item δ σ} (h : t ∈ g.cur) : t ∈ g.rest := by
  unfold View.rest
  simp only [List.mem_append]
  exact .inr (.inr (.inr (.inr (.inr (.inr (.inl h))))))

theorem from_ne {a : Ask δ σ} {j : Nat} (h : j < a.data.length) :
    ∃ x, itemsFrom a j (a.data.drop j) = ⟨a, j, x⟩ :: itemsFrom a (j + 1) (a.data.drop (j + 1)) := by
  refine ⟨a.data[j], ?_⟩
  rw [List.drop_eq_getElem_cons h, itemsFrom]

theorem cur_open (v : Inv c w g) {a : Ask δ σ} {j : Nat} (h : j < a.data.length) (hc : g.cur = itemsFrom a j (a.data.drop j)) : a ∈ w.isOpen := by
  obtain ⟨x, hx⟩ := from_ne h
  have : (⟨a, j, x⟩ : Item δ σ) ∈ g.rest := cur_rest (by rw [hc, hx]; exact List.mem_cons_self ..)
  exact mem_open v this

theorem limit_le (c : Cfg) : c.limit ≤ 256 := by
  unfold Cfg.limit
  split <;> omega

/-- What the registers say of a burst which is open. -/
theorem fields_open (hc : c.Good) (v : Inv c w g) (pol : Polite c w i) {a : Ask δ σ} (h : a ∈ w.isOpen) :
    beats c i a.idx = a.data.length ∧ base c i a.idx = a.place ∧ i.resp a.idx = a.resp ∧ 0 < a.data.length ∧ a.data.length ≤ c.limit := by
  have h1 := pol.held a h
  obtain ⟨h2, h3⟩ := v.some a (open_asked h)
  have h4 := askOf_len c i a.idx
  rw [h1] at h4
  have h5 : (askOf c i a.idx).place = i.off a.idx / c.bytes := rfl
  have h6 : (askOf c i a.idx).resp = i.resp a.idx := rfl
  rw [h1] at h5 h6
  refine ⟨?_, ?_, h6.symm, List.length_pos_iff.2 h2, h3⟩
  · rw [beats_eq hc.bytes i a.idx (by have := limit_le c; omega), h4]
  · rw [base_eq, h5]

theorem x_keep : (step c w.s i).x.last = if w.s.xRden && !w.s.x.items.isEmpty then w.s.x.items.head? else w.s.x.last := rfl

theorem items_eq (a : Ask δ σ) : items a = itemsFrom a 0 (a.data.drop 0) := rfl

theorem read_new (hb : c.Good) (v : Inv c w g) (pol : Polite c w i) (hs : w.s.dst = .newRead) :
    ∃ a x, g.cur = ⟨a, 0, x⟩ :: itemsFrom a 1 (a.data.drop 1) ∧ a ∈ w.isOpen ∧ dout w.s = a.idx ∧ w.s.xRden = false ∧
      beats c i (dout w.s) = a.data.length ∧ base c i (dout w.s) = a.place ∧ i.resp (dout w.s) = a.resp ∧ 0 < a.data.length ∧
      a.data.length ≤ c.limit := by
  have h := v.cur
  unfold Cur at h
  rw [hs] at h
  obtain ⟨h1, a, h2, h3, h4⟩ := h
  have hl : 0 < a.data.length := List.length_pos_iff.2 h4
  have ho := cur_open v (j := 0) hl h3
  obtain ⟨x, hx⟩ := from_ne (j := 0) hl
  have hd : dout w.s = a.idx := by simp [dout, h2]
  rw [hd]
  exact ⟨a, x, by rw [h3, items_eq, hx], ho, rfl, h1, fields_open hb v pol ho⟩

theorem read_con (hb : c.Good) (v : Inv c w g) (pol : Polite c w i) (hs : w.s.dst = .conRead) :
    ∃ a j x, g.cur = ⟨a, j, x⟩ :: itemsFrom a (j + 1) (a.data.drop (j + 1)) ∧ a ∈ w.isOpen ∧ j < a.data.length ∧ w.s.count + 1 = j ∧
      w.s.idx = a.idx ∧ w.s.len + 1 = a.data.length ∧ w.s.next = (a.place + j) % c.words ∧ w.s.xRden = false ∧
      i.resp w.s.idx = a.resp ∧ a.data.length ≤ c.limit := by
  have h := v.cur
  unfold Cur at h
  rw [hs] at h
  obtain ⟨h1, a, j, h2, h3, h4, h5, h6, h7⟩ := h
  have ho := cur_open v h3 h2
  obtain ⟨x, hx⟩ := from_ne h3
  obtain ⟨_, _, f3, _, f5⟩ := fields_open hb v pol ho
  exact ⟨a, j, x, by rw [h2, hx], ho, h3, h4, h5, h6, h7, h1, by rw [h5]; exact f3, f5⟩

theorem con_last {a : Ask δ σ} {j : Nat} (h1 : w.s.count + 1 = j) (h2 : w.s.len + 1 = a.data.length) :
    conLast w.s = decide (j + 1 = a.data.length) := by
  unfold conLast
  rw [h1, ← h2]
  by_cases h : j = w.s.len <;> simp [h]

theorem cur_next (hb : c.Good) (v : Inv c w g) (pol : Polite c w i) :
    Cur c (step c w.s i) (g.next c w.s i) := by
  have hc := v.cur
  unfold Cur
  have ed : (step c w.s i).dst = dstNext c w.s i := rfl
  have er : (step c w.s i).xRden = xRdenNext w.s := rfl
  rw [ed]
  cases hst : w.s.dst
  · unfold Cur at hc
    rw [hst] at hc
    dsimp only at hc
    have e2 : (g.next c w.s i).cur = [] := by simp [View.next, hc.1, hc.2, reading, v0Next, hst]
    by_cases hx : w.s.x.items = []
    · have : dstNext c w.s i = .idle := by simp [dstNext, hst, hx]
      rw [this]
      exact ⟨by rw [er]; simp [xRdenNext, hst, hx], e2⟩
    · have : dstNext c w.s i = .new := by simp [dstNext, hst, hx]
      rw [this]
      refine .inl ⟨by rw [er]; simp [xRdenNext, hst, hx], e2, ?_⟩
      have hne : g.xs ≠ [] := by
        intro h
        rw [v.x, h] at hx
        exact hx rfl
      simp [View.next, hc.1, hne]
  · unfold Cur at hc
    rw [hst] at hc
    dsimp only at hc
    have e1 : xRdenNext w.s = false := by simp [xRdenNext, hst]
    have key : ∃ a, (step c w.s i).x.last = some a.idx ∧ (g.next c w.s i).cur = items a ∧ a.data ≠ [] := by
      rcases hc with ⟨h1, h2, h3⟩ | ⟨h1, a, h2, h3, h4⟩
      · cases hx : g.xs with
        | nil => exact absurd hx h3
        | cons a t =>
          refine ⟨a, ?_, ?_, v.xsNe a (by rw [hx]; exact List.mem_cons_self ..)⟩
          · rw [x_keep, h1, v.x, hx]; rfl
          · simp [View.next, h1, hx]
      · refine ⟨a, ?_, ?_, h4⟩
        · rw [x_keep, h1]; exact h2
        · simp [View.next, h1, reading, v0Next, hst, h3]
    cases hf : almostFull c w.s
    · have : dstNext c w.s i = .newRead := by simp [dstNext, hst, hf]
      rw [this]
      exact ⟨by rw [er, e1], key⟩
    · have : dstNext c w.s i = .new := by simp [dstNext, hst, hf]
      rw [this]
      exact .inr ⟨by rw [er, e1], key⟩
  · obtain ⟨a, x, h1, h2, h3, h4, h5, h6, h7, h8, h9⟩ := read_new hb v pol hst
    have e1 : xRdenNext w.s = false := by simp [xRdenNext, hst]
    have e2 : (g.next c w.s i).cur = itemsFrom a 1 (a.data.drop 1) := by
      simp [View.next, h4, reading, v0Next, hst, h1]
    by_cases hn : a.data.length = 1
    · have : dstNext c w.s i = .idle := by simp [dstNext, hst, h5, hn]
      rw [this]
      refine ⟨by rw [er, e1], ?_⟩
      rw [e2, List.drop_of_length_le (by omega), itemsFrom]
    · have key : (step c w.s i).xRden = false ∧ ∃ a j, (g.next c w.s i).cur = itemsFrom a j (a.data.drop j) ∧ j < a.data.length ∧
          (step c w.s i).count + 1 = j ∧ (step c w.s i).idx = a.idx ∧ (step c w.s i).len + 1 = a.data.length ∧
          (step c w.s i).next = (a.place + j) % c.words := by
        refine ⟨by rw [er, e1], a, 1, e2, by omega, ?_, ?_, ?_, ?_⟩
        · show countNext w.s + 1 = 1
          simp [countNext, hst]
        · show idxNext w.s = a.idx
          simp [idxNext, hst, h3]
        · show lenNext c w.s i + 1 = a.data.length
          simp only [lenNext, hst, h5]
          (have := limit_le c; omega)
        · show nextNext c w.s i = _
          simp [nextNext, hst, h6]
      cases hf : almostFull c w.s
      · have : dstNext c w.s i = .conRead := by simp [dstNext, hst, hf, h5, hn]
        rw [this]
        exact key
      · have : dstNext c w.s i = .conWait := by simp [dstNext, hst, hf, h5, hn]
        rw [this]
        exact key
  · obtain ⟨a, j, x, h1, h2, h3, h4, h5, h6, h7, h8, _, h9⟩ := read_con hb v pol hst
    have e1 : xRdenNext w.s = false := by simp [xRdenNext, hst]
    have e2 : (g.next c w.s i).cur = itemsFrom a (j + 1) (a.data.drop (j + 1)) := by
      simp [View.next, h8, reading, v0Next, hst, h1]
    have hl := con_last (w := w) (a := a) h4 h6
    by_cases hn : j + 1 = a.data.length
    · have : dstNext c w.s i = .idle := by simp [dstNext, hst, hl, hn]
      rw [this]
      refine ⟨by rw [er, e1], ?_⟩
      rw [e2, List.drop_of_length_le (by omega), itemsFrom]
    · have key : (step c w.s i).xRden = false ∧ ∃ a j, (g.next c w.s i).cur = itemsFrom a j (a.data.drop j) ∧ j < a.data.length ∧
          (step c w.s i).count + 1 = j ∧ (step c w.s i).idx = a.idx ∧ (step c w.s i).len + 1 = a.data.length ∧
          (step c w.s i).next = (a.place + j) % c.words := by
        refine ⟨by rw [er, e1], a, j + 1, e2, by omega, ?_, ?_, ?_, ?_⟩
        · show countNext w.s + 1 = j + 1
          simp only [countNext, hst]
          (have := limit_le c; omega)
        · show idxNext w.s = a.idx
          simp [idxNext, hst, h5]
        · show lenNext c w.s i + 1 = a.data.length
          simp only [lenNext, hst, h6]
        · show nextNext c w.s i = _
          simp only [nextNext, hst, h7]
          rw [Nat.mod_add_mod, Nat.add_assoc]
      cases hf : almostFull c w.s
      · have : dstNext c w.s i = .conRead := by simp [dstNext, hst, hf, hl, hn]
        rw [this]
        exact key
      · have : dstNext c w.s i = .conWait := by simp [dstNext, hst, hf, hl, hn]
        rw [this]
        exact key
  · unfold Cur at hc
    rw [hst] at hc
    obtain ⟨h1, a, j, h2, h3, h4, h5, h6, h7⟩ := hc
    have e1 : xRdenNext w.s = false := by simp [xRdenNext, hst]
    have e2 : (g.next c w.s i).cur = itemsFrom a j (a.data.drop j) := by
      simp [View.next, h1, reading, v0Next, hst, h2]
    have key : (step c w.s i).xRden = false ∧ ∃ a j, (g.next c w.s i).cur = itemsFrom a j (a.data.drop j) ∧ j < a.data.length ∧
        (step c w.s i).count + 1 = j ∧ (step c w.s i).idx = a.idx ∧ (step c w.s i).len + 1 = a.data.length ∧
        (step c w.s i).next = (a.place + j) % c.words := by
      refine ⟨by rw [er, e1], a, j, e2, h3, ?_, ?_, ?_, ?_⟩
      · show countNext w.s + 1 = j
        simp only [countNext, hst, h4]
      · show idxNext w.s = a.idx
        simp [idxNext, hst, h5]
      · show lenNext c w.s i + 1 = a.data.length
        simp only [lenNext, hst, h6]
      · show nextNext c w.s i = _
        simp only [nextNext, hst, h7]
    cases hf : almostFull c w.s
    · have : dstNext c w.s i = .conRead := by simp [dstNext, hst, hf]
      rw [this]
      exact key
    · have : dstNext c w.s i = .conWait := by simp [dstNext, hst, hf]
      rw [this]
      exact key

/-- The word whose address is given to the RAM. -/
theorem p0_next (hb : c.Good) (v : Inv c w g) (pol : Polite c w i) :
    v0Next w.s = (g.next c w.s i).p0.isSome ∧ ∀ t, (g.next c w.s i).p0 = some t →
      d0Next c w.s i = some t.side ∧ a0Next c w.s i = (t.a.place + t.j) % c.words := by
  show v0Next w.s = (if v0Next w.s then g.cur.head? else none).isSome ∧ ∀ t, (if v0Next w.s then g.cur.head? else none) = some t → _
  cases hst : w.s.dst
  · simp [v0Next, hst]
  · simp [v0Next, hst]
  · obtain ⟨a, x, h1, h2, h3, h4, h5, h6, h7, h8, h9⟩ := read_new hb v pol hst
    have e : v0Next w.s = true := by simp [v0Next, hst]
    rw [e, h1]
    refine ⟨rfl, ?_⟩
    rintro t ⟨⟩
    refine ⟨?_, ?_⟩
    · have h7' : i.resp a.idx = a.resp := by rw [← h3]; exact h7
      have e : decide (a.data.length = 1) = decide (0 + 1 = a.data.length) := by
        rw [decide_eq_decide]
        omega
      simp only [d0Next, hst, h5, Item.side, Item.last, e]
      rw [h3, h7']
    · simp [a0Next, hst, h6]
  · obtain ⟨a, j, x, h1, h2, h3, h4, h5, h6, h7, h8, h9, h10⟩ := read_con hb v pol hst
    have e : v0Next w.s = true := by simp [v0Next, hst]
    rw [e, h1]
    refine ⟨rfl, ?_⟩
    rintro t ⟨⟩
    refine ⟨?_, ?_⟩
    · simp only [d0Next, hst, con_last (w := w) (a := a) h4 h6, Item.side, Item.last]
      rw [h9, h5]
    · simp [a0Next, hst, h7]
  · simp [v0Next, hst]

theorem reading_next (h : reading (step c w.s i) = true) : w.s.r.items.length < c.high := by
  have h : v0Next (step c w.s i) = true := h
  have ed : (step c w.s i).dst = dstNext c w.s i := rfl
  unfold v0Next at h
  rw [ed] at h
  have hf : almostFull c w.s = false := by
    cases hf : almostFull c w.s
    · rfl
    · exfalso
      unfold dstNext at h
      rw [hf] at h
      cases hst : w.s.dst <;> rw [hst] at h <;> dsimp only at h
      · cases hx : w.s.x.items.isEmpty <;> rw [hx] at h <;> simp at h
      · simp at h
      · by_cases hn : beats c i (dout w.s) = 1 <;> simp [hn] at h
      · cases hx : conLast w.s <;> rw [hx] at h <;> simp at h
      · simp at h
  simp only [almostFull, decide_eq_false_iff_not] at hf
  omega

theorem bit_le (b : Bool) : bit b ≤ 1 := by cases b <;> decide

theorem r_len (v : Inv c w g) : (step c w.s i).r.items.length ≤ w.s.r.items.length + bit w.s.v3 := by
  show (rNext w.s).items.length ≤ _
  rw [(r_next (room3 v) (din3' v)).1, List.length_append]
  have h1 : (if w.s.rRden then w.s.r.items.drop 1 else w.s.r.items).length ≤ w.s.r.items.length := by
    split
    · simp
    · exact Nat.le_refl _
  have h2 : (if w.s.v3 then (rDin w.s).toList else []).length ≤ bit w.s.v3 := by
    cases w.s.v3
    · simp [bit]
    · cases rDin w.s <;> simp [bit]
  omega

/-- Six words in a row are of a burst of six. -/
theorem not_six (hb : c.Good) (v : Inv c w g) (pol : Polite c w i) (hh : c.high = 28) (hr : reading (step c w.s i) = true)
    (h3 : w.s.v3 = true) (h2 : w.s.v2 = true) (h1 : w.s.v1 = true) (h0 : w.s.v0 = true) : reading w.s = false := by
  have hrun := v.run
  have hr : v0Next (step c w.s i) = true := hr
  have ed : (step c w.s i).dst = dstNext c w.s i := rfl
  unfold Run at hrun
  unfold reading v0Next
  cases hst : w.s.dst <;> rw [hst] at hrun <;> dsimp only at hrun ⊢
  · rw [h0] at hrun
    cases hrun
  · exfalso
    have hk := hrun.2.2 h0 h1 h2 h3
    obtain ⟨a, j, x, _, _, k1, k2, _, k4, _, _, _, k5⟩ := read_con hb v pol hst
    have hl : c.limit = 5 := by
      unfold Cfg.limit
      rw [if_neg (by omega)]
    have hc := con_last (w := w) (a := a) k2 k4
    rw [decide_eq_true (by omega)] at hc
    unfold v0Next at hr
    rw [ed] at hr
    simp [dstNext, hst, hc] at hr

theorem room_next (hb : c.Good) (v : Inv c w g) (pol : Polite c w i) : held (step c w.s i) + bit (reading (step c w.s i)) ≤ 32 := by
  have h1 := r_len v (i := i)
  have h2 := v.room
  have e : held (step c w.s i) = (step c w.s i).r.items.length + bit w.s.v2 + bit w.s.v1 + bit w.s.v0 + bit (reading w.s) := rfl
  unfold held at h2
  have b0 := bit_le w.s.v0
  have b1 := bit_le w.s.v1
  have b2 := bit_le w.s.v2
  have b3 := bit_le w.s.v3
  have br := bit_le (reading w.s)
  cases hr : reading (step c w.s i)
  · simp only [bit, Bool.false_eq_true, if_false] at *
    omega
  · have h3 := reading_next hr
    have : bit true = 1 := rfl
    by_cases hh : c.high = 28
    · have h6 := not_six hb v pol hh hr
      have : bit w.s.v3 + bit w.s.v2 + bit w.s.v1 + bit w.s.v0 + bit (reading w.s) ≤ 4 := by
        revert h6
        cases w.s.v3 <;> cases w.s.v2 <;> cases w.s.v1 <;> cases w.s.v0 <;> cases reading w.s <;> simp [bit]
      omega
    · have := hb.high
      omega

theorem run_next (hb : c.Good) (v : Inv c w g) (pol : Polite c w i) : Run (step c w.s i) := by
  have hrun := v.run
  have ed : (step c w.s i).dst = dstNext c w.s i := rfl
  have e0 : (step c w.s i).v0 = v0Next w.s := rfl
  have e1 : (step c w.s i).v1 = w.s.v0 := rfl
  have e2 : (step c w.s i).v2 = w.s.v1 := rfl
  have e3 : (step c w.s i).v3 = w.s.v2 := rfl
  have ec : (step c w.s i).count = countNext w.s := rfl
  unfold Run at hrun ⊢
  rw [ed, e0, e1, e2, e3, ec]
  cases hst : w.s.dst <;> rw [hst] at hrun <;> dsimp only at hrun
  · cases hx : w.s.x.items.isEmpty <;> simp [dstNext, hst, hx]
  · cases hf : almostFull c w.s <;> simp [dstNext, hst, hf, v0Next]
  · by_cases hn : beats c i (dout w.s) = 1
    · simp [dstNext, hst, hn]
    · cases hf : almostFull c w.s <;> simp [dstNext, hst, hn, hf, hrun]
  · obtain ⟨a, j, x, _, _, k1, k2, _, k4, _, _, _, k5⟩ := read_con hb v pol hst
    have hl := limit_le c
    have : countNext w.s = w.s.count + 1 := by
      simp only [countNext, hst]
      omega
    rw [this]
    have key : (v0Next w.s = true → w.s.v0 = true → 1 ≤ w.s.count + 1) ∧ (v0Next w.s = true → w.s.v0 = true → w.s.v1 = true → 2 ≤ w.s.count + 1) ∧
        (v0Next w.s = true → w.s.v0 = true → w.s.v1 = true → w.s.v2 = true → 3 ≤ w.s.count + 1) :=
      ⟨fun _ _ => by omega, fun _ a b => by have := hrun.1 a b; omega, fun _ a b d => by have := hrun.2.1 a b d; omega⟩
    cases hx : conLast w.s
    · cases hf : almostFull c w.s <;> simp only [dstNext, hst, hx, hf] <;> exact key
    · simp [dstNext, hst, hx]
  · cases hf : almostFull c w.s <;> simp [dstNext, hst, hf, v0Next]

theorem fresh_x (v : Inv c w g) (pol : Polite c w i) {d : Nat} (hd : i.push = some d) : d ∉ w.s.x.items := by
  intro h
  rw [v.x] at h
  obtain ⟨a, ha, he⟩ := List.mem_map.1 h
  exact (pol.fresh d hd).2.2 a (xs_open v ha) he

theorem x_room (v : Inv c w g) (pol : Polite c w i) {d : Nat} (hd : i.push = some d) : w.s.x.items.length < 16 := by
  have hn : (d :: w.s.x.items).Nodup := List.nodup_cons.2 ⟨fresh_x v pol hd, v.nodup⟩
  have := List.Nodup.length_le_of_subset hn (l₂ := List.range 16) (by
    intro a ha
    rcases List.mem_cons.1 ha with rfl | ha
    · exact List.mem_range.2 (pol.fresh a hd).1
    · exact List.mem_range.2 (v.lt a ha))
  simp only [List.length_cons, List.length_range] at this
  omega

theorem x_items (v : Inv c w g) (pol : Polite c w i) :
    (step c w.s i).x.items = (if w.s.xRden then w.s.x.items.drop 1 else w.s.x.items) ++ i.push.toList := by
  show (if w.s.xRden then w.s.x.items.drop 1 else w.s.x.items) ++ (if i.push.isSome && decide (w.s.x.items.length < 16) then [i.push.getD 0] else []) = _
  cases hp : i.push with
  | none => simp
  | some d => simp [x_room v pol hp]

theorem inv_next (hb : c.Good) (v : Inv c w g) (pol : Polite c w i) : Inv c (w.next c i) (g.next c w.s i) where
  all := all_next v
  some := by
    intro a ha
    rcases List.mem_append.1 ha with ha | ha
    · exact v.some a ha
    · cases hp : i.push with
      | none => rw [hp] at ha; cases ha
      | some d =>
        rw [hp] at ha
        have : a = askOf c i d := by simpa using ha
        have hl := askOf_len c i d
        have := (pol.fresh d hp).2.1
        subst_vars
        refine ⟨?_, by omega⟩
        intro h
        rw [h] at hl
        simp at hl
  past := by
    show (g.past ++ if i.rready then g.sh.toList else []).map Item.beat = w.took ++ if i.rready then (shown w.s).toList else []
    rw [List.map_append, v.past, v.sh]
    cases i.rready
    · rfl
    · cases g.sh <;> rfl
  ctl := ctl_step v.ctl (room3 v) (din3' v) i
  sh := sh_next v
  rq := rq_next v
  v3 := v.v2
  v2 := v.v1
  v1 := v.v0
  v0 := (p0_next hb v pol).1
  d3 := v.d2
  d2 := v.d1
  d1 := v.d0
  d0 := fun t h => ((p0_next hb v pol).2 t h).1
  m3 := v.m2
  m2 := by
    intro t h
    have h : g.p1 = .some t := h
    show Option.some (i.ram w.s.a1) = Option.some t.x
    have hr : t ∈ g.rest := by
      unfold View.rest
      simp only [List.mem_append, h]
      exact .inr (.inr (.inr (.inr (.inl (List.mem_singleton.2 rfl)))))
    have h1 := pol.held t.a (mem_open v hr)
    have h2 := good_rest v hr
    rw [← h1] at h2
    rw [askOf_word c i _ _ _ h2, v.a1 t h, h1]
  a1 := v.a0
  a0 := fun t h => ((p0_next hb v pol).2 t h).2
  x := by
    show (step c w.s i).x.items = ((if w.s.xRden then g.xs.drop 1 else g.xs) ++ i.push.toList.map (askOf c i)).map (·.idx)
    rw [x_items v pol, v.x, List.map_append, List.map_map]
    have e : ((·.idx) ∘ askOf c i) = (id : Nat → Nat) := rfl
    rw [e, List.map_id]
    cases w.s.xRden <;> simp
  xsNe := by
    intro a ha
    rcases List.mem_append.1 ha with ha | ha
    · refine v.xsNe a ?_
      split at ha
      · exact List.mem_of_mem_drop ha
      · exact ha
    · cases hp : i.push with
      | none => rw [hp] at ha; cases ha
      | some d =>
        rw [hp] at ha
        have : a = askOf c i d := by simpa using ha
        have hl := askOf_len c i d
        subst this
        intro h
        rw [h] at hl
        simp at hl
  nodup := by
    show (step c w.s i).x.items.Nodup
    rw [x_items v pol]
    cases hp : i.push with
    | none =>
      simp only [Option.toList, List.append_nil]
      split
      · exact v.nodup.drop
      · exact v.nodup
    | some d =>
      have hf := fresh_x v pol hp
      rw [List.nodup_append]
      refine ⟨?_, by simp, ?_⟩
      · split
        · exact v.nodup.drop
        · exact v.nodup
      · intro a ha b hb'
        have : b = d := by simpa using hb'
        rintro rfl
        subst this
        split at ha
        · exact hf (List.mem_of_mem_drop ha)
        · exact hf ha
  lt := by
    intro d hd
    have hd : d ∈ (step c w.s i).x.items := hd
    rw [x_items v pol] at hd
    rcases List.mem_append.1 hd with h | h
    · refine v.lt d ?_
      split at h
      · exact List.mem_of_mem_drop h
      · exact h
    · cases hp : i.push with
      | none => rw [hp] at h; cases h
      | some e =>
        rw [hp] at h
        have : d = e := by simpa using h
        subst this
        exact (pol.fresh d hp).1
  cur := cur_next hb v pol
  room := room_next hb v pol
  run := run_next hb v pol

theorem inv_run (hb : c.Good) (ins : List (In δ σ)) : ∀ {w : World δ σ} {g : View δ σ}, Inv c w g → AllPolite c w ins →
    ∃ g', Inv c (w.run c ins) g' := by
  induction ins with
  | nil => intro w g v _; exact ⟨g, v⟩
  | cons i t ih => intro w g v p; exact ih (inv_next hb v p.1) p.2

end

end Verif.RtlRdata
