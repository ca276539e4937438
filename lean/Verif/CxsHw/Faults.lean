import Verif.CxsHw.Props
/-! # CXS hardware bridge: where it fails, and runs that show the theorems apply -/

namespace Verif.CxsHw
open Verif.Cxs
open Verif.Cxs.Spec
open Verif.ChiHw (upd clearNext)

/-! ## Examples -/

/-- 256 bits, at most two packets in a flit. -/
def cfg256 : Cfg := ⟨8, 2⟩

/-- 512 bits, at most four packets in a flit: a control word of 36 bits. -/
def cfg512 : Cfg := ⟨16, 4⟩

theorem cfg256_ok : HwOk cfg256 := by
  refine ⟨?_, ?_⟩
  · constructor <;> decide
  · decide

def write64 : Msg :=
  { attr := { msgType := tReq, txnID := 0x123, reqOp := 0x21, reqAttr := 0x60, tgtID := 5, srcID := 9, qos := 3 }
    write := true, addr := 0x4_0100_0000_1240#64, data := (List.range 64).map (BitVec.ofNat 8), be := [] }

def read64 : Msg :=
  { attr := { msgType := tReq, txnID := 7, reqOp := 0x01, reqAttr := 0x60, msgCredit := 11 }
    write := false, addr := 0x1240, data := [], be := [] }

/-- Continues the request before it. -/
def chained : Msg := { read64 with attr := { read64.attr with reqOp := opReqChain } }

def steps (p n : Nat) : List Move := List.replicate n (.step p)
def works (n : Nat) : List Move := List.replicate n .work

/-! ## Helpers -/

theorem runs_keep {c : Cfg} {k : Hdr} {P : St → Prop} (hk : ∀ (s s' : St) (m : Move), P s → s.move c k m = some s' → P s') :
    ∀ (ms : List Move) (s s' : St), P s → St.runs c k s ms = some s' → P s'
  | [], s, s', h, e => by cases e; exact h
  | m :: ms, s, s', h, e => by
    unfold St.runs at e
    cases hm : s.move c k m with
    | none => rw [hm] at e; cases e
    | some s1 => rw [hm] at e; exact runs_keep hk ms s1 s' (hk s s1 m h hm) e

/-- A step of process `p` leaves the other calls alone, and `m_txDone` is not set by it. -/
theorem step_calls {c : Cfg} {k : Hdr} {s s' : St} {p : Nat} (e : s.step c k p = some s') :
    (∀ q, q ≠ p → s'.call q = s.call q) ∧ (s.done = false → s'.done = false) := by
  unfold St.step at e
  cases hcall : s.call p with
  | idle => rw [hcall] at e; cases e
  | waiting => rw [hcall] at e; cases e
  | wants m =>
    rw [hcall] at e
    simp only [] at e
    by_cases ho : s.owner = none
    · rw [if_pos ho, Option.map_eq_some_iff] at e
      obtain ⟨b, _, rfl⟩ := e
      exact ⟨fun q hq => upd_other _ _ hq, fun _ => rfl⟩
    · rw [if_neg ho] at e; cases e
  | filling t flip =>
    rw [hcall] at e
    simp only [] at e
    by_cases hd : t.done = true
    · rw [if_pos hd] at e; cases e; exact ⟨fun q hq => upd_other _ _ hq, fun h => h⟩
    · rw [if_neg hd, Option.bind_eq_some_iff] at e
      obtain ⟨r, _, e⟩ := e
      rw [Option.map_eq_some_iff] at e
      obtain ⟨b, _, rfl⟩ := e
      exact ⟨fun q hq => upd_other _ _ hq, fun h => h⟩
  | writing t flip ws =>
    rw [hcall] at e
    cases ws with
    | nil => cases e; exact ⟨fun q hq => upd_other _ _ hq, fun h => h⟩
    | cons w ws => cases e; exact ⟨fun q hq => upd_other _ _ hq, fun h => h⟩
  | flipping flip => rw [hcall] at e; cases e; exact ⟨fun q hq => upd_other _ _ hq, fun h => h⟩
  | checking =>
    rw [hcall] at e
    simp only [] at e
    by_cases hd : s.done = true
    · rw [if_pos hd] at e; cases e; exact ⟨fun q hq => upd_other _ _ hq, fun h => h⟩
    · rw [if_neg hd] at e; cases e; exact ⟨fun q hq => upd_other _ _ hq, fun h => h⟩
  | ready => rw [hcall] at e; cases e; exact ⟨fun q hq => upd_other _ _ hq, fun h => h⟩

/-- A call under way, with `m_txDone` false, does not return by its own steps. -/
theorem step_own {c : Cfg} {k : Hdr} {s s' : St} {p : Nat} (e : s.step c k p = some s') (h1 : s.call p ≠ .ready)
    (h2 : (∀ m, s.call p ≠ .wants m) → s.done = false) :
    s'.call p ≠ .idle ∧ s'.call p ≠ .ready ∧ (∀ m, s'.call p ≠ .wants m) ∧ s'.done = false := by
  unfold St.step at e
  cases hcall : s.call p with
  | idle => rw [hcall] at e; cases e
  | waiting => rw [hcall] at e; cases e
  | wants m =>
    rw [hcall] at e
    simp only [] at e
    by_cases ho : s.owner = none
    · rw [if_pos ho, Option.map_eq_some_iff] at e
      obtain ⟨b, _, rfl⟩ := e
      simp [upd_same]
    · rw [if_neg ho] at e; cases e
  | filling t flip =>
    have hd' := h2 (by rw [hcall]; simp)
    rw [hcall] at e
    simp only [] at e
    by_cases hd : t.done = true
    · rw [if_pos hd] at e; cases e; simp [upd_same, hd']
    · rw [if_neg hd, Option.bind_eq_some_iff] at e
      obtain ⟨r, _, e⟩ := e
      rw [Option.map_eq_some_iff] at e
      obtain ⟨b, _, rfl⟩ := e
      simp [upd_same, hd']
  | writing t flip ws =>
    have hd' := h2 (by rw [hcall]; simp)
    rw [hcall] at e
    cases ws with
    | nil => cases e; simp [upd_same, hd']
    | cons w ws => cases e; simp [upd_same, hd']
  | flipping flip =>
    have hd' := h2 (by rw [hcall]; simp)
    rw [hcall] at e; cases e; simp [upd_same, hd']
  | checking =>
    have hd' := h2 (by rw [hcall]; simp)
    rw [hcall] at e
    simp only [] at e
    rw [if_neg (by rw [hd']; simp)] at e; cases e; simp [upd_same, hd']
  | ready => exact absurd hcall h1

/-! ## Control words of more than 32 bits -/

theorem gather_two (r1 r2 : BitVec 32) (rs : List (BitVec 32)) : gather 0 (r1 :: r2 :: rs) = none := by
  simp [gather]

/-- With a control word of more than 32 bits no flit is ever received: the second half is
shifted by 32 in a 32-bit type, which is undefined (412-420). -/
theorem wide_control_never_received (c : Cfg) (hn : 32 < c.cntlW) (k : Hdr) (s : St) (h : Reach c k (fun _ => True) s) :
    s.fetched = [] ∧ s.got = [] := by
  suffices s.fetched = [] ∧ s.got = [] ∧ s.msgs = [] from ⟨this.1, this.2.1⟩
  induction h with
  | init => exact ⟨rfl, rfl, rfl⟩
  | @move s s' m _ _ e ih =>
    cases m with
    | call p m =>
      simp only [St.move] at e
      cases hc : s.call p <;> rw [hc] at e <;> simp only [] at e <;> try (cases e)
      by_cases hp : p ≠ 0 ∨ s.work.isHanding = true
      · rw [if_pos hp] at e; cases e; exact ih
      · rw [if_neg hp] at e; cases e
    | step p =>
      obtain ⟨_, _, _, _, _, _, _, _, a, b, d⟩ := step_rx (show s.step c k p = some s' from e)
      rw [a, b, d]; exact ih
    | work =>
      have e : s.worker c k = some s' := e
      unfold St.worker at e
      cases hw : s.work with
      | idle =>
        rw [hw] at e; simp only [Option.some.injEq] at e
        by_cases hf : (s.tflag || s.rflag) = true
        · rw [if_pos hf] at e; subst e; exact ih
        · rw [if_neg hf] at e; subst e; exact ih
      | seen t r => rw [hw] at e; cases e; exact ih
      | cleared t r =>
        rw [hw] at e; simp only [Option.some.injEq] at e
        by_cases ht : t = true
        · rw [if_pos ht] at e; subst e; exact ih
        · rw [if_neg ht] at e; subst e; exact ih
      | owning => rw [hw] at e; cases e; exact ih
      | serving left => rw [hw] at e; cases e; exact ih
      | fetching left ws =>
        rw [hw] at e
        simp only [] at e
        cases ha : (flitReads c s.ridx)[ws.length]? with
        | some a => rw [ha] at e; cases e; exact ih
        | none =>
          exfalso
          rw [ha] at e
          simp only [] at e
          have hl : (flitReads c s.ridx).length = toRegs (fw c) + 2 := by
            unfold flitReads
            rcases fcw_cases c with h | h
            · omega
            · rw [List.length_append, List.length_map, List.length_map, List.length_range, List.length_range, h.2.2]
          have hge : toRegs (fw c) + 2 ≤ ws.length := by rw [← hl]; exact List.getElem?_eq_none_iff.1 ha
          have hd : 2 ≤ (ws.drop (toRegs (fw c))).length := by rw [List.length_drop]; omega
          cases hx : ws.drop (toRegs (fw c)) with
          | nil => rw [hx] at hd; simp at hd
          | cons r1 rs =>
            cases rs with
            | nil => rw [hx] at hd; simp at hd
            | cons r2 rs => rw [hx, gather_two] at e; cases e
      | delivering left => rw [hw] at e; simp only [ih.2.2] at e; cases e; exact ⟨ih.1, ih.2.1, rfl⟩
      | handing left => rw [hw] at e; cases e; exact ih
    | handled =>
      simp only [St.move] at e
      cases hw : s.work <;> rw [hw] at e <;> simp only [] at e <;> try (cases e)
      by_cases h0 : s.call 0 = .idle
      · rw [if_pos h0] at e; cases e; exact ih
      · rw [if_neg h0] at e; cases e
    | take =>
      simp only [St.move] at e
      cases hr : s.reg with
      | some f => rw [hr] at e; cases e
      | none =>
        rw [hr] at e; simp only [] at e
        by_cases ho : s.own = 0
        · rw [if_pos ho] at e; cases e
        · rw [if_neg ho] at e; cases e; exact ih
    | emit =>
      simp only [St.move] at e
      cases hr : s.reg with
      | none => rw [hr] at e; cases e
      | some f => rw [hr] at e; cases e; exact ih
    | arrive f =>
      simp only [St.move] at e
      by_cases ho : s.rown.getLsbD s.wr = true
      · rw [if_pos ho] at e; cases e
      · rw [if_neg ho] at e; cases e; exact ih
    | reset => cases e; exact ih

/-- And with 512 bits and four packets the first flit to arrive ends in it. -/
theorem wide_control_undefined : 32 < cfg512.cntlW ∧
    ∃ s, St.runs cfg512 .opt St.init (Move.arrive (List.replicate 64 0, 0) :: works 23) = some s ∧ s.worker cfg512 .opt = none := by
  refine ⟨by decide, ?_⟩
  have h : ((St.runs cfg512 .opt St.init (Move.arrive (List.replicate 64 0, 0) :: works 23)).map fun s => (s.worker cfg512 .opt).isNone) = some true := by
    decide +kernel
  cases hs : St.runs cfg512 .opt St.init (Move.arrive (List.replicate 64 0, 0) :: works 23) with
  | none => rw [hs] at h; cases h
  | some s =>
    rw [hs] at h
    simp only [Option.map_some, Option.some.injEq, Option.isNone_iff_eq_none] at h
    exact ⟨s, rfl, h⟩

/-! ## A handler that sends -/

/-- In a handler of a message received, a call to send never returns, and the bridge never
hands over another message: the handler runs in the worker, which alone could tell the call
that its flits are gone (258-259, 462, 509-512). -/
theorem send_from_handler_hangs (c : Cfg) (k : Hdr) (s s1 s' : St) (m : Msg) (ms : List Move)
    (e : s.move c k (.call 0 m) = some s1) (h : St.runs c k s1 ms = some s') :
    s'.call 0 ≠ .idle ∧ s'.got = s.got := by
  have h1 : s1.work.isHanding = true ∧ s1.call 0 = .wants m ∧ s1.got = s.got := by
    simp only [St.move] at e
    cases hc : s.call 0 <;> rw [hc] at e <;> simp only [] at e <;> try (cases e)
    by_cases hp : (0 : Nat) ≠ 0 ∨ s.work.isHanding = true
    · rw [if_pos hp] at e; cases e
      exact ⟨hp.resolve_left (fun h => h rfl), upd_same s.call 0 (.wants m), rfl⟩
    · rw [if_neg hp] at e; cases e
  have key := runs_keep (c := c) (k := k) (P := fun x => x.work.isHanding = true ∧ x.call 0 ≠ .idle ∧ x.call 0 ≠ .ready ∧
      ((∀ m, x.call 0 ≠ .wants m) → x.done = false) ∧ x.got = s.got) ?_ ms s1 s'
      ⟨h1.1, by rw [h1.2.1]; simp, by rw [h1.2.1]; simp, fun hx => absurd h1.2.1 (hx m), h1.2.2⟩ h
  · exact ⟨key.2.1, key.2.2.2.2⟩
  · intro x x' mv ⟨i1, i2, i3, i4, i5⟩ e
    cases mv with
    | call p m' =>
      simp only [St.move] at e
      by_cases hp0 : p = 0
      · subst hp0
        cases hc : x.call 0 <;> rw [hc] at e <;> simp only [] at e <;> try (cases e)
        exact absurd hc i2
      · cases hc : x.call p <;> rw [hc] at e <;> simp only [] at e <;> try (cases e)
        rw [if_pos (Or.inl hp0)] at e; cases e
        have : upd x.call p (.wants m') 0 = x.call 0 := upd_other _ _ (fun h => hp0 h.symm)
        simp only [this]
        exact ⟨i1, i2, i3, i4, i5⟩
    | step p =>
      have e : x.step c k p = some x' := e
      obtain ⟨_, _, _, _, _, _, a, _, _, _, b⟩ := step_rx e
      rw [a, b]
      by_cases hp0 : p = 0
      · subst hp0
        obtain ⟨g1, g2, g3, g4⟩ := step_own e i3 i4
        exact ⟨i1, g1, g2, fun _ => g4, i5⟩
      · obtain ⟨g1, g2⟩ := step_calls e
        rw [g1 0 (fun h => hp0 h.symm)]
        exact ⟨i1, i2, i3, fun h => g2 (i4 h), i5⟩
    | work =>
      have e : x.worker c k = some x' := e
      unfold St.worker at e
      cases hw : x.work with
      | handing left => rw [hw] at e; cases e; rw [hw]; exact ⟨rfl, i2, i3, i4, i5⟩
      | _ => rw [hw] at i1; cases i1
    | handled =>
      simp only [St.move] at e
      cases hw : x.work <;> rw [hw] at e <;> simp only [] at e <;> try (cases e)
      rw [if_neg i2] at e; cases e
    | take =>
      simp only [St.move] at e
      cases hr : x.reg with
      | some f => rw [hr] at e; cases e
      | none =>
        rw [hr] at e; simp only [] at e
        by_cases ho : x.own = 0
        · rw [if_pos ho] at e; cases e
        · rw [if_neg ho] at e; cases e; exact ⟨i1, i2, i3, i4, i5⟩
    | emit =>
      simp only [St.move] at e
      cases hr : x.reg with
      | none => rw [hr] at e; cases e
      | some f => rw [hr] at e; cases e; exact ⟨i1, i2, i3, i4, i5⟩
    | arrive f =>
      simp only [St.move] at e
      by_cases ho : x.rown.getLsbD x.wr = true
      · rw [if_pos ho] at e; cases e
      · rw [if_neg ho] at e; cases e; exact ⟨i1, i2, i3, i4, i5⟩
    | reset => cases e; exact ⟨i1, i2, i3, i4, i5⟩

/-! ## Reset while a call waits -/

/-- A reset while a call waits for its flits leaves it waiting for ever, and with it every
later call: nobody sends anything any more (233-263, 559-568). -/
theorem reset_leaves_call_waiting (c : Cfg) (hc : HwOk c) (k : Hdr) (s s1 s' : St) (p : Nat) (ms : List Move)
    (hr : Reach c k (Move.Plain c) s) (hp : s.call p = .waiting) (ho : s.own ≠ 0) (e : s.move c k .reset = some s1)
    (h : St.runs c k s1 ms = some s') : s'.call p = .waiting ∧ s'.owner = some p ∧ s'.sent = s.sent := by
  obtain ⟨hh, hi⟩ := tx_inv hc hr
  have how := hi.owner_of (p := p) (by rw [hp]; exact id)
  have hctl := hi.ctl
  unfold CallsOk at hctl
  rw [how] at hctl
  obtain ⟨hfree, hown⟩ := hctl
  rw [hp] at hown
  obtain ⟨_, hnews, hdone⟩ := hown
  have hne : s.taken.length ≠ hh := by
    intro heq
    apply ho
    rw [hi.own, heq, Nat.sub_self]; rfl
  have hq : s.tflag = false ∧ s.work.tseen = false ∧ s.work.tclr = false := by
    unfold St.news at hnews
    rw [decide_eq_false hne, hdone] at hnews
    cases h1 : s.tflag <;> cases h2 : s.work.tseen <;> cases h3 : s.work.tclr <;> rw [h1, h2, h3] at hnews <;>
      first | exact ⟨rfl, rfl, rfl⟩ | cases hnews
  have key := runs_keep (c := c) (k := k) (P := fun x => x.own = 0 ∧ x.tflag = false ∧ x.work.tseen = false ∧ x.work.tclr = false ∧
      x.owner = some p ∧ x.call p = .waiting ∧ (∀ q, q ≠ p → x.call q = .idle ∨ ∃ m, x.call q = .wants m) ∧ x.sent = s.sent) ?_ ms s1 s'
      (by
        cases e
        refine ⟨rfl, rfl, hq.2.1, hq.2.2, how, hp, fun q hqp => ?_, rfl⟩
        have := hfree q hqp
        show s.call q = .idle ∨ ∃ m, s.call q = .wants m
        cases hcq : s.call q with
        | idle => exact Or.inl rfl
        | wants m => exact Or.inr ⟨m, rfl⟩
        | _ => rw [hcq] at this; cases this) h
  · exact ⟨key.2.2.2.2.2.1, key.2.2.2.2.1, key.2.2.2.2.2.2.2⟩
  · intro x x' mv ⟨i1, i2, i3, i4, i5, i6, i7, i8⟩ e
    cases mv with
    | call q m' =>
      simp only [St.move] at e
      cases hcq : x.call q <;> rw [hcq] at e <;> simp only [] at e <;> try (cases e)
      have hqp : p ≠ q := fun h => by rw [← h, i6] at hcq; cases hcq
      by_cases hz : q ≠ 0 ∨ x.work.isHanding = true
      · rw [if_pos hz] at e; cases e
        refine ⟨i1, i2, i3, i4, i5, ?_, fun r hrp => ?_, i8⟩
        · show upd x.call q (.wants m') p = .waiting
          rw [upd_other _ _ hqp]; exact i6
        · show upd x.call q (.wants m') r = .idle ∨ ∃ m, upd x.call q (.wants m') r = .wants m
          by_cases hrq : r = q
          · subst hrq; exact Or.inr ⟨m', upd_same _ _ _⟩
          · rw [upd_other _ _ hrq]; exact i7 r hrp
      · rw [if_neg hz] at e; cases e
    | step q =>
      exfalso
      have e : x.step c k q = some x' := e
      unfold St.step at e
      by_cases hqp : q = p
      · subst hqp; rw [i6] at e; cases e
      · rcases i7 q hqp with h1 | ⟨m', h1⟩
        · rw [h1] at e; cases e
        · rw [h1] at e; simp only [] at e
          rw [if_neg (by rw [i5]; simp)] at e; cases e
    | work =>
      have e : x.worker c k = some x' := e
      unfold St.worker at e
      cases hw : x.work with
      | idle =>
        rw [hw] at e; simp only [Option.some.injEq] at e
        by_cases hf : (x.tflag || x.rflag) = true
        · rw [if_pos hf] at e; subst e; exact ⟨i1, i2, i2, rfl, i5, i6, i7, i8⟩
        · rw [if_neg hf] at e; subst e; exact ⟨i1, i2, i3, i4, i5, i6, i7, i8⟩
      | seen t r =>
        rw [hw] at e i3; cases e
        have i3 : t = false := i3
        subst i3
        refine ⟨i1, ?_, rfl, rfl, i5, i6, i7, i8⟩
        show (x.tflag && _) = false
        rw [i2]; rfl
      | cleared t r =>
        rw [hw] at e i4; simp only [Option.some.injEq] at e
        have i4 : t = false := i4
        subst i4
        rw [if_neg (by simp)] at e; subst e
        refine ⟨i1, i2, ?_, ?_, i5, i6, i7, i8⟩ <;> · cases r <;> rfl
      | owning => rw [hw] at e; cases e; exact ⟨i1, i2, rfl, rfl, i5, i6, i7, i8⟩
      | serving left =>
        rw [hw] at e; simp only [Option.some.injEq] at e; subst e
        by_cases hl : left = 0
        · simp only [if_pos hl]; exact ⟨i1, i2, rfl, rfl, i5, i6, i7, i8⟩
        · simp only [if_neg hl]; exact ⟨i1, i2, rfl, rfl, i5, i6, i7, i8⟩
      | fetching left ws =>
        rw [hw] at e
        simp only [] at e
        cases ha : (flitReads c x.ridx)[ws.length]? with
        | some a => rw [ha] at e; cases e; exact ⟨i1, i2, rfl, rfl, i5, i6, i7, i8⟩
        | none =>
          rw [ha] at e
          simp only [Option.bind_eq_some_iff, Option.map_eq_some_iff] at e
          obtain ⟨w, _, r, _, rfl⟩ := e
          exact ⟨i1, i2, rfl, rfl, i5, i6, i7, i8⟩
      | delivering left =>
        rw [hw] at e
        simp only [] at e
        cases hm : x.msgs with
        | nil => rw [hm] at e; cases e; exact ⟨i1, i2, rfl, rfl, i5, i6, i7, i8⟩
        | cons m ms => rw [hm] at e; cases e; exact ⟨i1, i2, rfl, rfl, i5, i6, i7, i8⟩
      | handing left => rw [hw] at e; cases e; exact ⟨i1, i2, i3, i4, i5, i6, i7, i8⟩
    | handled =>
      simp only [St.move] at e
      cases hw : x.work <;> rw [hw] at e <;> simp only [] at e <;> try (cases e)
      by_cases h0 : x.call 0 = .idle
      · rw [if_pos h0] at e; cases e; exact ⟨i1, i2, rfl, rfl, i5, i6, i7, i8⟩
      · rw [if_neg h0] at e; cases e
    | take =>
      simp only [St.move] at e
      cases hr : x.reg with
      | some f => rw [hr] at e; cases e
      | none =>
        rw [hr] at e; simp only [] at e
        rw [if_pos i1] at e; cases e
    | emit =>
      simp only [St.move] at e
      cases hr : x.reg with
      | none => rw [hr] at e; cases e
      | some f => rw [hr] at e; cases e; exact ⟨i1, i2, i3, i4, i5, i6, i7, i8⟩
    | arrive f =>
      simp only [St.move] at e
      by_cases ho : x.rown.getLsbD x.wr = true
      · rw [if_pos ho] at e; cases e
      · rw [if_neg ho] at e; cases e; exact ⟨i1, i2, i3, i4, i5, i6, i7, i8⟩
    | reset => cases e; exact ⟨rfl, rfl, i3, i4, i5, i6, i7, i8⟩

/-! ## Runs -/

/-- One call of `b_transport` from its start to its return, in a message of `n` flits. -/
def sendAll (m : Msg) (n : Nat) : List Move :=
  Move.call 1 m :: steps 1 (11 * n + 4) ++ (List.replicate n [Move.take, Move.emit]).flatten ++ works 3 ++ steps 1 1

/-- The flits on the link then. -/
def linkOf (m : Msg) (n : Nat) : List Flit := ((St.runs cfg256 .opt St.init (sendAll m n)).map (·.out)).getD []

/-- All flits arrive, the message is handed over and the worker comes to rest. -/
def receiveAll (m : Msg) (n : Nat) : List Move :=
  (linkOf m n).map Move.arrive ++ works (4 + 12 * n) ++ [.handled] ++ works 2

theorem low_ok' : ∀ i : Nat, (32 ≤ i ∧ i < 40) ∨ 52 ≤ i → (0x4_0100_0000_1240#64).getLsbD i = false := by
  intro i hi
  by_cases h64 : i < 64
  · have key : ∀ j : Fin 64, (32 ≤ j.val ∧ j.val < 40) ∨ 52 ≤ j.val → (0x4_0100_0000_1240#64).getLsbD j.val = false := by decide
    exact key ⟨i, h64⟩ hi
  · exact BitVec.getLsbD_of_ge _ _ (by omega)

theorem write64_ok : Sendable write64 :=
  ⟨Or.inl ⟨rfl, by decide, by decide, low_ok', by decide, by decide, by decide, by decide, fun _ i _ => rfl⟩,
    ⟨by decide, by decide, by decide⟩⟩

theorem plain_steps (c : Cfg) (p n : Nat) : ∀ m ∈ steps p n, Move.Plain c m := by
  intro m hm
  rw [(List.mem_replicate.1 hm).2]; trivial

theorem plain_works (c : Cfg) (n : Nat) : ∀ m ∈ works n, Move.Plain c m := by
  intro m hm
  rw [(List.mem_replicate.1 hm).2]; trivial

theorem plain_send (n : Nat) : ∀ m ∈ sendAll write64 n, Move.Plain cfg256 m := by
  intro m hm
  unfold sendAll at hm
  simp only [List.cons_append, List.mem_cons, List.mem_append] at hm
  rcases hm with rfl | (((h | h) | h) | h)
  · exact write64_ok
  · exact plain_steps _ _ _ _ h
  · rw [List.mem_flatten] at h
    obtain ⟨l, hl, hx⟩ := h
    rw [(List.mem_replicate.1 hl).2] at hx
    simp only [List.mem_cons, List.not_mem_nil, or_false] at hx
    rcases hx with rfl | rfl <;> trivial
  · exact plain_works _ _ _ h
  · exact plain_steps _ _ _ _ h

theorem link_ok : (linkOf write64 3).all (fun f => decide (f.1.length = fw cfg256) && decide (f.2.toNat < 2 ^ cfg256.cntlW)) = true := by
  decide +kernel

theorem plain_receive : ∀ m ∈ receiveAll write64 3, Move.Plain cfg256 m := by
  intro m hm
  unfold receiveAll at hm
  simp only [List.mem_append, List.mem_map, List.mem_singleton] at hm
  rcases hm with ((⟨f, hf, rfl⟩ | h) | rfl) | h
  · have := List.all_eq_true.1 link_ok f hf
    simp only [Bool.and_eq_true, decide_eq_true_eq] at this
    exact ⟨this.1, this.2⟩
  · exact plain_works _ _ _ h
  · trivial
  · exact plain_works _ _ _ h

/-- Enough of a message to know it again. -/
def about (m : Msg) : Bool × BitVec 64 × BitVec 16 := (m.write, m.addr, m.attr.txnID)

/-- The theorems on two bridges apply: a write of 64 bytes goes over in three flits. -/
example : ∃ s r, Reach cfg256 .opt (Move.Plain cfg256) s ∧ Reach cfg256 .opt (Move.Plain cfg256) r ∧ s.out = r.arrived ∧
    s.out.length = 3 ∧ s.sent = [write64] ∧ s.call 1 = .idle ∧ s.call 0 = .idle ∧ s.owner = none ∧ s.reg = none ∧ r.work = .idle ∧
    r.rflag = false ∧ r.got.map about = [about write64] ∧ (rxEach cfg256 .opt r.arrived []).isSome = true := by
  have hs : ((St.runs cfg256 .opt St.init (sendAll write64 3)).map fun s => decide (s.out = linkOf write64 3 ∧ s.sent = [write64] ∧ s.call 1 = .idle ∧
      s.call 0 = .idle ∧ s.owner = none ∧ s.reg = none)) = some true := by decide +kernel
  have hr : ((St.runs cfg256 .opt St.init (receiveAll write64 3)).map fun r => decide (r.arrived = linkOf write64 3 ∧ r.work = .idle ∧ r.rflag = false ∧
      r.got.map about = [about write64])) = some true := by decide +kernel
  have hl : (linkOf write64 3).length = 3 := by decide +kernel
  have hx : (rxEach cfg256 .opt (linkOf write64 3) []).isSome = true := by decide +kernel
  cases es : St.runs cfg256 .opt St.init (sendAll write64 3) with
  | none => rw [es] at hs; cases hs
  | some s =>
    cases er : St.runs cfg256 .opt St.init (receiveAll write64 3) with
    | none => rw [er] at hr; cases hr
    | some r =>
      rw [es] at hs
      rw [er] at hr
      simp only [Option.map_some, Option.some.injEq, Prod.mk.injEq, decide_eq_true_eq] at hs hr
      obtain ⟨a1, a2, a3, a4, a5, a6⟩ := hs
      obtain ⟨b1, b2, b3, b4⟩ := hr
      exact ⟨s, r, Reach.runs _ .init (plain_send 3) es, Reach.runs _ .init plain_receive er, by rw [a1, b1], by rw [a1, hl], a2, a3, a4,
        a5, a6, b2, b3, b4, by rw [b1]; exact hx⟩

/-- `reset_leaves_call_waiting`, `every_call_completes_partial` and
`no_write_while_owned_partial` apply: after its last write the call waits, the hardware owns
three descriptors. -/
example : ∃ s s1, Reach cfg256 .opt (Move.Plain cfg256) s ∧ s.call 1 = .waiting ∧ s.own = 7 ∧ s.call 0 = .idle ∧
    s.move cfg256 .opt .reset = some s1 := by
  have hs : ((St.runs cfg256 .opt St.init (Move.call 1 write64 :: steps 1 37)).map fun s => (s.call 1, s.own, s.call 0)) =
      some (.waiting, 7, .idle) := by decide +kernel
  cases es : St.runs cfg256 .opt St.init (Move.call 1 write64 :: steps 1 37) with
  | none => rw [es] at hs; cases hs
  | some s =>
    rw [es] at hs
    simp only [Option.map_some, Option.some.injEq, Prod.mk.injEq] at hs
    refine ⟨s, _, Reach.runs _ .init ?_ es, hs.1, hs.2.1, hs.2.2, rfl⟩
    intro m hm
    simp only [List.mem_cons] at hm
    rcases hm with rfl | hm
    · exact write64_ok
    · exact plain_steps _ _ _ _ hm

/-- `send_from_handler_hangs` applies: the handler of the message answers it. -/
example : ((St.runs cfg256 .opt St.init ((linkOf write64 3).map Move.arrive ++ works 40)).map fun s =>
    (s.move cfg256 .opt (.call 0 read64)).isSome) = some true := by decide +kernel

/-- And all of the handler's call that can happen: it sends its flit and waits. -/
example : ((St.runs cfg256 .opt St.init ((linkOf write64 3).map Move.arrive ++ works 40 ++ [.call 0 read64] ++ steps 0 15 ++
    [.take, .emit])).map fun s => (s.call 0, s.out.length, s.tflag, s.own)) = some (.waiting, 1, true, 0) := by decide +kernel

/-! ## Half a packet survives a reset -/

/-- The flit of a message that fits into one. -/
def flitOf (m : Msg) : Flit := (linkOf m 1).headD ([], 0)

/-- The first flit of a packet arrives, then the bridge is reset: the next packet, which a
bridge just started hands over, makes the worker fail. `m_assemblers` still holds the half
packet (559-568 clear the indices only). -/
theorem half_packet_survives_reset :
    (∃ s, St.runs cfg256 .opt St.init (Move.arrive (flitOf read64) :: works 16) = some s ∧ s.got.map about = [about read64]) ∧
    (∃ s, St.runs cfg256 .opt St.init (Move.arrive ((linkOf write64 3).headD ([], 0)) :: works 17 ++
      [.reset, .arrive (flitOf read64)] ++ works 14) = some s ∧ s.worker cfg256 .opt = none) := by
  constructor
  · have h : ((St.runs cfg256 .opt St.init (Move.arrive (flitOf read64) :: works 16)).map fun s => s.got.map about) = some [about read64] := by decide +kernel
    cases hs : St.runs cfg256 .opt St.init (Move.arrive (flitOf read64) :: works 16) with
    | none => rw [hs] at h; cases h
    | some s => rw [hs] at h; exact ⟨s, rfl, Option.some.inj h⟩
  · have h : ((St.runs cfg256 .opt St.init (Move.arrive ((linkOf write64 3).headD ([], 0)) :: works 17 ++
        [.reset, .arrive (flitOf read64)] ++ works 14)).map fun s => (s.worker cfg256 .opt).isNone) = some true := by decide +kernel
    cases hs : St.runs cfg256 .opt St.init (Move.arrive ((linkOf write64 3).headD ([], 0)) :: works 17 ++
        [.reset, .arrive (flitOf read64)] ++ works 14) with
    | none => rw [hs] at h; cases h
    | some s =>
      rw [hs] at h
      simp only [Option.map_some, Option.some.injEq, Option.isNone_iff_eq_none] at h
      exact ⟨s, rfl, h⟩

/-! ## Chained requests -/

/-- A request, and in the next flit one chained to it: the worker fails. The chained request
takes its address from a message still waiting, and here each flit's messages are handed over
before the next flit is read (455-467; pkts.h, `opReqChain`). -/
theorem chained_request_in_next_flit_fails :
    ∃ s, St.runs cfg256 .opt St.init (Move.arrive (flitOf read64) :: works 16 ++ [.handled] ++ works 2 ++
      [.arrive (flitOf chained)] ++ works 14) = some s ∧ s.got.map about = [about read64] ∧ s.worker cfg256 .opt = none := by
  have h : ((St.runs cfg256 .opt St.init (Move.arrive (flitOf read64) :: works 16 ++ [.handled] ++ works 2 ++
      [.arrive (flitOf chained)] ++ works 14)).map fun s => (s.got.map about, (s.worker cfg256 .opt).isNone)) = some ([about read64], true) := by
    decide +kernel
  cases hs : St.runs cfg256 .opt St.init (Move.arrive (flitOf read64) :: works 16 ++ [.handled] ++ works 2 ++
      [.arrive (flitOf chained)] ++ works 14) with
  | none => rw [hs] at h; cases h
  | some s =>
    rw [hs] at h
    simp only [Option.map_some, Option.some.injEq, Prod.mk.injEq, Option.isNone_iff_eq_none] at h
    exact ⟨s, rfl, h.1, h.2⟩

end Verif.CxsHw
