import Verif.CxsHw.Rx
/-! # CXS hardware bridge: nothing hangs -/

namespace Verif.CxsHw
open Verif.Cxs
open Verif.Cxs.Spec
open Verif.ChiHw (ring ring_zero upd pop pop_zero clearNext clearNext_pop)

/-- Moves of the bridge and the hardware alone. -/
def Move.Inner : Move → Prop
  | .step _ => True
  | .work => True
  | .handled => True
  | .take => True
  | .emit => True
  | _ => False

theorem Move.Inner.plain {c : Cfg} {m : Move} (h : m.Inner) : m.Plain c := by
  cases m <;> first | exact h.elim | trivial

theorem runs_append {c : Cfg} {k : Hdr} : ∀ (a b : List Move) (s s1 s2 : St), St.runs c k s a = some s1 → St.runs c k s1 b = some s2 →
    St.runs c k s (a ++ b) = some s2
  | [], b, s, s1, s2, h1, h2 => by cases h1; exact h2
  | m :: a, b, s, s1, s2, h1, h2 => by
    unfold St.runs at h1
    show St.runs c k s (m :: (a ++ b)) = _
    unfold St.runs
    cases hm : s.move c k m with
    | none => rw [hm] at h1; cases h1
    | some s' => rw [hm] at h1; exact runs_append a b s' s1 s2 h1 h2

/-- The bridge and the hardware can go from one state to the other. -/
def Goes (c : Cfg) (k : Hdr) (s s' : St) : Prop := ∃ ms : List Move, (∀ m ∈ ms, m.Inner) ∧ St.runs c k s ms = some s'

theorem Goes.refl (c : Cfg) (k : Hdr) (s : St) : Goes c k s s := ⟨[], fun m h => by (cases h), rfl⟩

theorem Goes.trans {c : Cfg} {k : Hdr} {s s1 s2 : St} (h1 : Goes c k s s1) (h2 : Goes c k s1 s2) : Goes c k s s2 := by
  obtain ⟨a, a1, a2⟩ := h1
  obtain ⟨b, b1, b2⟩ := h2
  refine ⟨a ++ b, fun m hm => ?_, runs_append a b s s1 s2 a2 b2⟩
  rcases List.mem_append.1 hm with h | h
  · exact a1 m h
  · exact b1 m h

theorem Goes.one {c : Cfg} {k : Hdr} {s s' : St} {m : Move} (hm : m.Inner) (e : s.move c k m = some s') : Goes c k s s' :=
  ⟨[m], fun x hx => by rw [List.mem_singleton] at hx; subst hx; exact hm, by unfold St.runs; rw [e]; rfl⟩

/-- The states the theorems are about: the handler makes no call, and the flits that arrived
can be taken apart. -/
structure Live (c : Cfg) (k : Hdr) (s : St) : Prop where
  reach : Reach c k (Move.Plain c) s
  quiet : s.call 0 = .idle
  good : rxEach c k s.arrived [] ≠ none

theorem rxEach_take {c : Cfg} {k : Hdr} {l : List Flit} (h : rxEach c k l [] ≠ none) (n : Nat) : rxEach c k (l.take n) [] ≠ none := by
  intro e
  apply h
  rw [← List.take_append_drop n l, rxEach_append, e]; rfl

theorem step_zero {c : Cfg} {k : Hdr} {s s' : St} {p q : Nat} (e : s.step c k p = some s') (hq : q ≠ p) : s'.call q = s.call q := by
  unfold St.step at e
  cases hcall : s.call p with
  | idle => rw [hcall] at e; cases e
  | waiting => rw [hcall] at e; cases e
  | wants m =>
    rw [hcall] at e
    simp only [] at e
    by_cases ho : s.owner = none
    · rw [if_pos ho, Option.map_eq_some_iff] at e
      obtain ⟨b, _, rfl⟩ := e
      exact upd_other _ _ hq
    · rw [if_neg ho] at e; cases e
  | filling t flip =>
    rw [hcall] at e
    simp only [] at e
    by_cases hd : t.done = true
    · rw [if_pos hd] at e
      cases e
      exact upd_other _ _ hq
    · rw [if_neg hd, Option.bind_eq_some_iff] at e
      obtain ⟨r, _, e⟩ := e
      rw [Option.map_eq_some_iff] at e
      obtain ⟨b, _, rfl⟩ := e
      exact upd_other _ _ hq
  | writing t flip ws =>
    rw [hcall] at e
    cases ws with
    | nil => cases e; exact upd_other _ _ hq
    | cons w ws => cases e; exact upd_other _ _ hq
  | flipping flip =>
    rw [hcall] at e
    cases e; exact upd_other _ _ hq
  | checking =>
    rw [hcall] at e
    simp only [] at e
    by_cases hd : s.done = true
    · rw [if_pos hd] at e
      cases e; exact upd_other _ _ hq
    · rw [if_neg hd] at e
      cases e; exact upd_other _ _ hq
  | ready =>
    rw [hcall] at e
    cases e; exact upd_other _ _ hq

/-- What the worker leaves alone. -/
structure Kept (s s' : St) : Prop where
  owner : s'.owner = s.owner
  own : s'.own = s.own
  reg : s'.reg = s.reg
  out : s'.out = s.out
  sent : s'.sent = s.sent
  built : s'.built = s.built
  arrived : s'.arrived = s.arrived
  call : ∀ q, s'.call q = s.call q ∨ (s.call q = .waiting ∧ s'.call q = .ready)

theorem Kept.refl (s : St) : Kept s s := ⟨rfl, rfl, rfl, rfl, rfl, rfl, rfl, fun _ => Or.inl rfl⟩

theorem Kept.trans {s s1 s2 : St} (h1 : Kept s s1) (h2 : Kept s1 s2) : Kept s s2 := by
  refine ⟨h2.owner.trans h1.owner, h2.own.trans h1.own, h2.reg.trans h1.reg, h2.out.trans h1.out, h2.sent.trans h1.sent,
    h2.built.trans h1.built, h2.arrived.trans h1.arrived, fun q => ?_⟩
  rcases h1.call q with a | ⟨a, b⟩
  · rcases h2.call q with c | ⟨c, d⟩
    · exact Or.inl (c.trans a)
    · exact Or.inr ⟨a ▸ c, d⟩
  · rcases h2.call q with c | ⟨c, d⟩
    · exact Or.inr ⟨a, c.trans b⟩
    · rw [b] at c; cases c

theorem worker_kept {c : Cfg} {k : Hdr} {s s' : St} (e : s.worker c k = some s') : Kept s s' := by
  unfold St.worker at e
  cases hw : s.work with
  | idle =>
    rw [hw] at e
    simp only [Option.some.injEq] at e
    by_cases hf : (s.tflag || s.rflag) = true
    · rw [if_pos hf] at e; subst e; exact ⟨rfl, rfl, rfl, rfl, rfl, rfl, rfl, fun _ => Or.inl rfl⟩
    · rw [if_neg hf] at e; subst e; exact ⟨rfl, rfl, rfl, rfl, rfl, rfl, rfl, fun _ => Or.inl rfl⟩
  | seen t r =>
    rw [hw] at e; cases e; exact ⟨rfl, rfl, rfl, rfl, rfl, rfl, rfl, fun _ => Or.inl rfl⟩
  | cleared t r =>
    rw [hw] at e
    simp only [Option.some.injEq] at e
    cases t with
    | false => rw [if_neg (by decide)] at e; subst e; exact ⟨rfl, rfl, rfl, rfl, rfl, rfl, rfl, fun _ => Or.inl rfl⟩
    | true =>
      rw [if_pos rfl] at e
      subst e
      refine ⟨rfl, rfl, rfl, rfl, rfl, rfl, rfl, fun q => ?_⟩
      show wake s.call q = _ ∨ _ ∧ wake s.call q = _
      unfold wake
      split
      · next h => exact Or.inr ⟨h, rfl⟩
      · exact Or.inl rfl
  | owning => rw [hw] at e; cases e; exact ⟨rfl, rfl, rfl, rfl, rfl, rfl, rfl, fun _ => Or.inl rfl⟩
  | serving left => rw [hw] at e; cases e; exact ⟨rfl, rfl, rfl, rfl, rfl, rfl, rfl, fun _ => Or.inl rfl⟩
  | fetching left ws =>
    rw [hw] at e
    simp only [] at e
    cases hr : (flitReads c s.ridx)[ws.length]? with
    | some a => rw [hr] at e; cases e; exact ⟨rfl, rfl, rfl, rfl, rfl, rfl, rfl, fun _ => Or.inl rfl⟩
    | none =>
      rw [hr] at e
      simp only [Option.bind_eq_some_iff, Option.map_eq_some_iff] at e
      obtain ⟨w, _, r, _, rfl⟩ := e
      exact ⟨rfl, rfl, rfl, rfl, rfl, rfl, rfl, fun _ => Or.inl rfl⟩
  | delivering left =>
    rw [hw] at e
    simp only [] at e
    cases hm : s.msgs with
    | nil => rw [hm] at e; cases e; exact ⟨rfl, rfl, rfl, rfl, rfl, rfl, rfl, fun _ => Or.inl rfl⟩
    | cons m ms => rw [hm] at e; cases e; exact ⟨rfl, rfl, rfl, rfl, rfl, rfl, rfl, fun _ => Or.inl rfl⟩
  | handing left => rw [hw] at e; cases e; exact ⟨rfl, rfl, rfl, rfl, rfl, rfl, rfl, fun _ => Or.inl rfl⟩

theorem handled_kept {c : Cfg} {k : Hdr} {s s' : St} (e : s.move c k .handled = some s') : Kept s s' := by
  simp only [St.move] at e
  cases hw : s.work with
  | handing left =>
    rw [hw] at e
    simp only [] at e
    by_cases h0 : s.call 0 = .idle
    · rw [if_pos h0] at e; cases e; exact ⟨rfl, rfl, rfl, rfl, rfl, rfl, rfl, fun _ => Or.inl rfl⟩
    · rw [if_neg h0] at e; cases e
  | _ => rw [hw] at e; cases e

theorem move_arrived {c : Cfg} {k : Hdr} {s s' : St} {m : Move} (hm : m.Inner) (h0 : s.call 0 = .idle) (e : s.move c k m = some s') :
    s'.arrived = s.arrived ∧ s'.call 0 = .idle := by
  cases m with
  | step p =>
    refine ⟨(step_rx e).2.2.2.1, ?_⟩
    have hp : 0 ≠ p := by
      intro hp
      subst hp
      have e : s.step c k 0 = some s' := e
      unfold St.step at e
      rw [h0] at e; cases e
    rw [step_zero e hp]; exact h0
  | work =>
    have := worker_kept e
    refine ⟨this.arrived, ?_⟩
    rcases this.call 0 with a | ⟨a, _⟩
    · rw [a]; exact h0
    · rw [h0] at a; cases a
  | handled =>
    have := handled_kept e
    refine ⟨this.arrived, ?_⟩
    rcases this.call 0 with a | ⟨a, _⟩
    · rw [a]; exact h0
    · rw [h0] at a; cases a
  | take =>
    simp only [St.move] at e
    cases hreg : s.reg with
    | some f => rw [hreg] at e; cases e
    | none =>
      rw [hreg] at e
      simp only [] at e
      by_cases hz : s.own = 0
      · rw [if_pos hz] at e; cases e
      · rw [if_neg hz] at e; cases e; exact ⟨rfl, h0⟩
  | emit =>
    simp only [St.move] at e
    cases hreg : s.reg with
    | none => rw [hreg] at e; cases e
    | some f => rw [hreg] at e; cases e; exact ⟨rfl, h0⟩
  | _ => exact hm.elim

theorem Live.move {c : Cfg} {k : Hdr} {s s' : St} {m : Move} (h : Live c k s) (hm : m.Inner) (e : s.move c k m = some s') : Live c k s' := by
  obtain ⟨a, b⟩ := move_arrived hm h.quiet e
  exact ⟨h.reach.move hm.plain e, b, by rw [a]; exact h.good⟩

theorem Live.runs {c : Cfg} {k : Hdr} : ∀ (ms : List Move) {s s' : St}, Live c k s → (∀ m ∈ ms, m.Inner) → St.runs c k s ms = some s' → Live c k s'
  | [], s, s', h, _, e => by cases e; exact h
  | m :: ms, s, s', h, hok, e => by
    unfold St.runs at e
    cases hm : s.move c k m with
    | none => rw [hm] at e; cases e
    | some s1 =>
      rw [hm] at e
      exact Live.runs ms (h.move (hok m (by simp)) hm) (fun x hx => hok x (by simp [hx])) e

theorem Live.goes {c : Cfg} {k : Hdr} {s s' : St} (h : Live c k s) (g : Goes c k s s') : Live c k s' := by
  obtain ⟨ms, a, b⟩ := g
  exact h.runs ms a b

/-! ## The worker -/

/-- The worker gets from one state to the other. -/
def WGo (c : Cfg) (k : Hdr) (s s' : St) : Prop := Goes c k s s' ∧ Kept s s'

theorem WGo.trans {c : Cfg} {k : Hdr} {s s1 s2 : St} (h1 : WGo c k s s1) (h2 : WGo c k s1 s2) : WGo c k s s2 :=
  ⟨h1.1.trans h2.1, h1.2.trans h2.2⟩

theorem WGo.work {c : Cfg} {k : Hdr} {s s' : St} (e : s.worker c k = some s') : WGo c k s s' :=
  ⟨Goes.one (m := .work) trivial e, worker_kept e⟩

/-- Flags and flits fetched are the same. -/
def Same3 (s s' : St) : Prop := s'.tflag = s.tflag ∧ s'.rflag = s.rflag ∧ s'.fetched = s.fetched

theorem drain {c : Cfg} {k : Hdr} {left : BitVec 32} : ∀ (ms : List Msg) (s : St), s.call 0 = .idle → s.work = .delivering left → s.msgs = ms →
    ∃ s', WGo c k s s' ∧ s'.work = .serving left ∧ Same3 s s'
  | [], s, _, hw, hm => by
    refine ⟨{ s with msgs := [], work := .serving left }, WGo.work ?_, rfl, rfl, rfl, rfl⟩
    unfold St.worker
    rw [hw, hm]
  | m :: ms, s, h0, hw, hm => by
    have e1 : s.worker c k = some { s with msgs := ms, got := s.got ++ [m], work := .handing left } := by
      unfold St.worker; rw [hw, hm]
    have e2 : St.move c k { s with msgs := ms, got := s.got ++ [m], work := .handing left } .handled =
        some { s with msgs := ms, got := s.got ++ [m], work := .delivering left } := by
      simp only [St.move]; rw [if_pos h0]
    obtain ⟨s', a, b, d⟩ := drain ms { s with msgs := ms, got := s.got ++ [m], work := .delivering left } h0 rfl rfl
    exact ⟨s', ((WGo.work e1).trans ⟨Goes.one (m := .handled) trivial e2, handled_kept e2⟩).trans a, b, d⟩

variable {c : Cfg} (hc : HwOk c) (hn : c.cntlW ≤ 32)
include hc hn

theorem Live.rx {k : Hdr} {s : St} (h : Live c k s) : RxInv c k s := rx_inv hc hn h.reach

theorem Live.worker {k : Hdr} {s : St} (h : Live c k s) : ∃ s', s.worker c k = some s' := by
  cases e : s.worker c k with
  | some s' => exact ⟨s', rfl⟩
  | none => exact absurd ((rx_worker hc hn (h.rx hc hn)).2 e).1 (rxEach_take h.good _)

theorem fetch_all {k : Hdr} {left : BitVec 32} : ∀ (n : Nat) (s : St) (ws : List (BitVec 32)), Live c k s → s.work = .fetching left ws →
    toRegs (fw c) + toRegs (fcw c) ≤ ws.length + n →
    ∃ s', WGo c k s s' ∧ s'.work = .delivering left ∧ s'.tflag = s.tflag ∧ s'.rflag = s.rflag ∧ s'.fetched.length = s.fetched.length + 1
  | n, s, ws, h, hw, hl => by
    obtain ⟨s1, e⟩ := h.worker hc hn
    have e' := e
    unfold St.worker at e'
    rw [hw] at e'
    simp only [] at e'
    cases hr : (flitReads c s.ridx)[ws.length]? with
    | none =>
      rw [hr] at e'
      simp only [Option.bind_eq_some_iff, Option.map_eq_some_iff] at e'
      obtain ⟨w, _, r, _, rfl⟩ := e'
      refine ⟨_, WGo.work e, rfl, rfl, rfl, ?_⟩
      show (s.fetched ++ [_]).length = _
      rw [List.length_append]; rfl
    | some a =>
      have hlt : ws.length < toRegs (fw c) + toRegs (fcw c) := by
        rw [← flitReads_length c s.ridx]
        exact (List.getElem?_eq_some_iff.1 hr).1
      rw [hr] at e'
      simp only [Option.some.injEq] at e'
      cases n with
      | zero => omega
      | succ n =>
        have hl1 : Live c k s1 := h.move (m := .work) trivial e
        subst e'
        obtain ⟨s', a1, a2, a3, a4, a5⟩ := fetch_all n _ _ hl1 rfl (by rw [List.length_append, List.length_singleton]; omega)
        exact ⟨s', (WGo.work e).trans a1, a2, a3, a4, a5⟩

theorem serve_all {k : Hdr} (n : Nat) : ∀ (s : St) (left : BitVec 32), Live c k s → s.work = .serving left → pop 32 left.toNat = n →
    ∃ s', WGo c k s s' ∧ s'.work = .idle ∧ s'.tflag = s.tflag ∧ s'.rflag = s.rflag ∧ s'.fetched.length = s.fetched.length + n := by
  induction n with
  | zero =>
    intro s left h hw hp
    have h0 : left = 0 := by
      apply Classical.byContradiction
      intro h0
      have := clearNext_pop left h0
      omega
    have e : s.worker c k = some { s with work := .idle } := by
      unfold St.worker; rw [hw]; simp only [if_pos h0]
    exact ⟨_, WGo.work e, rfl, rfl, rfl, rfl⟩
  | succ n ih =>
    intro s left h hw hp
    have h0 : left ≠ 0 := by
      intro h0
      rw [h0] at hp
      have : pop 32 (0 : BitVec 32).toNat = 0 := pop_zero 32
      omega
    have hcn := clearNext_pop left h0
    have e : s.worker c k = some { s with work := .fetching (clearNext left) [] } := by
      unfold St.worker; rw [hw]; simp only [if_neg h0]
    have hl1 := h.move (m := .work) trivial e
    obtain ⟨s2, b1, b2, b3, b4, b5⟩ := fetch_all hc hn (toRegs (fw c) + toRegs (fcw c)) _ [] hl1 rfl (by simp)
    have hl2 := hl1.goes b1.1
    obtain ⟨s3, d1, d2, d3, d4, d5⟩ := drain (c := c) (k := k) s2.msgs s2 hl2.quiet b2 rfl
    have hl3 := hl2.goes d1.1
    obtain ⟨s4, f1, f2, f3, f4, f5⟩ := ih s3 (clearNext left) hl3 d2 (by omega)
    refine ⟨s4, (WGo.work e).trans (b1.trans (d1.trans f1)), f2, f3.trans (d3.trans b3), f4.trans (d4.trans b4), ?_⟩
    rw [f5, d5, b5]
    show s.fetched.length + 1 + n = _
    omega

/-- To the head of its loop. -/
theorem worker_home {k : Hdr} {s : St} (h : Live c k s) : ∃ s', WGo c k s s' ∧ s'.work = .idle ∧
    ((s.work = .idle ∧ s' = s) ∨ s.work ≠ .idle) := by
  have fin : ∀ (s1 : St) (left : BitVec 32), Live c k s1 → s1.work = .serving left → ∃ s', WGo c k s1 s' ∧ s'.work = .idle := by
    intro s1 left h1 hw
    obtain ⟨s', a, b, _⟩ := serve_all hc hn _ s1 left h1 hw rfl
    exact ⟨s', a, b⟩
  have fin2 : ∀ (s1 : St) (left : BitVec 32), Live c k s1 → s1.work = .delivering left → ∃ s', WGo c k s1 s' ∧ s'.work = .idle := by
    intro s1 left h1 hw
    obtain ⟨s3, d1, d2, _⟩ := drain (c := c) (k := k) s1.msgs s1 h1.quiet hw rfl
    obtain ⟨s', a, b⟩ := fin s3 left (h1.goes d1.1) d2
    exact ⟨s', d1.trans a, b⟩
  have fin3 : ∀ s1 : St, Live c k s1 → s1.work = .owning → ∃ s', WGo c k s1 s' ∧ s'.work = .idle := by
    intro s1 h1 hw
    have e : s1.worker c k = some { s1 with work := .serving s1.rown } := by unfold St.worker; rw [hw]
    obtain ⟨s', a, b⟩ := fin _ s1.rown (h1.move (m := .work) trivial e) rfl
    exact ⟨s', (WGo.work e).trans a, b⟩
  have fin4 : ∀ (s1 : St) (t r : Bool), Live c k s1 → s1.work = .cleared t r → ∃ s', WGo c k s1 s' ∧ s'.work = .idle := by
    intro s1 t r h1 hw
    obtain ⟨s2, e⟩ := h1.worker hc hn
    have h2 := h1.move (m := .work) trivial e
    have hw2 : s2.work = if r = true then Work.owning else Work.idle := by
      have e' := e
      unfold St.worker at e'
      rw [hw] at e'
      simp only [Option.some.injEq] at e'
      subst e'
      cases t <;> rfl
    cases r with
    | true =>
      obtain ⟨s', a, b⟩ := fin3 s2 h2 hw2
      exact ⟨s', (WGo.work e).trans a, b⟩
    | false => exact ⟨s2, WGo.work e, hw2⟩
  cases hw : s.work with
  | idle => exact ⟨s, ⟨Goes.refl c k s, Kept.refl s⟩, hw, Or.inl ⟨rfl, rfl⟩⟩
  | seen t r =>
    have e : s.worker c k = some { s with tflag := s.tflag && !t, rflag := s.rflag && !r, work := .cleared t r } := by
      unfold St.worker; rw [hw]
    obtain ⟨s', a, b⟩ := fin4 _ t r (h.move (m := .work) trivial e) rfl
    exact ⟨s', (WGo.work e).trans a, b, Or.inr (by simp)⟩
  | cleared t r => obtain ⟨s', a, b⟩ := fin4 s t r h hw; exact ⟨s', a, b, Or.inr (by simp)⟩
  | owning => obtain ⟨s', a, b⟩ := fin3 s h hw; exact ⟨s', a, b, Or.inr (by simp)⟩
  | serving left => obtain ⟨s', a, b⟩ := fin s left h hw; exact ⟨s', a, b, Or.inr (by simp)⟩
  | fetching left ws =>
    obtain ⟨s1, a, b, _⟩ := fetch_all hc hn _ s ws h hw (Nat.le_add_left _ _)
    obtain ⟨s', d, e⟩ := fin2 s1 left (h.goes a.1) b
    exact ⟨s', a.trans d, e, Or.inr (by simp)⟩
  | delivering left => obtain ⟨s', a, b⟩ := fin2 s left h hw; exact ⟨s', a, b, Or.inr (by simp)⟩
  | handing left =>
    have e : s.move c k .handled = some { s with work := .delivering left } := by
      simp only [St.move]; rw [hw]; simp only [if_pos h.quiet]
    obtain ⟨s', a, b⟩ := fin2 _ left (h.move (m := .handled) trivial e) rfl
    exact ⟨s', WGo.trans ⟨Goes.one (m := .handled) trivial e, handled_kept e⟩ a, b, Or.inr (by simp)⟩

/-- A whole round of the worker clears the flags and fetches everything. -/
theorem worker_round {k : Hdr} {s : St} (h : Live c k s) (hw : s.work = .idle) : ∃ s', WGo c k s s' ∧ s'.work = .idle ∧
    s'.tflag = false ∧ s'.rflag = false := by
  by_cases hf : (s.tflag || s.rflag) = true
  · have e1 : s.worker c k = some { s with work := .seen s.tflag s.rflag } := by
      unfold St.worker; rw [hw]; simp only [if_pos hf]
    have h1 := h.move (m := .work) trivial e1
    have e2 : St.worker c k { s with work := .seen s.tflag s.rflag } =
        some { s with tflag := s.tflag && !s.tflag, rflag := s.rflag && !s.rflag, work := .cleared s.tflag s.rflag } := rfl
    have h2 := h1.move (m := .work) trivial e2
    obtain ⟨s3, e3⟩ := h2.worker hc hn
    have h3 := h2.move (m := .work) trivial e3
    have f3 : s3.work = (if s.rflag = true then Work.owning else Work.idle) ∧ s3.tflag = false ∧ s3.rflag = false := by
      have e' := e3
      unfold St.worker at e'
      simp only [Option.some.injEq] at e'
      have ht : (s.tflag && !s.tflag) = false := by cases s.tflag <;> rfl
      have hr : (s.rflag && !s.rflag) = false := by cases s.rflag <;> rfl
      by_cases t : s.tflag = true
      · rw [if_pos t] at e'; subst e'; exact ⟨rfl, ht, hr⟩
      · rw [if_neg t] at e'; subst e'; exact ⟨rfl, ht, hr⟩
    obtain ⟨g1, g2, g3⟩ := f3
    have w3 := ((WGo.work e1).trans (WGo.work e2)).trans (WGo.work e3)
    by_cases hr : s.rflag = true
    · rw [if_pos hr] at g1
      have e4 : s3.worker c k = some { s3 with work := .serving s3.rown } := by unfold St.worker; rw [g1]
      obtain ⟨s', a1, a2, a3, a4, _⟩ := serve_all hc hn _ _ s3.rown (h3.move (m := .work) trivial e4) rfl rfl
      exact ⟨s', w3.trans ((WGo.work e4).trans a1), a2, a3.trans g2, a4.trans g3⟩
    · rw [if_neg hr] at g1
      exact ⟨s3, w3, g1, g2, g3⟩
  · refine ⟨s, ⟨Goes.refl c k s, Kept.refl s⟩, hw, ?_, ?_⟩
    · cases h' : s.tflag with
      | true => rw [h'] at hf; simp at hf
      | false => rfl
    · cases h' : s.rflag with
      | true => rw [h'] at hf; simp at hf
      | false => rfl

theorem worker_done {k : Hdr} {s : St} (h : Live c k s) : ∃ s', WGo c k s s' ∧ s'.work = .idle ∧ s'.tflag = false ∧ s'.rflag = false := by
  obtain ⟨s1, a, b, _⟩ := worker_home hc hn h
  obtain ⟨s2, d, e⟩ := worker_round hc hn (h.goes a.1) b
  exact ⟨s2, a.trans d, e⟩

/-! ## A call -/

omit hc hn in
theorem write_all {k : Hdr} {p : Nat} {t : Tlp} {flip : BitVec 32} : ∀ (ws : List (Nat × BitVec 32)) (s : St), s.call p = .writing t flip ws →
    ∃ s', Goes c k s s' ∧ s'.call p = .filling t flip ∧ (∀ q, q ≠ p → s'.call q = s.call q) ∧ s'.owner = s.owner
  | [], s, hw => by
    have e : s.move c k (.step p) = some { s with tidx := (s.tidx + 1) % ndesc, call := upd s.call p (.filling t flip) } := by
      show s.step c k p = _
      unfold St.step; rw [hw]
    exact ⟨_, Goes.one (m := .step p) trivial e, upd_same _ _ _, fun q hq => upd_other _ _ hq, rfl⟩
  | w :: ws, s, hw => by
    have e : s.move c k (.step p) = some { s with tmem := s.tmem.write c w.1 w.2, call := upd s.call p (.writing t flip ws) } := by
      show s.step c k p = _
      unfold St.step; rw [hw]
    obtain ⟨s', a1, a2, a3, a4⟩ := write_all ws { s with tmem := s.tmem.write c w.1 w.2, call := upd s.call p (.writing t flip ws) } (upd_same _ _ _)
    exact ⟨s', (Goes.one (m := .step p) trivial e).trans a1, a2, fun q hq => (a3 q hq).trans (upd_other _ _ hq), a4⟩

theorem fill_all {k : Hdr} {p : Nat} : ∀ (n : Nat) (s : St) (t : Tlp) (flip : BitVec 32), Live c k s → s.call p = .filling t flip →
    (pieces (fw c) t).length = n →
    ∃ s' flip', Goes c k s s' ∧ s'.call p = .flipping flip' ∧ (∀ q, q ≠ p → s'.call q = s.call q) ∧ s'.owner = s.owner
  | n, s, t, flip, h, hcall, hl => by
    by_cases hd : t.done = true
    · have e : s.move c k (.step p) = some { s with call := upd s.call p (.flipping flip) } := by
        show s.step c k p = _
        unfold St.step; rw [hcall]; simp only [if_pos hd]
      exact ⟨_, flip, Goes.one (m := .step p) trivial e, upd_same _ _ _, fun q hq => upd_other _ _ hq, rfl⟩
    · obtain ⟨hh, hi⟩ := tx_inv hc h.reach
      have ho := hi.owner_of (p := p) (by rw [hcall]; exact id)
      have hctl := hi.ctl
      unfold CallsOk at hctl
      rw [ho] at hctl
      obtain ⟨_, hown⟩ := hctl
      rw [hcall] at hown
      obtain ⟨_, _, _, o4, _⟩ := hown
      have hd' : t.done = false := by cases h' : t.done <;> simp_all
      obtain ⟨pc, pcs, data, t', w, cn, a1, a2, a3, a4, a5, a6, a7⟩ := fill_piece hc.cfg o4 hd' (data := List.replicate (fw c) 0) (by simp [fw_eq])
      have e : s.move c k (.step p) = some { s with built := s.built ++ [(data, w)], call := upd s.call p (.writing t' (flip ||| (1#32 <<< s.tidx)) (flitWrites c s.tidx (data, w))) } := by
        show s.step c k p = _
        unfold St.step; rw [hcall]; simp only [if_neg hd]
        rw [a2]
        simp only [Option.bind_some, a3, Option.map_some]
      rw [← fw_eq] at a1 a6
      have h1 := h.move (m := .step p) trivial e
      obtain ⟨s2, b1, b2, b3, b4⟩ := write_all (c := c) (k := k) (p := p) (flitWrites c s.tidx (data, w)) { s with built := s.built ++ [(data, w)], call := upd s.call p (.writing t' (flip ||| (1#32 <<< s.tidx)) (flitWrites c s.tidx (data, w))) } (upd_same s.call p _)
      have h2 := h1.goes b1
      cases n with
      | zero => rw [a1] at hl; simp at hl
      | succ n =>
        obtain ⟨s3, flip', d1, d2, d3, d4⟩ := fill_all n s2 t' _ h2 b2 (by rw [a6]; rw [a1, List.length_cons] at hl; omega)
        refine ⟨s3, flip', ((Goes.one (m := .step p) trivial e).trans b1).trans d1, d2, fun q hq => ?_, d4.trans b4⟩
        rw [d3 q hq, b3 q hq]; exact upd_other _ _ hq

/-- The hardware takes everything handed over. -/
theorem take_all {k : Hdr} {p : Nat} : ∀ (n : Nat) (s : St), Live c k s → s.call p = .waiting → s.built.length - s.taken.length = n →
    ∃ s', Goes c k s s' ∧ s'.call = s.call ∧ s'.owner = s.owner ∧ s'.taken.length = s'.built.length
  | n, s, h, hcall, hl => by
    obtain ⟨hh, hi⟩ := tx_inv hc h.reach
    have ho := hi.owner_of (p := p) (by rw [hcall]; exact id)
    have hctl := hi.ctl
    unfold CallsOk at hctl
    rw [ho] at hctl
    obtain ⟨_, hown⟩ := hctl
    rw [hcall] at hown
    obtain ⟨o1, _, _⟩ := hown
    have hle := hi.le1
    have hro := hi.room
    cases n with
    | zero => exact ⟨s, Goes.refl c k s, rfl, rfl, by omega⟩
    | succ n =>
      have hown : s.own ≠ 0 := by
        rw [hi.own, Ne, ring_zero (Nat.mod_lt _ (by decide)) (by omega)]; omega
      obtain ⟨s1, g1, r1, c1, w1, t1, b1, hown1⟩ : ∃ s1, Goes c k s s1 ∧ s1.reg = none ∧ s1.call = s.call ∧ s1.owner = s.owner ∧
          s1.taken = s.taken ∧ s1.built = s.built ∧ s1.own = s.own := by
        cases hreg : s.reg with
        | none => exact ⟨s, Goes.refl c k s, hreg, rfl, rfl, rfl, rfl, rfl⟩
        | some f =>
          have e : s.move c k .emit = some { s with reg := none, out := s.out ++ [f] } := by
            simp only [St.move]; rw [hreg]
          refine ⟨_, Goes.one (m := .emit) trivial e, rfl, rfl, rfl, ?_, rfl, rfl⟩
          simp [St.taken, hreg]
      have h1 := h.goes g1
      have e : s1.move c k .take = some { s1 with reg := some (hwFlit c s1.tmem s1.rd), own := s1.own &&& ~~~(1#32 <<< s1.rd), rd := (s1.rd + 1) % ndesc, tflag := s1.tflag || decide (s1.own &&& ~~~(1#32 <<< s1.rd) = 0) } := by
        simp only [St.move]; rw [r1]; simp only []; rw [if_neg (by rw [hown1]; exact hown)]
      have h2 := h1.move (m := .take) trivial e
      obtain ⟨s', a1, a2, a3, a4⟩ := take_all n { s1 with reg := some (hwFlit c s1.tmem s1.rd), own := s1.own &&& ~~~(1#32 <<< s1.rd), rd := (s1.rd + 1) % ndesc, tflag := s1.tflag || decide (s1.own &&& ~~~(1#32 <<< s1.rd) = 0) } h2 (by show s1.call p = _; rw [c1]; exact hcall) (by
          have : s1.out = s1.taken := by simp [St.taken, r1]
          show s1.built.length - (s1.out ++ [_]).length = n
          rw [this, t1, b1, List.length_append, List.length_singleton]
          omega)
      exact ⟨s', (g1.trans (Goes.one (m := .take) trivial e)).trans a1, a2.trans c1, a3.trans w1, a4⟩

omit hc hn in
theorem ready_done {k : Hdr} {p : Nat} {s : St} (hcall : s.call p = .ready) :
    ∃ s', Goes c k s s' ∧ s'.call p = .idle ∧ (∀ q, q ≠ p → s'.call q = s.call q) ∧ s'.owner = none := by
  have e : s.move c k (.step p) = some { s with owner := none, call := upd s.call p .idle } := by
    show s.step c k p = _
    unfold St.step; rw [hcall]
  exact ⟨_, Goes.one (m := .step p) trivial e, upd_same _ _ _, fun q hq => upd_other _ _ hq, rfl⟩

theorem waiting_done {k : Hdr} {p : Nat} {s : St} (h : Live c k s) (hcall : s.call p = .waiting) :
    ∃ s', Goes c k s s' ∧ s'.call p = .idle ∧ (∀ q, q ≠ p → s'.call q = s.call q) ∧ s'.owner = none := by
  obtain ⟨s1, a1, a2, a3, a4⟩ := take_all hc hn _ s h hcall rfl
  have h1 := h.goes a1
  obtain ⟨s2, b1, b2, b3, b4⟩ := worker_done hc hn h1
  have h2 := h1.goes b1.1
  have hoth : ∀ q, q ≠ p → s2.call q = s.call q := by
    intro q hq
    rcases b1.2.call q with x | ⟨x, _⟩
    · rw [x, a2]
    · exfalso
      obtain ⟨_, hi⟩ := tx_inv hc h1.reach
      have o1 := hi.owner_of (p := p) (by rw [a2, hcall]; exact id)
      have o2 := hi.owner_of (p := q) (by rw [x]; exact id)
      rw [o1] at o2
      exact hq (Option.some.inj o2).symm
  have hr : s2.call p = .ready := by
    rcases b1.2.call p with x | ⟨_, x⟩
    · exfalso
      have hc2 : s2.call p = .waiting := by rw [x, a2]; exact hcall
      obtain ⟨hh, hi⟩ := tx_inv hc h2.reach
      have ho := hi.owner_of (p := p) (by rw [hc2]; exact id)
      have hctl := hi.ctl
      unfold CallsOk at hctl
      rw [ho] at hctl
      obtain ⟨_, hown⟩ := hctl
      rw [hc2] at hown
      obtain ⟨o1, o2, o3⟩ := hown
      have et : s2.taken.length = hh := by
        have : s2.taken = s1.taken := by unfold St.taken; rw [b1.2.out, b1.2.reg]
        rw [this, a4, o1, b1.2.built]
      unfold St.news at o2
      rw [b3, o3, b2, decide_eq_true et] at o2
      exact absurd o2 (by decide)
    · exact x
  obtain ⟨s3, d1, d2, d3, d4⟩ := ready_done (c := c) (k := k) hr
  exact ⟨s3, (a1.trans b1.1).trans d1, d2, fun q hq => (d3 q hq).trans (hoth q hq), d4⟩

theorem checking_done {k : Hdr} {p : Nat} {s : St} (h : Live c k s) (hcall : s.call p = .checking) :
    ∃ s', Goes c k s s' ∧ s'.call p = .idle ∧ (∀ q, q ≠ p → s'.call q = s.call q) ∧ s'.owner = none := by
  by_cases hd : s.done = true
  · have e : s.move c k (.step p) = some { s with owner := none, call := upd s.call p .idle } := by
      show s.step c k p = _
      unfold St.step; rw [hcall]; simp only [if_pos hd]
    exact ⟨_, Goes.one (m := .step p) trivial e, upd_same _ _ _, fun q hq => upd_other _ _ hq, rfl⟩
  · have e : s.move c k (.step p) = some { s with call := upd s.call p .waiting } := by
      show s.step c k p = _
      unfold St.step; rw [hcall]; simp only [if_neg hd]
    obtain ⟨s', a1, a2, a3, a4⟩ := waiting_done hc hn (h.move (m := .step p) trivial e) (upd_same _ _ _)
    exact ⟨s', (Goes.one (m := .step p) trivial e).trans a1, a2, fun q hq => (a3 q hq).trans (upd_other _ _ hq), a4⟩

theorem flipping_done {k : Hdr} {p : Nat} {s : St} {flip : BitVec 32} (h : Live c k s) (hcall : s.call p = .flipping flip) :
    ∃ s', Goes c k s s' ∧ s'.call p = .idle ∧ (∀ q, q ≠ p → s'.call q = s.call q) ∧ s'.owner = none := by
  have e : s.move c k (.step p) = some { s with own := s.own ||| flip, call := upd s.call p .checking } := by
    show s.step c k p = _
    unfold St.step; rw [hcall]
  obtain ⟨s', a1, a2, a3, a4⟩ := checking_done hc hn (h.move (m := .step p) trivial e) (upd_same _ _ _)
  exact ⟨s', (Goes.one (m := .step p) trivial e).trans a1, a2, fun q hq => (a3 q hq).trans (upd_other _ _ hq), a4⟩

theorem filling_done {k : Hdr} {p : Nat} {s : St} {t : Tlp} {flip : BitVec 32} (h : Live c k s) (hcall : s.call p = .filling t flip) :
    ∃ s', Goes c k s s' ∧ s'.call p = .idle ∧ (∀ q, q ≠ p → s'.call q = s.call q) ∧ s'.owner = none := by
  obtain ⟨s1, f, a1, a2, a3, a4⟩ := fill_all hc hn _ s t flip h hcall rfl
  obtain ⟨s', b1, b2, b3, b4⟩ := flipping_done hc hn (h.goes a1) a2
  exact ⟨s', a1.trans b1, b2, fun q hq => (b3 q hq).trans (a3 q hq), b4⟩

/-- The call that has the mutex comes to its end. -/
theorem owner_done {k : Hdr} {p : Nat} {s : St} (h : Live c k s) (ho : s.owner = some p) :
    ∃ s', Goes c k s s' ∧ s'.call p = .idle ∧ (∀ q, q ≠ p → s'.call q = s.call q) ∧ s'.owner = none := by
  obtain ⟨hh, hi⟩ := tx_inv hc h.reach
  have hctl := hi.ctl
  unfold CallsOk at hctl
  rw [ho] at hctl
  obtain ⟨_, hown⟩ := hctl
  cases hcall : s.call p with
  | idle => rw [hcall] at hown; exact hown.elim
  | wants m => rw [hcall] at hown; exact hown.elim
  | filling t flip => exact filling_done hc hn h hcall
  | writing t flip ws =>
    obtain ⟨s1, a1, a2, a3, a4⟩ := write_all (c := c) (k := k) ws s hcall
    obtain ⟨s', b1, b2, b3, b4⟩ := filling_done hc hn (h.goes a1) a2
    exact ⟨s', a1.trans b1, b2, fun q hq => (b3 q hq).trans (a3 q hq), b4⟩
  | flipping flip => exact flipping_done hc hn h hcall
  | checking => exact checking_done hc hn h hcall
  | waiting => exact waiting_done hc hn h hcall
  | ready => exact ready_done hcall

/-- Every call comes to its end. -/
theorem call_done {k : Hdr} {p : Nat} {s : St} (h : Live c k s) : ∃ s', Goes c k s s' ∧ s'.call p = .idle := by
  rcases owner_cases s with ho | ⟨o, ho⟩
  · have start : ∀ s1 : St, Live c k s1 → s1.owner = none → ∃ s', Goes c k s1 s' ∧ s'.call p = .idle := by
      intro s1 h1 ho1
      obtain ⟨hh, hi⟩ := tx_inv hc h1.reach
      have hctl := hi.ctl
      unfold CallsOk at hctl
      rw [ho1] at hctl
      have hf := hctl.2.2.2 p
      cases hcall : s1.call p with
      | idle => exact ⟨s1, Goes.refl c k s1, hcall⟩
      | wants m =>
        rw [hcall] at hf
        obtain ⟨b1, _⟩ := bytesOf_ok k hf
        have e : s1.move c k (.step p) = some { s1 with owner := some p, done := false, sent := s1.sent ++ [m], call := upd s1.call p (.filling { bytes := bytesOf k m } 0) } := by
          show s1.step c k p = _
          unfold St.step; rw [hcall]; simp only [if_pos ho1]; rw [b1]; rfl
        obtain ⟨s', a1, a2, _⟩ := owner_done hc hn (h1.move (m := .step p) trivial e) rfl
        exact ⟨s', (Goes.one (m := .step p) trivial e).trans a1, a2⟩
      | _ => rw [hcall] at hf; exact hf.elim
    exact start s h ho
  · obtain ⟨s1, a1, a2, a3, a4⟩ := owner_done hc hn h ho
    have h1 := h.goes a1
    obtain ⟨hh, hi⟩ := tx_inv hc h1.reach
    have hctl := hi.ctl
    unfold CallsOk at hctl
    rw [a4] at hctl
    have hf := hctl.2.2.2 p
    cases hcall : s1.call p with
    | idle => exact ⟨s1, a1, hcall⟩
    | wants m =>
      rw [hcall] at hf
      obtain ⟨b1, _⟩ := bytesOf_ok k hf
      have e : s1.move c k (.step p) = some { s1 with owner := some p, done := false, sent := s1.sent ++ [m], call := upd s1.call p (.filling { bytes := bytesOf k m } 0) } := by
        show s1.step c k p = _
        unfold St.step; rw [hcall]; simp only [if_pos a4]; rw [b1]; rfl
      obtain ⟨s', d1, d2, _⟩ := owner_done hc hn (h1.move (m := .step p) trivial e) rfl
      exact ⟨s', (a1.trans (Goes.one (m := .step p) trivial e)).trans d1, d2⟩
    | _ => rw [hcall] at hf; exact hf.elim

end Verif.CxsHw
