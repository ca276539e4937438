import Verif.CxsHw.Progress
/-! # CXS hardware bridge: what its user relies on -/

namespace Verif.CxsHw
open Verif.Cxs
open Verif.Cxs.Spec
open Verif.ChiHw (ring ring_zero upd pop pop_zero)

/-! ## Helpers -/

theorem flits_say {c : Cfg} (hc : CfgOk c) (k : Hdr) {fs : List Flit} {ps : List Piece}
    (h : Each (fun (f : Flit) p => Carries c f.1 f.2 p ∧ FlitOk c f) fs ps) : ∀ {as : List Asm} {todo : List Msg} {rest : List Piece},
    (∀ m ∈ todo, Sendable m) → Progress c k as todo (ps ++ rest) →
    ∃ as' new t1 t2, rxEach c k fs as = some (as', new) ∧ todo = t1 ++ t2 ∧ Each Arrived t1 new ∧ Progress c k as' t2 rest := by
  induction h with
  | nil => intro as todo rest _ hp; exact ⟨as, [], [], todo, rfl, rfl, .nil, hp⟩
  | @cons f p fs ps h1 _ ih =>
    intro as todo rest ht hp
    obtain ⟨as1, new1, a1, a2, e1, e2, e3, e4⟩ := rx_progress hc k h1.1 h1.2.len ht hp []
    obtain ⟨as2, new2, b1, b2, g1, g2, g3, g4⟩ := ih (fun m hm => ht m (by rw [e2]; exact List.mem_append_right _ hm)) e4
    refine ⟨as2, new1 ++ new2, a1 ++ b1, b2, ?_, by rw [e2, g2, List.append_assoc], each_append e3 g3, g4⟩
    show (rxFlit c k f.1 f.2 as []).bind _ = _
    rw [e1]
    simp only [Option.bind_some, g1, Option.map_some, List.nil_append]

theorem each_split {α β : Type} {R : α → β → Prop} {a : List α} {b : List β} (h : Each R a b) : ∀ n : Nat, Each R (a.take n) (b.take n) := by
  induction h with
  | nil => intro n; simp only [List.take_nil]; exact .nil
  | cons h1 _ ih =>
    intro n
    cases n with
    | zero => exact .nil
    | succ n => exact .cons h1 (ih n)

theorem each_prefix {α β : Type} {R : α → β → Prop} {a : List α} {b1 b2 : List β} (h : Each R a (b1 ++ b2)) :
    ∃ a1 a2, a = a1 ++ a2 ∧ Each R a1 b1 := by
  refine ⟨a.take b1.length, a.drop b1.length, (List.take_append_drop _ _).symm, ?_⟩
  have := each_split h b1.length
  rwa [List.take_left' rfl] at this

/-- What any first flits set up say. -/
theorem built_say {c : Cfg} (hc : HwOk c) {k : Hdr} {s : St} {h : Nat} (hi : TxInv c k s h) (n : Nat) :
    ∃ as got todo done, rxEach c k (s.built.take n) [] = some (as, got) ∧ s.sent = done ++ todo ∧ Each Arrived done got ∧
      (s.built.length ≤ n → s.ownCall.rest c = [] → as = [] ∧ todo = []) := by
  obtain ⟨ps, h1, h2⟩ := hi.pcs
  have hpr : Progress c k [] s.sent (ps.take n ++ (ps.drop n ++ s.ownCall.rest c)) := by
    rw [← List.append_assoc, List.take_append_drop, h2]; exact .between
  obtain ⟨as, got, t1, t2, e1, e2, e3, e4⟩ := flits_say hc.cfg k (each_split h1 n) hi.snd hpr
  refine ⟨as, got, t2, t1, e1, e2, e3, fun hle hr => ?_⟩
  have hlen : ps.length = s.built.length := by
    have : ∀ {a : List Flit} {b : List Piece} {R : Flit → Piece → Prop}, Each R a b → b.length = a.length := by
      intro a b R h
      induction h with
      | nil => rfl
      | cons _ _ ih => simp only [List.length_cons, ih]
    exact this h1
  rw [List.drop_eq_nil_of_le (by omega), hr, List.nil_append] at e4
  exact progress_empty e4

theorem upd_ne {f : Nat → Call} {p : Nat} {x : Call} (hx : x ≠ .idle) (h : upd f p x p = .idle) : False := by
  rw [upd_same] at h; exact hx h

theorem out_prefix {s : St} (h : s.taken = s.built.take s.taken.length) : s.out = s.built.take s.out.length := by
  have : s.out = s.taken.take s.out.length := by
    unfold St.taken; rw [List.take_left' rfl]
  have h1 : s.out = s.built.take (min s.out.length s.taken.length) := by
    rw [← List.take_take, ← h]; exact this
  rwa [Nat.min_eq_left (by unfold St.taken; rw [List.length_append]; omega)] at h1

/-! ## Sending -/

/-- On the link, flits carry the messages in the order in which the calls got the mutex,
each once and unchanged, whatever calls, interrupts and arriving flits come between. -/
theorem messages_sent_in_order_partial (c : Cfg) (hc : HwOk c) (k : Hdr) (s : St) (h : Reach c k (Move.Plain c) s) :
    ∃ asms got done todo, rxEach c k s.out [] = some (asms, got) ∧ s.sent = done ++ todo ∧ Each Arrived done got := by
  obtain ⟨hh, hi⟩ := tx_inv hc h
  obtain ⟨as, got, todo, done, e1, e2, e3, _⟩ := built_say hc hi s.out.length
  rw [← out_prefix hi.pre] at e1
  exact ⟨as, got, done, todo, e1, e2, e3⟩

/-- When a call returns, all flits of its message and of all before it have left the
descriptors: at most one of them is not yet on the link. -/
theorem returned_call_was_sent_partial (c : Cfg) (hc : HwOk c) (k : Hdr) (s s' : St) (p : Nat) (h : Reach c k (Move.Plain c) s)
    (e : s.step c k p = some s') (hr : s'.call p = .idle) :
    s'.own = 0 ∧ ∃ got, rxEach c k (s'.out ++ s'.reg.toList) [] = some ([], got) ∧ Each Arrived s'.sent got := by
  have h' : Reach c k (Move.Plain c) s' := h.move (m := .step p) trivial e
  obtain ⟨hh, hi⟩ := tx_inv hc h'
  have ho : s'.owner = none := by
    unfold St.step at e
    cases hcall : s.call p with
    | idle => rw [hcall] at e; cases e
    | waiting => rw [hcall] at e; cases e
    | wants m =>
      rw [hcall] at e
      simp only [] at e
      by_cases ho : s.owner = none
      · rw [if_pos ho, Option.map_eq_some_iff] at e
        obtain ⟨b, _, rfl⟩ := e
        exact (upd_ne (by simp) hr).elim
      · rw [if_neg ho] at e; cases e
    | filling t flip =>
      rw [hcall] at e
      simp only [] at e
      by_cases hd : t.done = true
      · rw [if_pos hd] at e
        cases e
        exact (upd_ne (by simp) hr).elim
      · rw [if_neg hd, Option.bind_eq_some_iff] at e
        obtain ⟨r, _, e⟩ := e
        rw [Option.map_eq_some_iff] at e
        obtain ⟨b, _, rfl⟩ := e
        exact (upd_ne (by simp) hr).elim
    | writing t flip ws =>
      rw [hcall] at e
      cases ws with
      | nil => cases e; exact (upd_ne (by simp) hr).elim
      | cons w ws => cases e; exact (upd_ne (by simp) hr).elim
    | flipping flip => rw [hcall] at e; cases e; exact (upd_ne (by simp) hr).elim
    | checking =>
      rw [hcall] at e
      simp only [] at e
      by_cases hd : s.done = true
      · rw [if_pos hd] at e; cases e; rfl
      · rw [if_neg hd] at e; cases e; exact (upd_ne (by simp) hr).elim
    | ready => rw [hcall] at e; cases e; rfl
  have hctl := hi.ctl
  unfold CallsOk at hctl
  rw [ho] at hctl
  obtain ⟨c1, c2, _, _⟩ := hctl
  have hoc : s'.ownCall = .idle := by unfold St.ownCall; rw [ho]
  refine ⟨by rw [hi.own, c2, Nat.sub_self]; rfl, ?_⟩
  obtain ⟨as, got, todo, done, e1, e2, e3, e4⟩ := built_say hc hi s'.taken.length
  obtain ⟨f1, f2⟩ := e4 (by omega) (by rw [hoc]; rfl)
  rw [← hi.pre] at e1
  subst f1 f2
  rw [List.append_nil] at e2
  rw [e2]
  exact ⟨got, e1, e3⟩

/-- While the hardware owns a descriptor the software writes into none. -/
theorem no_write_while_owned_partial (c : Cfg) (hc : HwOk c) (k : Hdr) (s s' : St) (p : Nat) (h : Reach c k (Move.Plain c) s)
    (e : s.step c k p = some s') (ho : s.own ≠ 0) : s'.tmem = s.tmem := by
  obtain ⟨hh, hi⟩ := tx_inv hc h
  unfold St.step at e
  cases hcall : s.call p with
  | idle => rw [hcall] at e; cases e
  | waiting => rw [hcall] at e; cases e
  | wants m =>
    rw [hcall] at e
    simp only [] at e
    by_cases ho : s.owner = none
    · rw [if_pos ho, Option.map_eq_some_iff] at e
      obtain ⟨b, _, rfl⟩ := e
      rfl
    · rw [if_neg ho] at e; cases e
  | filling t flip =>
    rw [hcall] at e
    simp only [] at e
    by_cases hd : t.done = true
    · rw [if_pos hd] at e; cases e; rfl
    · rw [if_neg hd, Option.bind_eq_some_iff] at e
      obtain ⟨r, _, e⟩ := e
      rw [Option.map_eq_some_iff] at e
      obtain ⟨b, _, rfl⟩ := e
      rfl
  | writing t flip ws =>
    exfalso
    have how := hi.owner_of (p := p) (by rw [hcall]; exact id)
    have hctl := hi.ctl
    unfold CallsOk at hctl
    rw [how] at hctl
    obtain ⟨_, hown⟩ := hctl
    rw [hcall] at hown
    apply ho
    rw [hi.own, hown.1, Nat.sub_self]; rfl
  | flipping flip => rw [hcall] at e; cases e; rfl
  | checking =>
    rw [hcall] at e
    simp only [] at e
    by_cases hd : s.done = true
    · rw [if_pos hd] at e; cases e; rfl
    · rw [if_neg hd] at e; cases e; rfl
  | ready => rw [hcall] at e; cases e; rfl

/-! ## Receiving -/

/-- Let the flits that arrived say the messages `ms`. Then the worker does not fail, and
what it has handed over is the first of `ms`, in order. -/
theorem messages_received_in_order_partial (c : Cfg) (hc : HwOk c) (hn : c.cntlW ≤ 32) (k : Hdr) (s : St)
    (h : Reach c k (Move.Plain c) s) (as : List Asm) (ms : List Msg) (hm : rxEach c k s.arrived [] = some (as, ms)) :
    s.worker c k ≠ none ∧ ∃ rest, ms = s.got ++ rest := by
  have hi := rx_inv hc hn h
  constructor
  · intro e
    have := ((rx_worker hc hn hi).2 e).1
    exact rxEach_take (by rw [hm]; simp) _ this
  · rw [← List.take_append_drop s.fetched.length s.arrived, rxEach_append, ← hi.pre, hi.res] at hm
    simp only [Option.bind_some, Option.map_eq_some_iff] at hm
    obtain ⟨q, _, e⟩ := hm
    cases e
    exact ⟨s.msgs ++ q.2, by rw [List.append_assoc]⟩

/-- When the worker rests and no interrupt is pending, everything that arrived has been
handed over: no flit is forgotten in a descriptor. -/
theorem nothing_left_behind_partial (c : Cfg) (hc : HwOk c) (hn : c.cntlW ≤ 32) (k : Hdr) (s : St)
    (h : Reach c k (Move.Plain c) s) (hw : s.work = .idle) (hf : s.rflag = false) (as : List Asm) (ms : List Msg)
    (hm : rxEach c k s.arrived [] = some (as, ms)) : s.got = ms ∧ s.rown = 0 := by
  have hi := rx_inv hc hn h
  have hp := hi.work
  rw [hw] at hp
  have hle := hi.le
  have hlen : s.fetched.length = s.arrived.length := by
    rcases Nat.lt_or_ge s.fetched.length s.arrived.length with h1 | h1
    · have := hp.2 h1; rw [hf] at this; cases this
    · omega
  have hfe : s.fetched = s.arrived := by
    have := hi.pre
    rwa [hlen, List.take_length] at this
  have hr := hi.res
  rw [hfe, hm, hp.1, List.append_nil] at hr
  cases hr
  refine ⟨rfl, ?_⟩
  rw [hi.rown, hlen, Nat.sub_self]; rfl

/-! ## Nothing hangs -/

/-- From every state every call can come to its end by moves of the bridge and the hardware
alone, when handlers make no calls. -/
theorem every_call_completes_partial (c : Cfg) (hc : HwOk c) (hn : c.cntlW ≤ 32) (k : Hdr) (s : St)
    (h : Reach c k (Move.Plain c) s) (h0 : s.call 0 = .idle) (hg : rxEach c k s.arrived [] ≠ none) (p : Nat) :
    ∃ ms s', (∀ m ∈ ms, Move.Inner m) ∧ St.runs c k s ms = some s' ∧ s'.call p = .idle := by
  obtain ⟨s', ⟨ms, a, b⟩, e⟩ := call_done hc hn (p := p) ⟨h, h0, hg⟩
  exact ⟨ms, s', a, b, e⟩

/-- And the worker can hand over everything that arrived. -/
theorem every_message_delivered_partial (c : Cfg) (hc : HwOk c) (hn : c.cntlW ≤ 32) (k : Hdr) (s : St)
    (h : Reach c k (Move.Plain c) s) (h0 : s.call 0 = .idle) (as : List Asm) (ms : List Msg)
    (hm : rxEach c k s.arrived [] = some (as, ms)) :
    ∃ mv s', (∀ m ∈ mv, Move.Inner m) ∧ St.runs c k s mv = some s' ∧ s'.arrived = s.arrived ∧ s'.got = ms := by
  have hl : Live c k s := ⟨h, h0, by rw [hm]; simp⟩
  obtain ⟨s', w, a, _, b⟩ := worker_done hc hn hl
  obtain ⟨mv, x, y⟩ := w.1
  exact ⟨mv, s', x, y, w.2.arrived, (nothing_left_behind_partial c hc hn k s' (hl.goes w.1).reach a b as ms (by rw [w.2.arrived]; exact hm)).1⟩

/-! ## Two bridges -/

/-- Two bridges joined by a link that keeps the order: what the second has handed over is
the first of what was sent at the first, in order and unchanged, and the second does not
fail. -/
theorem bridge_to_bridge_partial (c : Cfg) (hc : HwOk c) (hn : c.cntlW ≤ 32) (k : Hdr) (s r : St)
    (hs : Reach c k (Move.Plain c) s) (hr : Reach c k (Move.Plain c) r) (later : List Flit) (hl : s.out = r.arrived ++ later) :
    r.worker c k ≠ none ∧ ∃ done todo, s.sent = done ++ todo ∧ Each Arrived done r.got := by
  obtain ⟨hh, hi⟩ := tx_inv hc hs
  obtain ⟨as, got, todo, done, e1, e2, e3, _⟩ := built_say hc hi r.arrived.length
  have harr : s.built.take r.arrived.length = r.arrived := by
    have h1 := out_prefix hi.pre
    have h2 : s.out.take r.arrived.length = r.arrived := by rw [hl, List.take_left' rfl]
    rw [h1, List.take_take] at h2
    have h3 : min r.arrived.length s.out.length = r.arrived.length := by rw [hl, List.length_append]; omega
    rwa [h3] at h2
  rw [harr] at e1
  obtain ⟨g1, rest, g2⟩ := messages_received_in_order_partial c hc hn k r hr as got e1
  refine ⟨g1, ?_⟩
  rw [g2] at e3
  obtain ⟨a1, a2, f1, f2⟩ := each_prefix e3
  exact ⟨a1, a2 ++ todo, by rw [e2, f1, List.append_assoc], f2⟩

/-- And everything when all is done. -/
theorem bridge_to_bridge_all_partial (c : Cfg) (hc : HwOk c) (hn : c.cntlW ≤ 32) (k : Hdr) (s r : St)
    (hs : Reach c k (Move.Plain c) s) (hr : Reach c k (Move.Plain c) r) (hl : s.out = r.arrived)
    (h1 : s.owner = none) (h2 : s.reg = none) (h3 : r.work = .idle) (h4 : r.rflag = false) : Each Arrived s.sent r.got := by
  obtain ⟨hh, hi⟩ := tx_inv hc hs
  have hctl := hi.ctl
  unfold CallsOk at hctl
  rw [h1] at hctl
  obtain ⟨c1, c2, _, _⟩ := hctl
  have hoc : s.ownCall = .idle := by unfold St.ownCall; rw [h1]
  obtain ⟨as, got, todo, done, e1, e2, e3, e4⟩ := built_say hc hi s.taken.length
  obtain ⟨f1, f2⟩ := e4 (by omega) (by rw [hoc]; rfl)
  have ht : s.taken = r.arrived := by unfold St.taken; rw [h2, ← hl]; simp
  rw [← hi.pre, ht] at e1
  obtain ⟨g1, _⟩ := nothing_left_behind_partial c hc hn k r hr h3 h4 as got e1
  subst f2
  rw [List.append_nil] at e2
  rw [e2, g1]
  exact e3

/-! ## Any sender -/

/-- Flits of any legal layout, with several packets in a flit or packets over several
flits, say exactly the messages packed. -/
theorem any_layout_partial (c : Cfg) (k : Hdr) : ∀ (fs : List (List Item × BitVec 64)) (carry : Option (List Byte)) (_ : Stream c carry.isSome fs)
    (ms : List Msg) (_ : ∀ m ∈ ms, Sendable m) (_ : (assemble carry (fs.flatMap (·.1))).1 = ms.map (bytesOf k)),
    ∃ as rs, rxEach c k (fs.map fun f => (flitBytes f.1, f.2)) (openAsm carry) = some (as, rs) ∧ Each Arrived ms rs
  | [], carry, _, ms, _, hp => by
    have : ms = [] := by
      have h0 : (assemble carry ([] : List Item)).1 = [] := by simp [assemble]
      have : ms.map (bytesOf k) = [] := by rw [← hp]; exact h0
      exact List.map_eq_nil_iff.1 this
    subst this
    exact ⟨openAsm carry, [], rfl, .nil⟩
  | (is, w) :: fs, carry, hst, ms, hms, hp => by
    have hst0 := hst
    cases hst with
    | cons h1 h2 h3 =>
      rw [List.flatMap_cons, assemble_append] at hp
      simp only [] at hp
      obtain ⟨m1, m2, e1, e2, e3⟩ := List.map_eq_append_iff.1 hp.symm
      obtain ⟨rs, r1, r2⟩ := extractAll_sendable k m1 (fun m hm => hms m (by rw [e1]; exact List.mem_append_left _ hm)) []
      have one := flits_reassemble c k [(is, w)] carry (.cons h1 h2 fun _ _ => .nil) []
      simp only [List.map_cons, List.map_nil, rxFlits, List.flatMap_cons, List.flatMap_nil, List.append_nil] at one
      rw [← e2, r1] at one
      obtain ⟨as, rs2, q1, q2⟩ := any_layout_partial c k fs (assemble carry is).2 (h3 carry rfl) m2
        (fun m hm => hms m (by rw [e1]; exact List.mem_append_right _ hm)) e3.symm
      refine ⟨as, rs ++ rs2, ?_, by rw [e1]; exact each_append r2 q2⟩
      have hfl : rxFlit c k (flitBytes is) w (openAsm carry) [] = some (openAsm (assemble carry is).2, rs) := by
        cases hx : rxFlit c k (flitBytes is) w (openAsm carry) [] with
        | none => rw [hx] at one; cases one
        | some r =>
          rw [hx] at one
          simp only [Option.bind_some, Option.map_some, Option.some.injEq, List.nil_append] at one
          rw [← one]
      show (rxFlit c k (flitBytes is) w (openAsm carry) []).bind _ = _
      rw [hfl]
      simp only [Option.bind_some, q1, Option.map_some]

end Verif.CxsHw
