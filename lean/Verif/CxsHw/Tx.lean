import Verif.CxsHw.Lemmas
/-! # CXS hardware bridge: sending -/

namespace Verif.CxsHw
open Verif.Cxs
open Verif.Cxs.Spec
open Verif.ChiHw (ring ring_minus ring_one ring_zero ring_pop upd pop clearNext)

/-- Moves covered: messages that travel, flits of the bridge's width, no reset. -/
def Move.Plain (c : Cfg) : Move → Prop
  | .call _ m => Sendable m
  | .arrive f => FlitOk c f
  | .reset => False
  | _ => True

/-- The states that moves satisfying `ok` lead to. -/
inductive Reach (c : Cfg) (k : Hdr) (ok : Move → Prop) : St → Prop where
  | init : Reach c k ok St.init
  | move {s s' : St} {m : Move} : Reach c k ok s → ok m → s.move c k m = some s' → Reach c k ok s'

theorem Reach.runs {c : Cfg} {k : Hdr} {ok : Move → Prop} : ∀ (ms : List Move) {s s' : St}, Reach c k ok s → (∀ m ∈ ms, ok m) →
    St.runs c k s ms = some s' → Reach c k ok s'
  | [], s, s', h, _, e => by cases e; exact h
  | m :: ms, s, s', h, hok, e => by
    unfold St.runs at e
    cases hm : s.move c k m with
    | none => rw [hm] at e; cases e
    | some s1 =>
      rw [hm] at e
      exact Reach.runs ms (h.move (hok m (by simp)) hm) (fun x hx => hok x (by simp [hx])) e

theorem upd_same {α : Type} (f : Nat → α) (k : Nat) (v : α) : upd f k v k = v := if_pos rfl

/-! ## The invariant -/

/-- The worker has read the transmit flag, or has cleared it too. -/
def Work.tseen : Work → Bool
  | .seen t _ => t
  | _ => false

def Work.tclr : Work → Bool
  | .cleared t _ => t
  | _ => false

/-- Flits taken out of the descriptors. -/
def St.taken (s : St) : List Flit := s.out ++ s.reg.toList

/-- The call that has the mutex. -/
def St.ownCall (s : St) : Call :=
  match s.owner with
  | none => .idle
  | some p => s.call p

/-- Flits completely written. -/
def St.full (s : St) : Nat :=
  match s.ownCall with
  | .writing _ _ _ => s.built.length - 1
  | _ => s.built.length

/-- No news that flits were sent is under way. -/
def St.quiet (s : St) : Prop := s.tflag = false ∧ s.work.tseen = false ∧ s.work.tclr = false

/-- How the news that all flits were sent travels: taken all?, flag, seen by the worker,
cleared by the worker, `m_txDone`. -/
def sig : Bool → Bool → Bool → Bool → Bool → Bool
  | false, false, false, false, false => true
  | true, true, false, false, false => true
  | true, true, true, false, false => true
  | true, false, false, true, false => true
  | true, false, false, false, true => true
  | _, _, _, _, _ => false

def St.news (s : St) (h : Nat) : Bool := sig (decide (s.taken.length = h)) s.tflag s.work.tseen s.work.tclr s.done

/-- A call without the mutex. -/
def Free : Call → Prop
  | .idle => True
  | .wants m => Sendable m
  | _ => False

/-- What is left of the packet under way. -/
def Call.rest (c : Cfg) : Call → List Piece
  | .filling t _ => pieces (fw c) t
  | .writing t _ _ => pieces (fw c) t
  | _ => []

/-- The call that has the mutex, `h` flits having been given to the hardware. -/
def OwnOk (c : Cfg) (s : St) (h : Nat) : Call → Prop
  | .filling t flip => s.taken.length = h ∧ s.quiet ∧ s.done = false ∧ TlpOk t ∧ flip = ring (h % 15) (s.built.length - h) ∧
      s.built.length - h + (pieces (fw c) t).length ≤ 15 ∧ 0 < s.built.length - h + (pieces (fw c) t).length
  | .writing t flip ws => s.taken.length = h ∧ s.quiet ∧ s.done = false ∧ TlpOk t ∧ flip = ring (h % 15) (s.built.length - h) ∧
      s.built.length - h + (pieces (fw c) t).length ≤ 15 ∧ h < s.built.length ∧
      ∃ f, s.built[s.built.length - 1]? = some f ∧ Into c ((s.built.length - 1) % 15) f ws ∧
        Holds c (s.tmem.writes c ws) ((s.built.length - 1) % 15) f
  | .flipping flip => s.taken.length = h ∧ s.quiet ∧ s.done = false ∧ flip = ring (h % 15) (s.built.length - h) ∧ h < s.built.length ∧
      s.built.length ≤ h + 15
  | .checking => h = s.built.length ∧ s.news h = true
  | .waiting => h = s.built.length ∧ s.news h = true ∧ s.done = false
  | .ready => h = s.built.length ∧ s.taken.length = h ∧ s.quiet
  | _ => False

def CallsOk (c : Cfg) (s : St) (h : Nat) : Prop :=
  match s.owner with
  | none => h = s.built.length ∧ s.taken.length = h ∧ s.quiet ∧ ∀ q, Free (s.call q)
  | some p => (∀ q, q ≠ p → Free (s.call q)) ∧ OwnOk c s h (s.call p)

structure TxInv (c : Cfg) (k : Hdr) (s : St) (h : Nat) : Prop where
  le1 : s.taken.length ≤ h
  le2 : h ≤ s.full
  room : s.built.length ≤ s.taken.length + 15
  tidx : s.tidx = s.full % 15
  rd : s.rd = s.taken.length % 15
  own : s.own = ring (s.taken.length % 15) (h - s.taken.length)
  pre : s.taken = s.built.take s.taken.length
  mem : ∀ m, s.taken.length ≤ m → m < s.full → ∀ f : Flit, s.built[m]? = some f → Holds c s.tmem (m % 15) f
  pcs : ∃ ps, Each (fun (f : Flit) p => Carries c f.1 f.2 p ∧ FlitOk c f) s.built ps ∧
    ps ++ s.ownCall.rest c = s.sent.flatMap (piecesOf c k)
  snd : ∀ m ∈ s.sent, Sendable m
  ctl : CallsOk c s h

theorem full_le (s : St) : s.full ≤ s.built.length := by
  unfold St.full
  split <;> omega

theorem tx_init (c : Cfg) (k : Hdr) : TxInv c k St.init 0 :=
  { le1 := Nat.le_refl _, le2 := Nat.zero_le _, room := by decide, tidx := rfl, rd := rfl, own := rfl, pre := rfl,
    mem := fun m _ h => absurd h (by show ¬m < 0; omega), pcs := ⟨[], .nil, rfl⟩, snd := fun m h => by (cases h),
    ctl := ⟨rfl, rfl, ⟨rfl, rfl, rfl⟩, fun _ => trivial⟩ }

theorem each_get {α β : Type} {R : α → β → Prop} {a : List α} {b : List β} (h : Each R a b) : ∀ (i : Nat) (x : α), a[i]? = some x →
    ∃ y : β, b[i]? = some y ∧ R x y := by
  induction h with
  | nil => intro i x hx; simp at hx
  | cons h1 _ ih =>
    intro i x hx
    cases i with
    | zero => simp only [List.getElem?_cons_zero, Option.some.injEq] at hx ⊢; subst hx; exact ⟨_, rfl, h1⟩
    | succ i => simp only [List.getElem?_cons_succ] at hx ⊢; exact ih i x hx

theorem TxInv.flit {c : Cfg} {k : Hdr} {s : St} {h : Nat} (hi : TxInv c k s h) {m : Nat} {f : Flit} (e : s.built[m]? = some f) : FlitOk c f := by
  obtain ⟨ps, h1, _⟩ := hi.pcs
  obtain ⟨y, _, _, h2⟩ := each_get h1 m f e
  exact h2

/-- The invariant looks at the sending half only. -/
theorem TxInv.frame {c : Cfg} {k : Hdr} {s s' : St} {h : Nat} (hi : TxInv c k s h) (e1 : s'.tmem = s.tmem) (e2 : s'.own = s.own)
    (e3 : s'.rd = s.rd) (e4 : s'.reg = s.reg) (e5 : s'.out = s.out) (e6 : s'.tflag = s.tflag) (e7 : s'.tidx = s.tidx)
    (e8 : s'.done = s.done) (e9 : s'.owner = s.owner) (e10 : s'.call = s.call) (e11 : s'.work.tseen = s.work.tseen)
    (e12 : s'.work.tclr = s.work.tclr) (e13 : s'.sent = s.sent) (e14 : s'.built = s.built) : TxInv c k s' h := by
  have et : s'.taken = s.taken := by unfold St.taken; rw [e4, e5]
  have eo : s'.ownCall = s.ownCall := by unfold St.ownCall; rw [e9, e10]
  have ef : s'.full = s.full := by unfold St.full; rw [eo, e14]
  have eq : s'.quiet ↔ s.quiet := by unfold St.quiet; rw [e6, e11, e12]
  have en : s'.news h = s.news h := by unfold St.news; rw [et, e6, e11, e12, e8]
  have eow : ∀ x, OwnOk c s' h x ↔ OwnOk c s h x := by
    intro x
    unfold OwnOk
    rw [et, e8, e14, e1, propext eq, en]
  refine { le1 := by rw [et]; exact hi.le1, le2 := by rw [ef]; exact hi.le2, room := by rw [et, e14]; exact hi.room,
           tidx := by rw [e7, ef]; exact hi.tidx, rd := by rw [e3, et]; exact hi.rd, own := by rw [e2, et]; exact hi.own,
           pre := by rw [et, e14]; exact hi.pre, mem := by rw [et, ef, e14, e1]; exact hi.mem,
           pcs := by rw [e14, eo, e13]; exact hi.pcs, snd := by rw [e13]; exact hi.snd, ctl := ?_ }
  have := hi.ctl
  unfold CallsOk at this ⊢
  rw [e9, e10, e14, et]
  simp only [eq, eow]
  exact this

/-! ## Each move keeps it -/

theorem owner_cases (s : St) : s.owner = none ∨ ∃ o, s.owner = some o := by
  cases s.owner with
  | none => exact Or.inl rfl
  | some o => exact Or.inr ⟨o, rfl⟩

theorem tx_call {c : Cfg} {k : Hdr} {s s' : St} {p : Nat} {m : Msg} {h : Nat} (hi : TxInv c k s h) (hm : Sendable m)
    (e : s.move c k (.call p m) = some s') : TxInv c k s' h := by
  simp only [St.move] at e
  cases hc : s.call p with
  | idle =>
    rw [hc] at e
    simp only [] at e
    by_cases hp : p ≠ 0 ∨ s.work.isHanding = true
    · rw [if_pos hp] at e
      simp only [Option.some.injEq] at e
      subst e
      have hctl := hi.ctl
      rcases owner_cases s with ho | ⟨o, ho⟩
      · unfold CallsOk at hctl
        rw [ho] at hctl
        have eo : St.ownCall { s with call := upd s.call p (.wants m) } = s.ownCall := by
          unfold St.ownCall; rw [ho]
        have ef : St.full { s with call := upd s.call p (.wants m) } = s.full := by
          unfold St.full; rw [eo]
        refine { hi with le2 := by rw [ef]; exact hi.le2, tidx := by rw [ef]; exact hi.tidx, mem := by rw [ef]; exact hi.mem, pcs := by rw [eo]; exact hi.pcs, ctl := ?_ }
        unfold CallsOk
        simp only [ho]
        refine ⟨hctl.1, hctl.2.1, hctl.2.2.1, fun q => ?_⟩
        unfold upd
        by_cases hq : q = p
        · rw [if_pos hq]; exact hm
        · rw [if_neg hq]; exact hctl.2.2.2 q
      · unfold CallsOk at hctl
        rw [ho] at hctl
        have hne : o ≠ p := by
          intro e
          subst e
          have := hctl.2
          rw [hc] at this
          exact this
        have eu : upd s.call p (.wants m) o = s.call o := by unfold upd; rw [if_neg hne]
        have eo : St.ownCall { s with call := upd s.call p (.wants m) } = s.ownCall := by
          unfold St.ownCall; rw [ho]; exact eu
        have ef : St.full { s with call := upd s.call p (.wants m) } = s.full := by
          unfold St.full; rw [eo]
        refine { hi with le2 := by rw [ef]; exact hi.le2, tidx := by rw [ef]; exact hi.tidx, mem := by rw [ef]; exact hi.mem, pcs := by rw [eo]; exact hi.pcs, ctl := ?_ }
        unfold CallsOk
        simp only [ho]
        refine ⟨fun q hq => ?_, by rw [eu]; exact hctl.2⟩
        by_cases hqp : q = p
        · unfold upd; rw [if_pos hqp]; exact hm
        · unfold upd; rw [if_neg hqp]; exact hctl.1 q hq
    · rw [if_neg hp] at e; cases e
  | _ => rw [hc] at e; cases e

theorem upd_other {α : Type} (f : Nat → α) {k q : Nat} (v : α) (h : q ≠ k) : upd f k v q = f q := by
  unfold upd; rw [if_neg h]

theorem fw_eq (c : Cfg) : fw c = 4 * c.words := rfl

/-- A step of the call that has the mutex is a step of its owner. -/
theorem TxInv.owner_of {c : Cfg} {k : Hdr} {s : St} {h : Nat} (hi : TxInv c k s h) {p : Nat} (hf : ¬Free (s.call p)) :
    s.owner = some p := by
  have hctl := hi.ctl
  unfold CallsOk at hctl
  cases ho : s.owner with
  | none => rw [ho] at hctl; exact absurd (hctl.2.2.2 p) hf
  | some o =>
    rw [ho] at hctl
    by_cases e : p = o
    · rw [e]
    · exact absurd (hctl.1 p e) hf

theorem tx_step {c : Cfg} (hc : HwOk c) {k : Hdr} {s s' : St} {p : Nat} {h : Nat} (hi : TxInv c k s h)
    (e : s.step c k p = some s') : ∃ h', TxInv c k s' h' := by
  have hctl := hi.ctl
  unfold St.step at e
  cases hcall : s.call p with
  | idle => rw [hcall] at e; cases e
  | waiting => rw [hcall] at e; cases e
  | wants m =>
    rw [hcall] at e
    simp only [] at e
    by_cases ho : s.owner = none
    · rw [if_pos ho] at e
      unfold CallsOk at hctl
      rw [ho] at hctl
      obtain ⟨c1, c2, c3, c4⟩ := hctl
      have hm : Sendable m := by have := c4 p; rw [hcall] at this; exact this
      obtain ⟨b1, b2, b3, _⟩ := bytesOf_ok k hm
      rw [b1] at e
      simp only [Option.map_some, Option.some.injEq] at e
      subst e
      have eo : s.ownCall = .idle := by unfold St.ownCall; rw [ho]
      have ef : s.full = s.built.length := by unfold St.full; rw [eo]
      have hp : pieces (fw c) ⟨bytesOf k m, 0, false⟩ = piecesOf c k m := by
        unfold pieces piecesOf
        simp only [Bool.false_eq_true, if_false, decide_true, List.drop_zero, fw_eq]
      refine ⟨h, ?_⟩
      refine { le1 := hi.le1, le2 := ?_, room := hi.room, tidx := ?_, rd := hi.rd, own := hi.own, pre := hi.pre, mem := ?_, pcs := ?_, snd := ?_, ctl := ?_ }
      · show h ≤ St.full _
        simp only [St.full, St.ownCall, upd_same]; omega
      · show s.tidx = St.full _ % 15
        simp only [St.full, St.ownCall, upd_same]; rw [hi.tidx, ef]
      · intro x hx1 hx2 f hf
        refine hi.mem x hx1 ?_ f hf
        simp only [St.full, St.ownCall, upd_same] at hx2
        rw [ef]; exact hx2
      · obtain ⟨ps, q1, q2⟩ := hi.pcs
        refine ⟨ps, q1, ?_⟩
        simp only [St.ownCall, upd_same, Call.rest, List.flatMap_append, List.flatMap_cons, List.flatMap_nil, List.append_nil, hp]
        rw [eo] at q2
        simp only [Call.rest, List.append_nil] at q2
        rw [q2]
      · intro x hx
        rcases List.mem_append.1 hx with h1 | h1
        · exact hi.snd x h1
        · rw [List.mem_singleton] at h1; subst h1; exact hm
      · unfold CallsOk
        simp only []
        refine ⟨fun q hq => by rw [upd_other _ _ hq]; exact c4 q, ?_⟩
        rw [upd_same]
        refine ⟨c2, c3, rfl, ⟨b3, b2, rfl, Nat.zero_le _, ?_⟩, ?_, ?_, ?_⟩
        · show false = decide (0 = (bytesOf k m).length)
          rw [decide_eq_false (by omega)]
        · show 0 = ring (h % 15) (s.built.length - h)
          rw [c1, Nat.sub_self]; rfl
        · show s.built.length - h + (pieces (fw c) ⟨bytesOf k m, 0, false⟩).length ≤ 15
          rw [hp, c1, Nat.sub_self, Nat.zero_add]
          exact pieces_few hc k hm
        · show 0 < s.built.length - h + (pieces (fw c) ⟨bytesOf k m, 0, false⟩).length
          rw [hp, c1, Nat.sub_self, Nat.zero_add]
          exact List.length_pos_iff.2 (cut_ne_nil _ _ _)
    · rw [if_neg ho] at e; cases e
  | filling t flip =>
    rw [hcall] at e
    simp only [] at e
    have ho := hi.owner_of (p := p) (by rw [hcall]; exact id)
    unfold CallsOk at hctl
    rw [ho] at hctl
    obtain ⟨hfree, hown⟩ := hctl
    rw [hcall] at hown
    obtain ⟨o1, o2, o3, o4, o5, o6, o7⟩ := hown
    have eo : s.ownCall = .filling t flip := by unfold St.ownCall; rw [ho]; exact hcall
    have ef : s.full = s.built.length := by unfold St.full; rw [eo]
    have hle := hi.le2
    by_cases hd : t.done = true
    · rw [if_pos hd] at e
      simp only [Option.some.injEq] at e
      subst e
      have hp0 : pieces (fw c) t = [] := pieces_nil.2 hd
      rw [hp0, List.length_nil, Nat.add_zero] at o6 o7
      refine ⟨h, { le1 := hi.le1, le2 := ?_, room := hi.room, tidx := ?_, rd := hi.rd, own := hi.own, pre := hi.pre, mem := ?_, pcs := ?_, snd := hi.snd, ctl := ?_ }⟩
      · simp only [St.full, St.ownCall, ho, upd_same]; omega
      · show s.tidx = St.full _ % 15
        simp only [St.full, St.ownCall, ho, upd_same]; rw [hi.tidx, ef]
      · intro x hx1 hx2 f hf
        refine hi.mem x hx1 ?_ f hf
        simp only [St.full, St.ownCall, ho, upd_same] at hx2
        rw [ef]; exact hx2
      · obtain ⟨ps, q1, q2⟩ := hi.pcs
        refine ⟨ps, q1, ?_⟩
        simp only [St.ownCall, ho, upd_same, Call.rest]
        rw [eo] at q2
        simp only [Call.rest, hp0] at q2
        exact q2
      · unfold CallsOk
        simp only [ho]
        refine ⟨fun q hq => by rw [upd_other _ _ hq]; exact hfree q hq, ?_⟩
        rw [upd_same]
        exact ⟨o1, o2, o3, o5, by show h < s.built.length; omega, by show s.built.length ≤ h + 15; omega⟩
    · rw [if_neg hd] at e
      replace hd : t.done = false := by cases h' : t.done <;> simp_all
      obtain ⟨pc, pcs, data, t', w, n, a1, a2, a3, a4, a5, a6, a7⟩ := fill_piece hc.cfg o4 hd (data := List.replicate (fw c) 0) (by simp [fw_eq])
      rw [a2] at e
      simp only [Option.bind_some, a3, Option.map_some, Option.some.injEq] at e
      subst e
      rw [← fw_eq] at a1 a6
      rw [a1, List.length_cons] at o6
      have hfo : FlitOk c (data, w) := ⟨a4, toWord_lt a3⟩
      have el : (s.built ++ [(data, w)]).length = s.built.length + 1 := by rw [List.length_append]; rfl
      have htid := hi.tidx
      rw [ef] at htid
      have hfull : ∀ x, St.full { s with built := s.built ++ [(data, w)], call := upd s.call p (.writing t' (flip ||| 1#32 <<< s.tidx) x) } = s.built.length := by
        intro x
        simp only [St.full, St.ownCall, ho, upd_same, el]; omega
      refine ⟨h, { le1 := hi.le1, le2 := ?_, room := ?_, tidx := ?_, rd := hi.rd, own := hi.own, pre := ?_, mem := ?_, pcs := ?_, snd := hi.snd, ctl := ?_ }⟩
      · rw [hfull]; omega
      · show (s.built ++ [(data, w)]).length ≤ s.taken.length + 15
        omega
      · rw [hfull]; exact htid
      · show s.taken = (s.built ++ [(data, w)]).take s.taken.length
        rw [List.take_append_of_le_length (by omega)]
        exact hi.pre
      · intro x hx1 hx2 f hf
        rw [hfull] at hx2
        replace hf : (s.built ++ [(data, w)])[x]? = some f := hf
        rw [List.getElem?_append_left hx2] at hf
        exact hi.mem x hx1 (by rw [ef]; exact hx2) f hf
      · obtain ⟨ps, q1, q2⟩ := hi.pcs
        refine ⟨ps ++ [pc], each_append q1 (.cons ⟨a7, hfo⟩ .nil), ?_⟩
        simp only [St.ownCall, ho, upd_same, Call.rest, a6]
        rw [eo] at q2
        simp only [Call.rest, a1] at q2
        rw [List.append_assoc]
        exact q2
      · unfold CallsOk
        simp only [ho]
        refine ⟨fun q hq => by rw [upd_other _ _ hq]; exact hfree q hq, ?_⟩
        rw [upd_same]
        refine ⟨o1, o2, o3, a5, ?_, ?_, ?_, (data, w), ?_, ?_, ?_⟩
        · show flip ||| 1#32 <<< s.tidx = ring (h % 15) ((s.built ++ [(data, w)]).length - h)
          rw [el, show s.built.length + 1 - h = s.built.length - h + 1 by omega, o5, htid]
          show _ = _ ||| (1#32 <<< ((h % 15 + (s.built.length - h)) % 15))
          rw [show (h % 15 + (s.built.length - h)) % 15 = s.built.length % 15 by omega]
        · show (s.built ++ [(data, w)]).length - h + (pieces (fw c) t').length ≤ 15
          rw [el, a6]; omega
        · show h < (s.built ++ [(data, w)]).length
          omega
        · show (s.built ++ [(data, w)])[(s.built ++ [(data, w)]).length - 1]? = _
          rw [el, Nat.add_sub_cancel, List.getElem?_append_right (Nat.le_refl _), Nat.sub_self]; rfl
        · show Into c (((s.built ++ [(data, w)]).length - 1) % 15) _ _
          rw [el, Nat.add_sub_cancel, htid]
          exact flitWrites_into hc (Nat.mod_lt _ (by decide)) _
        · show Holds c _ (((s.built ++ [(data, w)]).length - 1) % 15) _
          rw [el, Nat.add_sub_cancel, htid]
          exact flitWrites_holds hc (Nat.mod_lt _ (by decide)) _ _
  | writing t flip ws =>
    rw [hcall] at e
    have ho := hi.owner_of (p := p) (by rw [hcall]; exact id)
    unfold CallsOk at hctl
    rw [ho] at hctl
    obtain ⟨hfree, hown⟩ := hctl
    rw [hcall] at hown
    obtain ⟨o1, o2, o3, o4, o5, o6, o7, f, o8, o9, o10⟩ := hown
    have eo : s.ownCall = .writing t flip ws := by unfold St.ownCall; rw [ho]; exact hcall
    have ef : s.full = s.built.length - 1 := by unfold St.full; rw [eo]
    have htid := hi.tidx
    rw [ef] at htid
    cases ws with
    | nil =>
      simp only [Option.some.injEq] at e
      subst e
      have hfull : ∀ x, St.full { s with tidx := x, call := upd s.call p (.filling t flip) } = s.built.length := by
        intro x
        simp only [St.full, St.ownCall, ho, upd_same]
      refine ⟨h, { le1 := hi.le1, le2 := ?_, room := hi.room, tidx := ?_, rd := hi.rd, own := hi.own, pre := hi.pre, mem := ?_, pcs := ?_, snd := hi.snd, ctl := ?_ }⟩
      · rw [hfull]; omega
      · show (s.tidx + 1) % 15 = _
        rw [hfull, htid]; omega
      · intro x hx1 hx2 g hg
        rw [hfull] at hx2
        by_cases hx : x = s.built.length - 1
        · subst hx
          have : some f = some g := o8.symm.trans hg
          cases this
          exact o10
        · exact hi.mem x hx1 (by rw [ef]; omega) g hg
      · obtain ⟨ps, q1, q2⟩ := hi.pcs
        refine ⟨ps, q1, ?_⟩
        simp only [St.ownCall, ho, upd_same, Call.rest]
        rw [eo] at q2
        exact q2
      · unfold CallsOk
        simp only [ho]
        refine ⟨fun q hq => by rw [upd_other _ _ hq]; exact hfree q hq, ?_⟩
        rw [upd_same]
        exact ⟨o1, o2, o3, o4, o5, o6, by show 0 < s.built.length - h + _; omega⟩
    | cons w ws =>
      simp only [Option.some.injEq] at e
      subst e
      have hfull : ∀ x, St.full { s with tmem := x, call := upd s.call p (.writing t flip ws) } = s.built.length - 1 := by
        intro x
        simp only [St.full, St.ownCall, ho, upd_same]
      have hroom := hi.room
      refine ⟨h, { le1 := hi.le1, le2 := ?_, room := hi.room, tidx := ?_, rd := hi.rd, own := hi.own, pre := hi.pre, mem := ?_, pcs := ?_, snd := hi.snd, ctl := ?_ }⟩
      · rw [hfull]; omega
      · rw [hfull]; exact htid
      · intro x hx1 hx2 g hg
        rw [hfull] at hx2
        replace hx1 : s.taken.length ≤ x := hx1
        refine (hi.mem x hx1 (by rw [ef]; exact hx2) g hg).congr fun sl hsl => ?_
        exact write_other o9 (by rw [hsl]; omega)
      · obtain ⟨ps, q1, q2⟩ := hi.pcs
        refine ⟨ps, q1, ?_⟩
        simp only [St.ownCall, ho, upd_same, Call.rest]
        rw [eo] at q2
        exact q2
      · unfold CallsOk
        simp only [ho]
        refine ⟨fun q hq => by rw [upd_other _ _ hq]; exact hfree q hq, ?_⟩
        rw [upd_same]
        exact ⟨o1, o2, o3, o4, o5, o6, o7, f, o8, fun x hx => o9 x (by simp [hx]), o10⟩
  | flipping flip =>
    rw [hcall] at e
    simp only [Option.some.injEq] at e
    have ho := hi.owner_of (p := p) (by rw [hcall]; exact id)
    unfold CallsOk at hctl
    rw [ho] at hctl
    obtain ⟨hfree, hown⟩ := hctl
    rw [hcall] at hown
    obtain ⟨o1, o2, o3, o4, o5, o6⟩ := hown
    have eo : s.ownCall = .flipping flip := by unfold St.ownCall; rw [ho]; exact hcall
    have ef : s.full = s.built.length := by unfold St.full; rw [eo]
    subst e
    have hfull : ∀ x, St.full { s with own := x, call := upd s.call p .checking } = s.built.length := by
      intro x
      simp only [St.full, St.ownCall, ho, upd_same]
    refine ⟨s.built.length, { le1 := ?_, le2 := ?_, room := hi.room, tidx := ?_, rd := hi.rd, own := ?_, pre := hi.pre, mem := ?_, pcs := ?_, snd := hi.snd, ctl := ?_ }⟩
    · show s.taken.length ≤ s.built.length; omega
    · rw [hfull]; exact Nat.le_refl _
    · rw [hfull, ← ef]; exact hi.tidx
    · show s.own ||| flip = ring (s.taken.length % 15) (s.built.length - s.taken.length)
      have h0 : s.own = 0 := by rw [hi.own, o1, Nat.sub_self]; rfl
      rw [h0, o4, o1]
      exact BitVec.zero_or
    · intro x hx1 hx2 g hg
      rw [hfull] at hx2
      exact hi.mem x hx1 (by rw [ef]; exact hx2) g hg
    · obtain ⟨ps, q1, q2⟩ := hi.pcs
      refine ⟨ps, q1, ?_⟩
      simp only [St.ownCall, ho, upd_same, Call.rest]
      rw [eo] at q2
      exact q2
    · unfold CallsOk
      simp only [ho]
      refine ⟨fun q hq => by rw [upd_other _ _ hq]; exact hfree q hq, ?_⟩
      rw [upd_same]
      refine ⟨rfl, ?_⟩
      obtain ⟨r1, r2, r3⟩ := o2
      show sig (decide (s.taken.length = s.built.length)) s.tflag s.work.tseen s.work.tclr s.done = true
      rw [r1, r2, r3, o3, decide_eq_false (by omega)]
      rfl
  | checking =>
    rw [hcall] at e
    simp only [] at e
    have ho := hi.owner_of (p := p) (by rw [hcall]; exact id)
    unfold CallsOk at hctl
    rw [ho] at hctl
    obtain ⟨hfree, hown⟩ := hctl
    rw [hcall] at hown
    obtain ⟨o1, o2⟩ := hown
    have eo : s.ownCall = .checking := by unfold St.ownCall; rw [ho]; exact hcall
    have ef : s.full = s.built.length := by unfold St.full; rw [eo]
    by_cases hd : s.done = true
    · rw [if_pos hd] at e
      simp only [Option.some.injEq] at e
      subst e
      have hfull : St.full { s with owner := none, call := upd s.call p .idle } = s.built.length := by
        simp only [St.full, St.ownCall]
      refine ⟨h, { le1 := hi.le1, le2 := ?_, room := hi.room, tidx := ?_, rd := hi.rd, own := hi.own, pre := hi.pre, mem := ?_, pcs := ?_, snd := hi.snd, ctl := ?_ }⟩
      · rw [hfull]; omega
      · rw [hfull, ← ef]; exact hi.tidx
      · intro x hx1 hx2 g hg
        rw [hfull] at hx2
        exact hi.mem x hx1 (by rw [ef]; exact hx2) g hg
      · obtain ⟨ps, q1, q2⟩ := hi.pcs
        refine ⟨ps, q1, ?_⟩
        simp only [St.ownCall, Call.rest]
        rw [eo] at q2
        exact q2
      · unfold CallsOk
        simp only []
        unfold St.news at o2
        rw [hd] at o2
        have key : ∀ a b x y, sig a b x y true = true → a = true ∧ b = false ∧ x = false ∧ y = false := by decide
        obtain ⟨r1, r2, r3, r4⟩ := key _ _ _ _ o2
        refine ⟨o1, of_decide_eq_true r1, ⟨r2, r3, r4⟩, fun q => ?_⟩
        by_cases hq : q = p
        · rw [hq, upd_same]; trivial
        · rw [upd_other _ _ hq]; exact hfree q hq
    · rw [if_neg hd] at e
      simp only [Option.some.injEq] at e
      subst e
      have hfull : St.full { s with call := upd s.call p .waiting } = s.built.length := by
        simp only [St.full, St.ownCall, ho, upd_same]
      refine ⟨h, { le1 := hi.le1, le2 := ?_, room := hi.room, tidx := ?_, rd := hi.rd, own := hi.own, pre := hi.pre, mem := ?_, pcs := ?_, snd := hi.snd, ctl := ?_ }⟩
      · rw [hfull]; omega
      · rw [hfull, ← ef]; exact hi.tidx
      · intro x hx1 hx2 g hg
        rw [hfull] at hx2
        exact hi.mem x hx1 (by rw [ef]; exact hx2) g hg
      · obtain ⟨ps, q1, q2⟩ := hi.pcs
        refine ⟨ps, q1, ?_⟩
        simp only [St.ownCall, ho, upd_same, Call.rest]
        rw [eo] at q2
        exact q2
      · unfold CallsOk
        simp only [ho]
        refine ⟨fun q hq => by rw [upd_other _ _ hq]; exact hfree q hq, ?_⟩
        rw [upd_same]
        refine ⟨o1, o2, ?_⟩
        show s.done = false
        cases h' : s.done <;> simp_all
  | ready =>
    rw [hcall] at e
    simp only [Option.some.injEq] at e
    have ho := hi.owner_of (p := p) (by rw [hcall]; exact id)
    unfold CallsOk at hctl
    rw [ho] at hctl
    obtain ⟨hfree, hown⟩ := hctl
    rw [hcall] at hown
    obtain ⟨o1, o2, o3⟩ := hown
    have eo : s.ownCall = .ready := by unfold St.ownCall; rw [ho]; exact hcall
    have ef : s.full = s.built.length := by unfold St.full; rw [eo]
    subst e
    have hfull : St.full { s with owner := none, call := upd s.call p .idle } = s.built.length := by
      simp only [St.full, St.ownCall]
    refine ⟨h, { le1 := hi.le1, le2 := ?_, room := hi.room, tidx := ?_, rd := hi.rd, own := hi.own, pre := hi.pre, mem := ?_, pcs := ?_, snd := hi.snd, ctl := ?_ }⟩
    · rw [hfull]; omega
    · rw [hfull, ← ef]; exact hi.tidx
    · intro x hx1 hx2 g hg
      rw [hfull] at hx2
      exact hi.mem x hx1 (by rw [ef]; exact hx2) g hg
    · obtain ⟨ps, q1, q2⟩ := hi.pcs
      refine ⟨ps, q1, ?_⟩
      simp only [St.ownCall, Call.rest]
      rw [eo] at q2
      exact q2
    · unfold CallsOk
      simp only []
      refine ⟨o1, o2, o3, fun q => ?_⟩
      by_cases hq : q = p
      · rw [hq, upd_same]; trivial
      · rw [upd_other _ _ hq]; exact hfree q hq

/-- The news travels. -/
theorem TxInv.flags {c : Cfg} {k : Hdr} {s s' : St} {h : Nat} (hi : TxInv c k s h) (e1 : s'.tmem = s.tmem) (e2 : s'.own = s.own)
    (e3 : s'.rd = s.rd) (e4 : s'.reg = s.reg) (e5 : s'.out = s.out) (e7 : s'.tidx = s.tidx)
    (e8 : s'.done = s.done) (e9 : s'.owner = s.owner) (e10 : s'.call = s.call) (e13 : s'.sent = s.sent) (e14 : s'.built = s.built)
    (hq : s.quiet → s'.quiet) (hn : s.news h = true → s'.news h = true) : TxInv c k s' h := by
  have et : s'.taken = s.taken := by unfold St.taken; rw [e4, e5]
  have eo : s'.ownCall = s.ownCall := by unfold St.ownCall; rw [e9, e10]
  have ef : s'.full = s.full := by unfold St.full; rw [eo, e14]
  have eow : ∀ x, OwnOk c s h x → OwnOk c s' h x := by
    intro x hx
    cases x with
    | idle => exact hx
    | wants m => exact hx
    | filling t flip =>
      obtain ⟨x1, x2, x3⟩ := hx
      exact ⟨et ▸ x1, hq x2, by rw [e8, e14]; exact x3⟩
    | writing t flip ws =>
      obtain ⟨x1, x2, x3⟩ := hx
      exact ⟨et ▸ x1, hq x2, by rw [e8, e14, e1]; exact x3⟩
    | flipping flip =>
      obtain ⟨x1, x2, x3⟩ := hx
      exact ⟨et ▸ x1, hq x2, by rw [e8, e14]; exact x3⟩
    | checking => exact ⟨e14 ▸ hx.1, hn hx.2⟩
    | waiting => exact ⟨e14 ▸ hx.1, hn hx.2.1, e8 ▸ hx.2.2⟩
    | ready => exact ⟨e14 ▸ hx.1, et ▸ hx.2.1, hq hx.2.2⟩
  refine { le1 := by rw [et]; exact hi.le1, le2 := by rw [ef]; exact hi.le2, room := by rw [et, e14]; exact hi.room,
           tidx := by rw [e7, ef]; exact hi.tidx, rd := by rw [e3, et]; exact hi.rd, own := by rw [e2, et]; exact hi.own,
           pre := by rw [et, e14]; exact hi.pre, mem := by rw [et, ef, e14, e1]; exact hi.mem,
           pcs := by rw [e14, eo, e13]; exact hi.pcs, snd := by rw [e13]; exact hi.snd, ctl := ?_ }
  have hctl := hi.ctl
  unfold CallsOk at hctl ⊢
  rw [e9, e10, e14, et]
  rcases owner_cases s with ho | ⟨o, ho⟩
  · rw [ho] at hctl ⊢
    exact ⟨hctl.1, hctl.2.1, hq hctl.2.2.1, hctl.2.2.2⟩
  · rw [ho] at hctl ⊢
    exact ⟨hctl.1, eow _ hctl.2⟩

theorem sig_see : ∀ a b d, sig a b false false d = true → sig a b b false d = true := by decide

theorem sig_clear : ∀ a b t d, sig a b t false d = true → sig a (b && !t) false t d = true := by decide

theorem sig_done : ∀ a b x d, sig a b x true d = true → a = true ∧ b = false ∧ x = false ∧ d = false := by decide

theorem wake_free {q : Call → Prop} (h : ∀ x, q x → x ≠ .waiting) (call : Nat → Call) {p : Nat} (hp : q (call p)) : wake call p = call p := by
  have := h _ hp
  unfold wake
  split
  · next e => exact absurd e this
  · rfl

theorem free_not_waiting (x : Call) (h : Free x) : x ≠ .waiting := by
  intro e; rw [e] at h; exact h

theorem tx_worker {c : Cfg} {k : Hdr} {s s' : St} {h : Nat} (hi : TxInv c k s h) (e : s.worker c k = some s') : TxInv c k s' h := by
  unfold St.worker at e
  cases hw : s.work with
  | idle =>
    rw [hw] at e
    simp only [Option.some.injEq] at e
    by_cases hf : (s.tflag || s.rflag) = true
    · rw [if_pos hf] at e
      subst e
      refine hi.flags rfl rfl rfl rfl rfl rfl rfl rfl rfl rfl rfl ?_ ?_
      · intro hq
        exact ⟨hq.1, hq.1, rfl⟩
      · intro hn
        unfold St.news at hn ⊢
        rw [hw] at hn
        exact sig_see _ _ _ hn
    · rw [if_neg hf] at e
      subst e
      exact hi
  | seen t r =>
    rw [hw] at e
    simp only [Option.some.injEq] at e
    subst e
    refine hi.flags rfl rfl rfl rfl rfl rfl rfl rfl rfl rfl rfl ?_ ?_
    · intro hq
      have h2 := hq.2.1
      rw [hw] at h2
      refine ⟨?_, rfl, h2⟩
      show (s.tflag && !t) = false
      rw [hq.1]; rfl
    · intro hn
      unfold St.news at hn ⊢
      rw [hw] at hn
      exact sig_clear _ _ _ _ hn
  | cleared t r =>
    rw [hw] at e
    simp only [Option.some.injEq] at e
    cases t with
    | false =>
      rw [if_neg (by decide)] at e
      subst e
      refine hi.frame rfl rfl rfl rfl rfl rfl rfl rfl rfl rfl ?_ ?_ rfl rfl
      · cases r <;> simp [hw, Work.tseen]
      · cases r <;> simp [hw, Work.tclr]
    | true =>
      rw [if_pos rfl] at e
      subst e
      have htc : s.work.tclr = true := by rw [hw]; rfl
      have hnq : ¬s.quiet := fun hq => by rw [hq.2.2] at htc; cases htc
      have hctl := hi.ctl
      unfold CallsOk at hctl
      rcases owner_cases s with ho | ⟨o, ho⟩
      · rw [ho] at hctl
        exact absurd hctl.2.2.1 hnq
      · rw [ho] at hctl
        obtain ⟨hfree, hown⟩ := hctl
        have hts : (if r = true then Work.owning else Work.idle).tseen = false := by cases r <;> rfl
        have htl : (if r = true then Work.owning else Work.idle).tclr = false := by cases r <;> rfl
        cases hcall : s.call o with
        | idle => rw [hcall] at hown; exact hown.elim
        | wants m => rw [hcall] at hown; exact hown.elim
        | filling t flip => rw [hcall] at hown; exact absurd hown.2.1 hnq
        | writing t flip ws => rw [hcall] at hown; exact absurd hown.2.1 hnq
        | flipping flip => rw [hcall] at hown; exact absurd hown.2.1 hnq
        | ready => rw [hcall] at hown; exact absurd hown.2.2 hnq
        | checking =>
          rw [hcall] at hown
          obtain ⟨o1, o2⟩ := hown
          have hwk : wake s.call o = s.call o := by unfold wake; rw [hcall]
          unfold St.news at o2
          rw [htc] at o2
          obtain ⟨r1, r2, r3, r4⟩ := sig_done _ _ _ _ o2
          have eo : s.ownCall = .checking := by unfold St.ownCall; rw [ho]; exact hcall
          have eo2 : St.ownCall { s with done := true, call := wake s.call, work := if r = true then Work.owning else Work.idle } = .checking := by
            simp only [St.ownCall, ho, hwk, hcall]
          have ef : s.full = s.built.length := by unfold St.full; rw [eo]
          have ef2 : St.full { s with done := true, call := wake s.call, work := if r = true then Work.owning else Work.idle } = s.built.length := by
            simp only [St.full, eo2]
          refine { le1 := hi.le1, le2 := by rw [ef2, ← ef]; exact hi.le2, room := hi.room, tidx := by rw [ef2, ← ef]; exact hi.tidx, rd := hi.rd, own := hi.own, pre := hi.pre, mem := by rw [ef2, ← ef]; exact hi.mem, pcs := ?_, snd := hi.snd, ctl := ?_ }
          · have := hi.pcs
            rw [eo2]; rw [eo] at this; exact this
          · unfold CallsOk
            simp only [ho]
            refine ⟨fun q hq => ?_, ?_⟩
            · rw [wake_free free_not_waiting s.call (hfree q hq)]; exact hfree q hq
            · rw [hwk, hcall]
              refine ⟨o1, ?_⟩
              show sig (decide (s.taken.length = h)) s.tflag (if r = true then Work.owning else Work.idle).tseen (if r = true then Work.owning else Work.idle).tclr true = true
              rw [r1, r2, hts, htl]; rfl
        | waiting =>
          rw [hcall] at hown
          obtain ⟨o1, o2, _⟩ := hown
          have hwk : wake s.call o = .ready := by unfold wake; rw [hcall]
          unfold St.news at o2
          rw [htc] at o2
          obtain ⟨r1, r2, r3, r4⟩ := sig_done _ _ _ _ o2
          have eo : s.ownCall = .waiting := by unfold St.ownCall; rw [ho]; exact hcall
          have eo2 : St.ownCall { s with done := true, call := wake s.call, work := if r = true then Work.owning else Work.idle } = .ready := by
            simp only [St.ownCall, ho, hwk]
          have ef : s.full = s.built.length := by unfold St.full; rw [eo]
          have ef2 : St.full { s with done := true, call := wake s.call, work := if r = true then Work.owning else Work.idle } = s.built.length := by
            simp only [St.full, eo2]
          refine { le1 := hi.le1, le2 := by rw [ef2, ← ef]; exact hi.le2, room := hi.room, tidx := by rw [ef2, ← ef]; exact hi.tidx, rd := hi.rd, own := hi.own, pre := hi.pre, mem := by rw [ef2, ← ef]; exact hi.mem, pcs := ?_, snd := hi.snd, ctl := ?_ }
          · have := hi.pcs
            rw [eo2]; rw [eo] at this; exact this
          · unfold CallsOk
            simp only [ho]
            refine ⟨fun q hq => ?_, ?_⟩
            · rw [wake_free free_not_waiting s.call (hfree q hq)]; exact hfree q hq
            · rw [hwk]
              exact ⟨o1, of_decide_eq_true r1, r2, hts, htl⟩
  | owning =>
    rw [hw] at e
    simp only [Option.some.injEq] at e
    subst e
    exact hi.frame rfl rfl rfl rfl rfl rfl rfl rfl rfl rfl (by rw [hw]; rfl) (by rw [hw]; rfl) rfl rfl
  | serving left =>
    rw [hw] at e
    simp only [Option.some.injEq] at e
    subst e
    refine hi.frame rfl rfl rfl rfl rfl rfl rfl rfl rfl rfl ?_ ?_ rfl rfl
    · show (if left = 0 then Work.idle else .fetching (clearNext left) []).tseen = _
      rw [hw]; by_cases h0 : left = 0
      · rw [if_pos h0]; rfl
      · rw [if_neg h0]; rfl
    · show (if left = 0 then Work.idle else .fetching (clearNext left) []).tclr = _
      rw [hw]; by_cases h0 : left = 0
      · rw [if_pos h0]; rfl
      · rw [if_neg h0]; rfl
  | fetching left ws =>
    rw [hw] at e
    simp only [] at e
    cases hr : (flitReads c s.ridx)[ws.length]? with
    | some a =>
      rw [hr] at e
      simp only [Option.some.injEq] at e
      subst e
      exact hi.frame rfl rfl rfl rfl rfl rfl rfl rfl rfl rfl (by rw [hw]; rfl) (by rw [hw]; rfl) rfl rfl
    | none =>
      rw [hr] at e
      simp only [Option.bind_eq_some_iff, Option.map_eq_some_iff] at e
      obtain ⟨w, _, r, _, rfl⟩ := e
      exact hi.frame rfl rfl rfl rfl rfl rfl rfl rfl rfl rfl (by rw [hw]; rfl) (by rw [hw]; rfl) rfl rfl
  | delivering left =>
    rw [hw] at e
    simp only [] at e
    cases hm : s.msgs with
    | nil =>
      rw [hm] at e
      simp only [Option.some.injEq] at e
      subst e
      exact hi.frame rfl rfl rfl rfl rfl rfl rfl rfl rfl rfl (by rw [hw]; rfl) (by rw [hw]; rfl) rfl rfl
    | cons m ms =>
      rw [hm] at e
      simp only [Option.some.injEq] at e
      subst e
      exact hi.frame rfl rfl rfl rfl rfl rfl rfl rfl rfl rfl (by rw [hw]; rfl) (by rw [hw]; rfl) rfl rfl
  | handing left =>
    rw [hw] at e
    simp only [Option.some.injEq] at e
    subst e
    exact hi

theorem take_next {α : Type} {l : List α} {n : Nat} {x : α} (h : l[n]? = some x) : l.take (n + 1) = l.take n ++ [x] := by
  rw [List.take_add_one, h]; rfl

theorem tx_take {c : Cfg} {k : Hdr} {s s' : St} {h : Nat} (hi : TxInv c k s h) (e : s.move c k .take = some s') : TxInv c k s' h := by
  simp only [St.move] at e
  cases hreg : s.reg with
  | some f => rw [hreg] at e; cases e
  | none =>
    rw [hreg] at e
    simp only [] at e
    by_cases h0 : s.own = 0
    · rw [if_pos h0] at e; cases e
    · rw [if_neg h0] at e
      simp only [Option.some.injEq] at e
      have hle := hi.le1
      have hle2 := hi.le2
      have hful := full_le s
      have hroom := hi.room
      have hlt : s.taken.length < h := by
        rcases Nat.lt_or_ge s.taken.length h with hh | hh
        · exact hh
        · refine absurd ?_ h0
          rw [hi.own, Nat.sub_eq_zero_of_le hh]; rfl
      obtain ⟨f, hf⟩ : ∃ f, s.built[s.taken.length]? = some f := by
        rw [List.getElem?_eq_getElem (by omega)]; exact ⟨_, rfl⟩
      have hget : hwFlit c s.tmem s.rd = f := by
        rw [hi.rd]
        exact hwFlit_eq (hi.flit hf) (hi.mem _ (Nat.le_refl _) (by omega) f hf)
      have hown : s.own &&& ~~~(1#32 <<< s.rd) = ring ((s.taken.length + 1) % 15) (h - (s.taken.length + 1)) := by
        have := ring_minus (s.taken.length % 15) (Nat.mod_lt _ (by decide)) (h - s.taken.length) (by omega) 1 (by omega)
        rw [ring_one _ (Nat.mod_lt _ (by decide))] at this
        rw [hi.own, hi.rd, this, show (s.taken.length % 15 + 1) % 15 = (s.taken.length + 1) % 15 by omega, Nat.sub_sub]
      have hz : (decide (s.own &&& ~~~(1#32 <<< s.rd) = 0)) = decide (s.taken.length + 1 = h) := by
        rw [hown]
        have := ring_zero (b := (s.taken.length + 1) % 15) (n := h - (s.taken.length + 1)) (Nat.mod_lt _ (by decide)) (by omega)
        rw [decide_eq_decide, this]; omega
      rw [hget, hz, hown] at e
      subst e
      have et : ∀ a b d o, St.taken { s with reg := some f, own := a, rd := b, tflag := d, owner := o } = s.taken ++ [f] := by
        intro a b d o
        simp [St.taken, hreg]
      have etl : ∀ a b d o, (St.taken { s with reg := some f, own := a, rd := b, tflag := d, owner := o }).length = s.taken.length + 1 := by
        intro a b d o
        rw [et, List.length_append]; rfl
      refine { le1 := by rw [etl]; omega, le2 := hle2, room := by rw [etl]; show s.built.length ≤ _; omega, tidx := hi.tidx, rd := ?_, own := by rw [etl], pre := ?_, mem := ?_, pcs := hi.pcs, snd := hi.snd, ctl := ?_ }
      · rw [etl]
        show (s.rd + 1) % 15 = _
        rw [hi.rd]; omega
      · rw [etl, et]
        show _ = s.built.take (s.taken.length + 1)
        rw [take_next hf, ← hi.pre]
      · intro m hm1 hm2
        rw [etl] at hm1
        exact hi.mem m (by omega) hm2
      · have hctl := hi.ctl
        unfold CallsOk at hctl ⊢
        rcases owner_cases s with ho | ⟨o, ho⟩
        · rw [ho] at hctl
          have := hctl.2.1
          omega
        · rw [ho] at hctl
          simp only [ho]
          obtain ⟨hfree, hown2⟩ := hctl
          refine ⟨hfree, ?_⟩
          have hsig : ∀ t x y d, sig false t x y d = true → t = false ∧ x = false ∧ y = false ∧ d = false := by decide
          cases hcall : s.call o with
          | idle => rw [hcall] at hown2; exact hown2.elim
          | wants m => rw [hcall] at hown2; exact hown2.elim
          | filling t flip => rw [hcall] at hown2; have := hown2.1; omega
          | writing t flip ws => rw [hcall] at hown2; have := hown2.1; omega
          | flipping flip => rw [hcall] at hown2; have := hown2.1; omega
          | ready => rw [hcall] at hown2; have := hown2.2.1; omega
          | checking =>
            rw [hcall] at hown2
            obtain ⟨o1, o2⟩ := hown2
            refine ⟨o1, ?_⟩
            unfold St.news at o2 ⊢
            rw [decide_eq_false (by omega)] at o2
            obtain ⟨r1, r2, r3, r4⟩ := hsig _ _ _ _ o2
            rw [etl]
            show sig _ (s.tflag || decide (s.taken.length + 1 = h)) s.work.tseen s.work.tclr s.done = true
            rw [r1, r2, r3, r4]
            cases decide (s.taken.length + 1 = h) <;> rfl
          | waiting =>
            rw [hcall] at hown2
            obtain ⟨o1, o2, o3⟩ := hown2
            refine ⟨o1, ?_, o3⟩
            unfold St.news at o2 ⊢
            rw [decide_eq_false (by omega)] at o2
            obtain ⟨r1, r2, r3, r4⟩ := hsig _ _ _ _ o2
            rw [etl]
            show sig _ (s.tflag || decide (s.taken.length + 1 = h)) s.work.tseen s.work.tclr s.done = true
            rw [r1, r2, r3, r4]
            cases decide (s.taken.length + 1 = h) <;> rfl

theorem tx_emit {c : Cfg} {k : Hdr} {s s' : St} {h : Nat} (hi : TxInv c k s h) (e : s.move c k .emit = some s') : TxInv c k s' h := by
  simp only [St.move] at e
  cases hreg : s.reg with
  | none => rw [hreg] at e; cases e
  | some f =>
    rw [hreg] at e
    simp only [Option.some.injEq] at e
    subst e
    have et : ∀ o, St.taken { s with reg := none, out := s.out ++ [f], owner := o } = s.taken := by
      intro o
      simp [St.taken, hreg]
    have eow : ∀ x, OwnOk c { s with reg := none, out := s.out ++ [f] } h x ↔ OwnOk c s h x := by
      intro x
      unfold OwnOk St.news
      rw [et]
      exact Iff.rfl
    refine { le1 := by rw [et]; exact hi.le1, le2 := hi.le2, room := by rw [et]; exact hi.room, tidx := hi.tidx, rd := by rw [et]; exact hi.rd, own := by rw [et]; exact hi.own, pre := by rw [et]; exact hi.pre, mem := by rw [et]; exact hi.mem, pcs := hi.pcs, snd := hi.snd, ctl := ?_ }
    have hctl := hi.ctl
    unfold CallsOk at hctl ⊢
    rcases owner_cases s with ho | ⟨o, ho⟩
    · rw [ho] at hctl
      simp only [ho]
      rw [et]
      exact hctl
    · rw [ho] at hctl
      simp only [ho]
      exact ⟨hctl.1, (eow _).2 hctl.2⟩

theorem tx_move {c : Cfg} (hc : HwOk c) {k : Hdr} {s s' : St} {m : Move} {h : Nat} (hi : TxInv c k s h) (hp : m.Plain c)
    (e : s.move c k m = some s') : ∃ h', TxInv c k s' h' := by
  cases m with
  | call p m => exact ⟨h, tx_call hi hp e⟩
  | step p => exact tx_step hc hi e
  | work => exact ⟨h, tx_worker hi e⟩
  | handled =>
    simp only [St.move] at e
    cases hw : s.work with
    | handing left =>
      rw [hw] at e
      simp only [] at e
      by_cases h0 : s.call 0 = .idle
      · rw [if_pos h0] at e
        simp only [Option.some.injEq] at e
        subst e
        exact ⟨h, hi.frame rfl rfl rfl rfl rfl rfl rfl rfl rfl rfl (by rw [hw]; rfl) (by rw [hw]; rfl) rfl rfl⟩
      · rw [if_neg h0] at e; cases e
    | _ => rw [hw] at e; cases e
  | take => exact ⟨h, tx_take hi e⟩
  | emit => exact ⟨h, tx_emit hi e⟩
  | arrive f =>
    simp only [St.move] at e
    by_cases h0 : s.rown.getLsbD s.wr = true
    · rw [if_pos h0] at e; cases e
    · rw [if_neg h0] at e
      simp only [Option.some.injEq] at e
      subst e
      exact ⟨h, hi.frame rfl rfl rfl rfl rfl rfl rfl rfl rfl rfl rfl rfl rfl rfl⟩
  | reset => exact hp.elim

theorem tx_inv {c : Cfg} (hc : HwOk c) {k : Hdr} {s : St} (h : Reach c k (Move.Plain c) s) : ∃ h, TxInv c k s h := by
  induction h with
  | init => exact ⟨0, tx_init c k⟩
  | move _ hp e ih =>
    obtain ⟨h, hi⟩ := ih
    exact tx_move hc hi hp e

end Verif.CxsHw
