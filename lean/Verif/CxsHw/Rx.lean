import Verif.CxsHw.Tx
import Verif.Cxs.Props
/-! # CXS hardware bridge: receiving -/

namespace Verif.CxsHw
open Verif.Cxs
open Verif.Cxs.Spec
open Verif.ChiHw (ring ring_minus ring_one ring_zero ring_pop ring_full upd pop clearNext clearNext_pop)

/-- What flits say to a receiver that hands over the messages after each flit: the packet
begun, and the messages. -/
def rxEach (c : Cfg) (k : Hdr) : List Flit → List Asm → Option (List Asm × List Msg)
  | [], as => some (as, [])
  | f :: fs, as => (rxFlit c k f.1 f.2 as []).bind fun r => (rxEach c k fs r.1).map fun q => (q.1, r.2 ++ q.2)

theorem rxEach_append (c : Cfg) (k : Hdr) : ∀ (a b : List Flit) (as : List Asm),
    rxEach c k (a ++ b) as = (rxEach c k a as).bind fun r => (rxEach c k b r.1).map fun q => (q.1, r.2 ++ q.2)
  | [], b, as => by
    show rxEach c k b as = (rxEach c k b as).map fun q => (q.1, [] ++ q.2)
    cases rxEach c k b as <;> rfl
  | f :: a, b, as => by
    show (rxFlit c k f.1 f.2 as []).bind (fun r => (rxEach c k (a ++ b) r.1).map fun q => (q.1, r.2 ++ q.2)) = _
    rw [show rxEach c k (f :: a) as = (rxFlit c k f.1 f.2 as []).bind fun r => (rxEach c k a r.1).map fun q => (q.1, r.2 ++ q.2) from rfl]
    cases rxFlit c k f.1 f.2 as [] with
    | none => rfl
    | some r =>
      simp only [Option.bind_some]
      rw [rxEach_append c k a b r.1]
      cases rxEach c k a r.1 with
      | none => rfl
      | some q =>
        simp only [Option.bind_some, Option.map_some]
        cases rxEach c k b q.1 with
        | none => rfl
        | some z => simp only [Option.map_some, List.append_assoc]

theorem rxEach_one (c : Cfg) (k : Hdr) (f : Flit) (as : List Asm) : rxEach c k [f] as = rxFlit c k f.1 f.2 as [] := by
  show (rxFlit c k f.1 f.2 as []).bind (fun r => some (r.1, r.2 ++ [])) = _
  cases rxFlit c k f.1 f.2 as [] with
  | none => rfl
  | some r => simp only [Option.bind_some, List.append_nil]

/-- Where the worker is. -/
def WorkOk (c : Cfg) (s : St) : Work → Prop
  | .idle => s.msgs = [] ∧ (s.fetched.length < s.arrived.length → s.rflag = true)
  | .seen _ _ => s.msgs = [] ∧ (s.fetched.length < s.arrived.length → s.rflag = true)
  | .cleared _ r => s.msgs = [] ∧ (s.fetched.length < s.arrived.length → r = true ∨ s.rflag = true)
  | .owning => s.msgs = []
  | .serving left => s.msgs = [] ∧ s.fetched.length + pop 32 left.toNat ≤ s.arrived.length ∧
      (s.fetched.length + pop 32 left.toNat < s.arrived.length → s.rflag = true)
  | .fetching left ws => s.msgs = [] ∧ s.fetched.length + pop 32 left.toNat + 1 ≤ s.arrived.length ∧
      (s.fetched.length + pop 32 left.toNat + 1 < s.arrived.length → s.rflag = true) ∧
      ∀ f : Flit, s.arrived[s.fetched.length]? = some f → ws = (flitWords c f).take ws.length
  | .delivering left => s.fetched.length + pop 32 left.toNat ≤ s.arrived.length ∧
      (s.fetched.length + pop 32 left.toNat < s.arrived.length → s.rflag = true)
  | .handing left => s.fetched.length + pop 32 left.toNat ≤ s.arrived.length ∧
      (s.fetched.length + pop 32 left.toNat < s.arrived.length → s.rflag = true)

structure RxInv (c : Cfg) (k : Hdr) (s : St) : Prop where
  le : s.fetched.length ≤ s.arrived.length
  room : s.arrived.length ≤ s.fetched.length + 15
  wr : s.wr = s.arrived.length % 15
  ridx : s.ridx = s.fetched.length % 15
  rown : s.rown = ring (s.fetched.length % 15) (s.arrived.length - s.fetched.length)
  mem : ∀ m, s.fetched.length ≤ m → m < s.arrived.length → ∀ f : Flit, s.arrived[m]? = some f → Holds c s.rmem (m % 15) f
  ok : ∀ f ∈ s.arrived, FlitOk c f
  pre : s.fetched = s.arrived.take s.fetched.length
  res : rxEach c k s.fetched [] = some (s.asms, s.got ++ s.msgs)
  work : WorkOk c s s.work

theorem rx_init (c : Cfg) (k : Hdr) : RxInv c k St.init :=
  { le := Nat.le_refl _, room := by decide, wr := rfl, ridx := rfl, rown := rfl,
    mem := fun m _ h => absurd h (by show ¬m < 0; omega), ok := fun f h => by (cases h), pre := rfl, res := rfl,
    work := ⟨rfl, fun h => absurd h (by show ¬0 < 0; omega)⟩ }

theorem RxInv.frame {c : Cfg} {k : Hdr} {s s' : St} (hi : RxInv c k s) (e1 : s'.rmem = s.rmem) (e2 : s'.rown = s.rown)
    (e3 : s'.wr = s.wr) (e4 : s'.arrived = s.arrived) (e5 : s'.rflag = s.rflag) (e6 : s'.ridx = s.ridx) (e7 : s'.work = s.work)
    (e8 : s'.asms = s.asms) (e9 : s'.msgs = s.msgs) (e10 : s'.fetched = s.fetched) (e11 : s'.got = s.got) : RxInv c k s' := by
  refine { le := by rw [e10, e4]; exact hi.le, room := by rw [e10, e4]; exact hi.room, wr := by rw [e3, e4]; exact hi.wr,
           ridx := by rw [e6, e10]; exact hi.ridx, rown := by rw [e2, e10, e4]; exact hi.rown, mem := by rw [e10, e4, e1]; exact hi.mem,
           ok := by rw [e4]; exact hi.ok, pre := by rw [e10, e4]; exact hi.pre, res := by rw [e10, e8, e11, e9]; exact hi.res, work := ?_ }
  have := hi.work
  unfold WorkOk at this ⊢
  rw [e7, e9, e10, e4, e5]
  exact this

theorem get_append {α : Type} {l : List α} {m : Nat} {x y : α} (h : m < l.length) (e : (l ++ [x])[m]? = some y) : l[m]? = some y := by
  rw [List.getElem?_append_left h] at e; exact e

theorem rx_arrive {c : Cfg} {k : Hdr} {s s' : St} {f : Flit} (hi : RxInv c k s) (hf : FlitOk c f)
    (e : s.move c k (.arrive f) = some s') : RxInv c k s' := by
  simp only [St.move] at e
  by_cases ho : s.rown.getLsbD s.wr = true
  · rw [if_pos ho] at e; cases e
  · rw [if_neg ho] at e
    simp only [Option.some.injEq] at e
    subst e
    have h1 := hi.le
    have h3 := hi.room
    have hlt : s.arrived.length < s.fetched.length + 15 := by
      rcases Nat.lt_or_eq_of_le h3 with h | h
      · exact h
      · exfalso
        apply ho
        rw [hi.rown, hi.wr, h, Nat.add_sub_cancel_left, Nat.add_mod_right]
        exact ring_full _ (Nat.mod_lt _ (by decide))
    have el : (s.arrived ++ [f]).length = s.arrived.length + 1 := by rw [List.length_append]; rfl
    refine { le := ?_, room := ?_, wr := ?_, ridx := hi.ridx, rown := ?_, mem := ?_, ok := ?_, pre := ?_, res := hi.res, work := ?_ }
    · show s.fetched.length ≤ (s.arrived ++ [f]).length; omega
    · show (s.arrived ++ [f]).length ≤ s.fetched.length + 15; omega
    · show (s.wr + 1) % 15 = (s.arrived ++ [f]).length % 15
      rw [el, hi.wr]; omega
    · show s.rown ||| (1#32 <<< s.wr) = ring (s.fetched.length % 15) ((s.arrived ++ [f]).length - s.fetched.length)
      rw [el, show s.arrived.length + 1 - s.fetched.length = s.arrived.length - s.fetched.length + 1 by omega, hi.rown, hi.wr]
      show _ = _ ||| (1#32 <<< ((s.fetched.length % 15 + (s.arrived.length - s.fetched.length)) % 15))
      rw [show (s.fetched.length % 15 + (s.arrived.length - s.fetched.length)) % 15 = s.arrived.length % 15 by omega]
    · intro m a b g hg
      replace b : m < (s.arrived ++ [f]).length := b
      replace hg : (s.arrived ++ [f])[m]? = some g := hg
      replace a : s.fetched.length ≤ m := a
      by_cases hmr : m = s.arrived.length
      · subst hmr
        rw [List.getElem?_append_right (Nat.le_refl _), Nat.sub_self] at hg
        cases hg
        rw [← hi.wr]
        exact hwStore_holds c _ _ _
      · refine (hi.mem m a (by omega) g (get_append (by omega) hg)).congr fun sl hsl => hwStore_other _ _ _ ?_
        rw [hsl, hi.wr]; omega
    · intro g hg
      replace hg : g ∈ s.arrived ++ [f] := hg
      rcases List.mem_append.1 hg with h | h
      · exact hi.ok g h
      · rw [List.mem_singleton] at h; subst h; exact hf
    · show s.fetched = (s.arrived ++ [f]).take s.fetched.length
      rw [List.take_append_of_le_length h1]; exact hi.pre
    · have hp := hi.work
      show WorkOk c _ s.work
      cases hw : s.work with
      | idle => rw [hw] at hp; exact ⟨hp.1, fun _ => rfl⟩
      | seen t r => rw [hw] at hp; exact ⟨hp.1, fun _ => rfl⟩
      | cleared t r => rw [hw] at hp; exact ⟨hp.1, fun _ => Or.inr rfl⟩
      | owning => rw [hw] at hp; exact hp
      | serving left => rw [hw] at hp; exact ⟨hp.1, by show s.fetched.length + pop 32 left.toNat ≤ (s.arrived ++ [f]).length; have := hp.2.1; omega, fun _ => rfl⟩
      | fetching left ws =>
        rw [hw] at hp
        obtain ⟨a1, a2, a3, a4⟩ := hp
        refine ⟨a1, by show s.fetched.length + pop 32 left.toNat + 1 ≤ (s.arrived ++ [f]).length; omega, fun _ => rfl, fun g hg => ?_⟩
        exact a4 g (get_append (by omega) hg)
      | delivering left => rw [hw] at hp; exact ⟨by show s.fetched.length + pop 32 left.toNat ≤ (s.arrived ++ [f]).length; have := hp.1; omega, fun _ => rfl⟩
      | handing left => rw [hw] at hp; exact ⟨by show s.fetched.length + pop 32 left.toNat ≤ (s.arrived ++ [f]).length; have := hp.1; omega, fun _ => rfl⟩

/-- What a step of the worker does with the flits that arrived: it crashes only on a flit
that cannot be taken apart. -/
theorem rx_worker {c : Cfg} (hc : HwOk c) (hn : c.cntlW ≤ 32) {k : Hdr} {s : St} (hi : RxInv c k s) :
    (∀ s', s.worker c k = some s' → RxInv c k s' ∧ s'.arrived = s.arrived) ∧
    (s.worker c k = none → rxEach c k (s.arrived.take (s.fetched.length + 1)) [] = none ∧ s.fetched.length < s.arrived.length) := by
  have h1 := hi.le
  have h3 := hi.room
  have hp := hi.work
  unfold St.worker
  cases hw : s.work with
  | idle =>
    rw [hw] at hp
    refine ⟨fun s' e => ?_, fun e => by (cases e)⟩
    simp only [Option.some.injEq] at e
    by_cases hf : (s.tflag || s.rflag) = true
    · rw [if_pos hf] at e
      subst e
      exact ⟨{ hi with work := hp }, rfl⟩
    · rw [if_neg hf] at e
      subst e
      exact ⟨hi, rfl⟩
  | seen t r =>
    rw [hw] at hp
    refine ⟨fun s' e => ?_, fun e => by (cases e)⟩
    simp only [Option.some.injEq] at e
    subst e
    refine ⟨{ hi with work := ⟨hp.1, fun h => ?_⟩ }, rfl⟩
    show r = true ∨ (s.rflag && !r) = true
    rw [hp.2 h]
    cases r
    · exact Or.inr rfl
    · exact Or.inl rfl
  | cleared t r =>
    rw [hw] at hp
    refine ⟨fun s' e => ?_, fun e => by (cases e)⟩
    simp only [Option.some.injEq] at e
    have hnext : ∀ s1 : St, s1.msgs = s.msgs → s1.fetched = s.fetched → s1.arrived = s.arrived → s1.rflag = s.rflag →
        WorkOk c s1 (if r = true then Work.owning else Work.idle) := by
      intro s1 g1 g2 g3 g4
      cases r with
      | true => rw [if_pos rfl]; exact g1.trans hp.1
      | false =>
        rw [if_neg (by decide)]
        refine ⟨g1.trans hp.1, fun h => ?_⟩
        rw [g2, g3] at h
        rw [g4]
        rcases hp.2 h with h | h
        · cases h
        · exact h
    cases t with
    | true =>
      rw [if_pos rfl] at e
      subst e
      exact ⟨{ hi with work := hnext _ rfl rfl rfl rfl }, rfl⟩
    | false =>
      rw [if_neg (by decide)] at e
      subst e
      exact ⟨{ hi with work := hnext _ rfl rfl rfl rfl }, rfl⟩
  | owning =>
    rw [hw] at hp
    refine ⟨fun s' e => ?_, fun e => by (cases e)⟩
    simp only [Option.some.injEq] at e
    subst e
    have hpop : pop 32 s.rown.toNat = s.arrived.length - s.fetched.length := by
      rw [hi.rown]
      exact ring_pop _ (Nat.mod_lt _ (by decide)) _ (by omega)
    refine ⟨{ hi with work := ⟨hp, ?_, ?_⟩ }, rfl⟩
    · show s.fetched.length + pop 32 s.rown.toNat ≤ s.arrived.length; omega
    · intro h
      replace h : s.fetched.length + pop 32 s.rown.toNat < s.arrived.length := h
      omega
  | serving left =>
    rw [hw] at hp
    obtain ⟨a1, a2, a3⟩ := hp
    refine ⟨fun s' e => ?_, fun e => by (cases e)⟩
    simp only [Option.some.injEq] at e
    by_cases h0 : left = 0
    · rw [if_pos h0] at e
      subst e
      subst h0
      refine ⟨{ hi with work := ⟨a1, fun h => a3 ?_⟩ }, rfl⟩
      exact h
    · rw [if_neg h0] at e
      subst e
      have hcn := clearNext_pop left h0
      refine ⟨{ hi with work := ⟨a1, ?_, ?_, ?_⟩ }, rfl⟩
      · show s.fetched.length + pop 32 (clearNext left).toNat + 1 ≤ s.arrived.length; omega
      · intro h
        replace h : s.fetched.length + pop 32 (clearNext left).toNat + 1 < s.arrived.length := h
        exact a3 (by omega)
      · intro f _; rfl
  | fetching left ws =>
    rw [hw] at hp
    obtain ⟨a1, a2, a3, a4⟩ := hp
    obtain ⟨f, hf⟩ : ∃ f, s.arrived[s.fetched.length]? = some f := by
      rw [List.getElem?_eq_getElem (by omega)]; exact ⟨_, rfl⟩
    have hws := a4 f hf
    have hd : s.fetched.length % 15 < 15 := Nat.mod_lt _ (by decide)
    have hread := flitReads_words hc hd (hi.mem _ (Nat.le_refl _) (by omega) f hf)
    rw [← hi.ridx] at hread
    have hfo : FlitOk c f := hi.ok f (List.mem_of_getElem? hf)
    simp only []
    cases hr : (flitReads c s.ridx)[ws.length]? with
    | some a =>
      refine ⟨fun s' e => ?_, fun e => by (cases e)⟩
      simp only [Option.some.injEq] at e
      subst e
      refine ⟨{ hi with work := ⟨a1, a2, a3, fun g hg => ?_⟩ }, rfl⟩
      have hg' : some f = some g := hf.symm.trans hg
      cases hg'
      have hv : (flitWords c f)[ws.length]? = some (s.rmem.read c a) := by
        rw [← hread, List.getElem?_map, hr]; rfl
      rw [List.length_append, List.length_singleton, take_next hv, ← hws]
    | none =>
      have hlen : (flitWords c f).length ≤ ws.length := by
        rw [List.getElem?_eq_none_iff] at hr
        rw [flitReads_length] at hr
        rw [flitWords_length]; exact hr
      have hall : ws = flitWords c f := by
        rw [hws, List.take_of_length_le hlen]
      obtain ⟨b1, b2⟩ := flitWords_back hfo hn
      rw [← hall] at b1 b2
      simp only [b1, b2, Option.bind_some, Prod.eta]
      have hnext : s.arrived.take (s.fetched.length + 1) = s.fetched ++ [f] := by
        rw [take_next hf, ← hi.pre]
      have hstep : rxEach c k (s.fetched ++ [f]) [] = (rxFlit c k f.1 f.2 s.asms []).map fun q => (q.1, s.got ++ q.2) := by
        rw [rxEach_append, hi.res, a1]
        simp only [Option.bind_some, List.append_nil, rxEach_one]
      rw [a1]
      refine ⟨fun s' e => ?_, fun e => ?_⟩
      · rw [Option.map_eq_some_iff] at e
        obtain ⟨r, hr1, rfl⟩ := e
        have el : (s.fetched ++ [f]).length = s.fetched.length + 1 := by rw [List.length_append]; rfl
        refine ⟨{ le := ?_, room := ?_, wr := hi.wr, ridx := ?_, rown := ?_, mem := ?_, ok := hi.ok, pre := ?_, res := ?_, work := ⟨?_, ?_⟩ }, rfl⟩
        · show (s.fetched ++ [f]).length ≤ s.arrived.length; omega
        · show s.arrived.length ≤ (s.fetched ++ [f]).length + 15; omega
        · show (s.ridx + 1) % 15 = (s.fetched ++ [f]).length % 15
          rw [hi.ridx, el]; omega
        · show s.rown &&& ~~~(1#32 <<< s.ridx) = ring ((s.fetched ++ [f]).length % 15) (s.arrived.length - (s.fetched ++ [f]).length)
          have := ring_minus (s.fetched.length % 15) hd (s.arrived.length - s.fetched.length) (by omega) 1 (by omega)
          rw [ring_one _ hd] at this
          rw [hi.rown, hi.ridx, this, el, show (s.fetched.length % 15 + 1) % 15 = (s.fetched.length + 1) % 15 by omega, Nat.sub_sub]
        · intro m b1 b2
          replace b1 : (s.fetched ++ [f]).length ≤ m := b1
          exact hi.mem m (by omega) b2
        · show s.fetched ++ [f] = s.arrived.take (s.fetched ++ [f]).length
          rw [el, hnext]
        · show rxEach c k (s.fetched ++ [f]) [] = _
          rw [hstep, hr1]; rfl
        · show (s.fetched ++ [f]).length + pop 32 left.toNat ≤ s.arrived.length; omega
        · intro h
          replace h : (s.fetched ++ [f]).length + pop 32 left.toNat < s.arrived.length := h
          exact a3 (by omega)
      · rw [Option.map_eq_none_iff] at e
        rw [hnext, hstep, e]
        exact ⟨rfl, by omega⟩
  | delivering left =>
    rw [hw] at hp
    simp only []
    cases hm : s.msgs with
    | nil =>
      refine ⟨fun s' e => ?_, fun e => by (cases e)⟩
      simp only [Option.some.injEq] at e
      subst e
      refine ⟨{ hi with res := ?_, work := ⟨rfl, hp⟩ }, rfl⟩
      rw [hi.res, hm]
    | cons m ms =>
      refine ⟨fun s' e => ?_, fun e => by (cases e)⟩
      simp only [Option.some.injEq] at e
      subst e
      refine ⟨{ hi with res := ?_, work := hp }, rfl⟩
      show _ = some (s.asms, s.got ++ [m] ++ ms)
      rw [hi.res, hm, List.append_assoc]; rfl
  | handing left =>
    refine ⟨fun s' e => ?_, fun e => by (cases e)⟩
    simp only [Option.some.injEq] at e
    subst e
    exact ⟨hi, rfl⟩

theorem step_rx {c : Cfg} {k : Hdr} {s s' : St} {p : Nat} (e : s.step c k p = some s') :
    s'.rmem = s.rmem ∧ s'.rown = s.rown ∧ s'.wr = s.wr ∧ s'.arrived = s.arrived ∧ s'.rflag = s.rflag ∧ s'.ridx = s.ridx ∧
    s'.work = s.work ∧ s'.asms = s.asms ∧ s'.msgs = s.msgs ∧ s'.fetched = s.fetched ∧ s'.got = s.got := by
  unfold St.step at e
  cases hcall : s.call p with
  | idle => rw [hcall] at e; cases e
  | waiting => rw [hcall] at e; cases e
  | wants m =>
    rw [hcall] at e
    simp only [] at e
    by_cases ho : s.owner = none
    · rw [if_pos ho, Option.map_eq_some_iff] at e
      obtain ⟨b, _, rfl⟩ := e
      exact ⟨rfl, rfl, rfl, rfl, rfl, rfl, rfl, rfl, rfl, rfl, rfl⟩
    · rw [if_neg ho] at e; cases e
  | filling t flip =>
    rw [hcall] at e
    simp only [] at e
    by_cases hd : t.done = true
    · rw [if_pos hd] at e
      cases e
      exact ⟨rfl, rfl, rfl, rfl, rfl, rfl, rfl, rfl, rfl, rfl, rfl⟩
    · rw [if_neg hd, Option.bind_eq_some_iff] at e
      obtain ⟨r, _, e⟩ := e
      rw [Option.map_eq_some_iff] at e
      obtain ⟨b, _, rfl⟩ := e
      exact ⟨rfl, rfl, rfl, rfl, rfl, rfl, rfl, rfl, rfl, rfl, rfl⟩
  | writing t flip ws =>
    rw [hcall] at e
    cases ws with
    | nil => cases e; exact ⟨rfl, rfl, rfl, rfl, rfl, rfl, rfl, rfl, rfl, rfl, rfl⟩
    | cons w ws => cases e; exact ⟨rfl, rfl, rfl, rfl, rfl, rfl, rfl, rfl, rfl, rfl, rfl⟩
  | flipping flip =>
    rw [hcall] at e
    cases e; exact ⟨rfl, rfl, rfl, rfl, rfl, rfl, rfl, rfl, rfl, rfl, rfl⟩
  | checking =>
    rw [hcall] at e
    simp only [] at e
    by_cases hd : s.done = true
    · rw [if_pos hd] at e
      cases e; exact ⟨rfl, rfl, rfl, rfl, rfl, rfl, rfl, rfl, rfl, rfl, rfl⟩
    · rw [if_neg hd] at e
      cases e; exact ⟨rfl, rfl, rfl, rfl, rfl, rfl, rfl, rfl, rfl, rfl, rfl⟩
  | ready =>
    rw [hcall] at e
    cases e; exact ⟨rfl, rfl, rfl, rfl, rfl, rfl, rfl, rfl, rfl, rfl, rfl⟩

theorem rx_move {c : Cfg} (hc : HwOk c) (hn : c.cntlW ≤ 32) {k : Hdr} {s s' : St} {m : Move} (hi : RxInv c k s) (hp : m.Plain c)
    (e : s.move c k m = some s') : RxInv c k s' := by
  cases m with
  | call p m =>
    simp only [St.move] at e
    cases hcall : s.call p with
    | idle =>
      rw [hcall] at e
      simp only [] at e
      by_cases h : p ≠ 0 ∨ s.work.isHanding = true
      · rw [if_pos h] at e
        cases e
        exact hi.frame rfl rfl rfl rfl rfl rfl rfl rfl rfl rfl rfl
      · rw [if_neg h] at e; cases e
    | _ => rw [hcall] at e; cases e
  | step p =>
    obtain ⟨h1, h2, h3, h4, h5, h6, h7, h8, h9, h10, h11⟩ := step_rx e
    exact hi.frame h1 h2 h3 h4 h5 h6 h7 h8 h9 h10 h11
  | work => exact ((rx_worker hc hn hi).1 s' e).1
  | handled =>
    simp only [St.move] at e
    cases hw : s.work with
    | handing left =>
      rw [hw] at e
      simp only [] at e
      by_cases h0 : s.call 0 = .idle
      · rw [if_pos h0] at e
        cases e
        have := hi.work
        rw [hw] at this
        exact { hi with work := this }
      · rw [if_neg h0] at e; cases e
    | _ => rw [hw] at e; cases e
  | take =>
    simp only [St.move] at e
    cases hreg : s.reg with
    | some f => rw [hreg] at e; cases e
    | none =>
      rw [hreg] at e
      simp only [] at e
      by_cases h0 : s.own = 0
      · rw [if_pos h0] at e; cases e
      · rw [if_neg h0] at e
        cases e
        exact hi.frame rfl rfl rfl rfl rfl rfl rfl rfl rfl rfl rfl
  | emit =>
    simp only [St.move] at e
    cases hreg : s.reg with
    | none => rw [hreg] at e; cases e
    | some f =>
      rw [hreg] at e
      cases e
      exact hi.frame rfl rfl rfl rfl rfl rfl rfl rfl rfl rfl rfl
  | arrive f => exact rx_arrive hi hp e
  | reset => exact hp.elim

theorem rx_inv {c : Cfg} (hc : HwOk c) (hn : c.cntlW ≤ 32) {k : Hdr} {s : St} (h : Reach c k (Move.Plain c) s) : RxInv c k s := by
  induction h with
  | init => exact rx_init c k
  | move _ hp e ih => exact rx_move hc hn ih hp e

end Verif.CxsHw
