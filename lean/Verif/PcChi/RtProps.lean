import Verif.PcChi.RtSpec
import Verif.PcChi.Req

/-! # Requests told to retry: what is reported -/

namespace Verif.PcChi

theorem same_iff (a b : Req) : same a b = true ↔ Again a b := by
  unfold same Again
  rw [beq_iff_eq]
  rcases a with ⟨a1, a2, a3, a4, a5, a6, a7, a8, a9, a10, a11, a12, a13, a14, a15, a16, a17, a18, a19, a20, a21, a22⟩
  rcases b with ⟨b1, b2, b3, b4, b5, b6, b7, b8, b9, b10, b11, b12, b13, b14, b15, b16, b17, b18, b19, b20, b21, b22⟩
  constructor
  · intro h
    simp only [Req.mk.injEq] at h
    refine ⟨b3, b2, b7, b12, b14, ?_⟩
    simp_all
  · rintro ⟨t, x, u, v, w, h⟩
    simp only [Req.mk.injEq] at h ⊢
    simp_all

/-- Whether one of a list is the same request. -/
def anySame (r : Req) (l : List (Option Req)) : Bool := l.any fun y => match y with | some a => same a r | none => false

theorem hasReq_some (r : Req) (l : List (Option Req)) (h : ∀ y ∈ l, y.isSome = true) : hasReq r l = some (anySame r l) := by
  induction l with
  | nil => rfl
  | cons y l ih =>
    rcases y with _ | a
    · cases h none (by simp)
    · rw [hasReq, ih (fun y hy => h y (by simp [hy]))]
      unfold anySame
      rw [List.any_cons]
      simp only [Bool.cond_eq_ite]
      by_cases e : same a r = true <;> simp [e]

theorem has_some (c : Comp) (r : Req) (h : ∀ t y, y ∈ (c.cr t).reqs → y.isSome = true) (k : Nat) :
    c.has r k = some ((List.range k).any fun j => anySame r (c.cr (15 - j)).reqs) := by
  induction k with
  | zero => rfl
  | succ k ih =>
    rw [Comp.has, hasReq_some r _ (h (15 - k)), List.range_succ, List.any_append]
    cases hs : anySame r (c.cr (15 - k)).reqs
    · rw [ih]; simp [hs]
    · simp [hs]

/-- What the checker holds, said of the credits and the requests that wait. -/
structure RRel (κ : Req → Nat × Nat) (S : RSpec) (s : Rt) : Prop where
  txn : s.txn = S.out
  nodup : (s.comps.map (·.node)).Nodup
  n : ∀ c ∈ s.comps, ∀ t, (c.cr t).n = S.cr c.node t
  mem : ∀ c ∈ s.comps, ∀ t, ∀ a ∈ S.wait c.node t, some a ∈ (c.cr t).reqs
  len : ∀ c ∈ s.comps, ∀ t, (S.wait c.node t).length ≤ (c.cr t).reqs.length
  key : ∀ c ∈ s.comps, ∀ t, ∀ y ∈ (c.cr t).reqs, ∃ a, y = some a ∧ κ a = (c.node, t) ∧ a.op ≠ 5
  none : ∀ v, v ∉ s.comps.map (·.node) → ∀ t, S.cr v t = 0 ∧ S.wait v t = []
  op : ∀ i a, S.out i = some a → a.op ≠ 5
  lt : ∀ v t, S.cr v t < 2 ^ 32

theorem check_nil (κ : Req → Nat × Nat) (S : RSpec) (s : Rt) (h : RRel κ S s) (hi : Idle S) : s.check = [] := by
  unfold Rt.check
  split
  · next hn =>
    rw [err_nil, List.all_eq_true]
    intro c hc
    unfold Comp.ok
    rw [List.all_eq_true]
    intro t ht
    rw [decide_eq_true_eq, h.n c hc t]
    have : ∀ i, i < 256 → S.out i = Option.none := by
      intro i hi
      rw [List.all_eq_true] at hn
      have := hn i (List.mem_range.mpr hi)
      rw [← h.txn]; simpa using this
    exact Nat.le_trans (hi this c.node t (List.mem_range.mp ht)) (h.len c hc t)
  · rfl

theorem rel_drop (κ : Req → Nat × Nat) (S : RSpec) (s : Rt) (h : RRel κ S s) (i : Nat) : RRel κ (S.drop i) (s.clear i) := by
  refine ⟨?_, h.nodup, h.n, h.mem, h.len, h.key, h.none, ?_, h.lt⟩
  · unfold Rt.clear RSpec.drop; rw [h.txn]
  · intro j a hj
    unfold RSpec.drop at hj
    dsimp only at hj
    by_cases e : j = i
    · rw [if_pos e] at hj; cases hj
    · rw [if_neg e] at hj; exact h.op j a hj

theorem atNode_mem (v : Nat) (f : Comp → Comp) (hf : ∀ c, (f c).node = c.node) (l : List Comp) (hl : (l.map (·.node)).Nodup) :
    ((atNode v f l).map (·.node)).Nodup ∧ (∀ w, w ∈ (atNode v f l).map (·.node) ↔ w = v ∨ w ∈ l.map (·.node)) ∧
    (∀ c ∈ atNode v f l, (c.node ≠ v ∧ c ∈ l) ∨ (c.node = v ∧ ((∃ d ∈ l, d.node = v ∧ c = f d) ∨ (v ∉ l.map (·.node) ∧ c = f ⟨v, fun _ => {}⟩)))) := by
  induction l with
  | nil =>
    have e : atNode v f [] = [f ⟨v, fun _ => {}⟩] := rfl
    refine ⟨by simp [e], by simp [e, hf], ?_⟩
    intro c hc
    rw [e, List.mem_singleton] at hc
    exact .inr ⟨by rw [hc, hf], .inr ⟨by simp, hc⟩⟩
  | cons x l ih =>
    rw [List.map_cons, List.nodup_cons] at hl
    by_cases e : x.node = v
    · have ee : atNode v f (x :: l) = f x :: l := by rw [atNode, if_pos e]
      refine ⟨?_, ?_, ?_⟩
      · rw [ee, List.map_cons, List.nodup_cons, hf]; exact hl
      · intro w; rw [ee, List.map_cons, hf, List.map_cons, e]; simp
      · intro c hc
        rw [ee] at hc
        rcases List.mem_cons.mp hc with hc | hc
        · exact .inr ⟨by rw [hc, hf, e], .inl ⟨x, by simp, e, hc⟩⟩
        · refine .inl ⟨?_, by simp [hc]⟩
          intro h; apply hl.1; rw [e, ← h]; exact List.mem_map.mpr ⟨c, hc, rfl⟩
    · obtain ⟨i1, i2, i3⟩ := ih hl.2
      have ee : atNode v f (x :: l) = x :: atNode v f l := by rw [atNode, if_neg e]
      refine ⟨?_, ?_, ?_⟩
      · rw [ee, List.map_cons, List.nodup_cons]
        refine ⟨?_, i1⟩
        rw [i2]
        rintro (h | h)
        · exact e h
        · exact hl.1 h
      · intro w; rw [ee, List.map_cons, List.mem_cons, i2, List.map_cons, List.mem_cons]
        constructor
        · rintro (h | h | h)
          · exact .inr (.inl h)
          · exact .inl h
          · exact .inr (.inr h)
        · rintro (h | h | h)
          · exact .inr (.inl h)
          · exact .inl h
          · exact .inr (.inr h)
      · intro c hc
        rw [ee] at hc
        rcases List.mem_cons.mp hc with hc | hc
        · exact .inl ⟨by rw [hc]; exact e, by simp [hc]⟩
        · rcases i3 c hc with ⟨a, b⟩ | ⟨a, ⟨d, hd, hn, hcd⟩ | ⟨hn, hcd⟩⟩
          · exact .inl ⟨a, by simp [b]⟩
          · exact .inr ⟨a, .inl ⟨d, by simp [hd], hn, hcd⟩⟩
          · refine .inr ⟨a, .inr ⟨?_, hcd⟩⟩
            rw [List.map_cons, List.mem_cons]
            rintro (h | h)
            · exact e h.symm
            · exact hn h

theorem upd_self {α : Type} (f : Nat → Nat → α) (c t : Nat) (x : α) : upd f c t x c t = x := by unfold upd; simp

theorem upd_ne {α : Type} (f : Nat → Nat → α) (c t : Nat) (x : α) (c' t' : Nat) (h : ¬ (c' = c ∧ t' = t)) : upd f c t x c' t' = f c' t' := by
  unfold upd; rw [if_neg h]

theorem set_cr (c : Comp) (k : Nat) (p : PCr) (j : Nat) : (c.set k p).cr j = if j = k then p else c.cr j := rfl

/-- A completer is there, or is made. -/
theorem rel_at (κ : Req → Nat × Nat) (S : RSpec) (s : Rt) (h : RRel κ S s) (v k : Nat) (g : PCr → PCr) (cr' : Nat → Nat → Nat) (w' : Nat → Nat → List Req)
    (hcr : ∀ c t, ¬ (c = v ∧ t = k) → cr' c t = S.cr c t) (hw : ∀ c t, ¬ (c = v ∧ t = k) → w' c t = S.wait c t)
    (hg : ∀ p : PCr, p.n = S.cr v k → (∀ a ∈ S.wait v k, some a ∈ p.reqs) → (S.wait v k).length ≤ p.reqs.length →
      (∀ y ∈ p.reqs, ∃ a, y = some a ∧ κ a = (v, k) ∧ a.op ≠ 5) →
      (g p).n = cr' v k ∧ (∀ a ∈ w' v k, some a ∈ (g p).reqs) ∧ (w' v k).length ≤ (g p).reqs.length ∧
      (∀ y ∈ (g p).reqs, ∃ a, y = some a ∧ κ a = (v, k) ∧ a.op ≠ 5))
    (hlt : ∀ c t, cr' c t < 2 ^ 32) :
    RRel κ { S with cr := cr', wait := w' } { s with comps := atNode v (fun c => c.set k (g (c.cr k))) s.comps } := by
  obtain ⟨m1, m2, m3⟩ := atNode_mem v (fun c => c.set k (g (c.cr k))) (fun _ => rfl) s.comps h.nodup
  have key : ∀ c ∈ atNode v (fun c => c.set k (g (c.cr k))) s.comps, ∀ t,
      (c.cr t).n = cr' c.node t ∧ (∀ a ∈ w' c.node t, some a ∈ (c.cr t).reqs) ∧ (w' c.node t).length ≤ (c.cr t).reqs.length ∧
      (∀ y ∈ (c.cr t).reqs, ∃ a, y = some a ∧ κ a = (c.node, t) ∧ a.op ≠ 5) := by
    intro c hc t
    rcases m3 c hc with ⟨a, b⟩ | ⟨a, ⟨d, hd, hn, hcd⟩ | ⟨hn, hcd⟩⟩
    · rw [hcr c.node t (fun x => a x.1), hw c.node t (fun x => a x.1)]
      exact ⟨h.n c b t, h.mem c b t, h.len c b t, h.key c b t⟩
    · by_cases e : t = k
      · subst e
        have hh := hg (d.cr t) (by rw [h.n d hd t, hn]) (by rw [← hn]; exact h.mem d hd t) (by rw [← hn]; exact h.len d hd t)
          (by rw [← hn]; exact h.key d hd t)
        rw [a, hcd, set_cr, if_pos rfl]; exact hh
      · have e2 : c.cr t = d.cr t := by rw [hcd, set_cr, if_neg e]
        rw [hcr c.node t (fun x => e x.2), hw c.node t (fun x => e x.2), e2, a, ← hn]
        exact ⟨h.n d hd t, h.mem d hd t, h.len d hd t, h.key d hd t⟩
    · by_cases e : t = k
      · subst e
        have hh := hg {} (h.none v hn t).1.symm (by rw [(h.none v hn t).2]; simp) (by rw [(h.none v hn t).2]; simp) (by simp)
        rw [a, hcd, set_cr, if_pos rfl]; exact hh
      · have e2 : c.cr t = {} := by rw [hcd, set_cr, if_neg e]
        rw [hcr c.node t (fun x => e x.2), hw c.node t (fun x => e x.2), e2, a, (h.none v hn t).1, (h.none v hn t).2]
        simp
  refine ⟨h.txn, m1, fun c hc t => (key c hc t).1, fun c hc t => (key c hc t).2.1, fun c hc t => (key c hc t).2.2.1,
    fun c hc t => (key c hc t).2.2.2, ?_, h.op, hlt⟩
  intro u hu t
  rw [m2, not_or] at hu
  dsimp only
  rw [hcr u t (fun x => hu.1 x.1), hw u t (fun x => hu.1 x.1)]
  exact h.none u hu.2 t

/-- A completer that is there changes: its place in the list. -/
theorem atNode_set (v : Nat) (f : Comp → Comp) (l : List Comp) : ∀ i c, l[i]? = some c → (l.map (·.node)).Nodup → c.node = v →
    l.set i (f c) = atNode v f l := by
  induction l with
  | nil => intro i c h; cases h
  | cons x l ih =>
    intro i c h hn hv
    rw [List.map_cons, List.nodup_cons] at hn
    match i with
    | 0 =>
      simp at h; subst h
      rw [atNode, if_pos hv]; rfl
    | i + 1 =>
      have h' : l[i]? = some c := by simpa using h
      have : x.node ≠ v := by
        intro e; apply hn.1
        rw [e, ← hv]; exact List.mem_map.mpr ⟨c, List.mem_of_getElem? h', rfl⟩
      rw [atNode, if_neg this, List.set_cons_succ, ih i c h' hn.2 hv]

theorem dec_lt (p : PCr) (h : 0 < p.n) (h2 : p.n < 2 ^ 32) : p.dec = ⟨p.n - 1, if p.n - 1 = 0 then [] else p.reqs⟩ := by
  have e : (p.n + 2 ^ 32 - 1) % 2 ^ 32 = p.n - 1 := by
    have : p.n + 2 ^ 32 - 1 = (p.n - 1) + 2 ^ 32 := by omega
    rw [this, Nat.add_mod_right, Nat.mod_eq_of_lt (by omega)]
  unfold PCr.dec
  dsimp only
  rw [e]

/-- The place of the completer that is meant. -/
theorem look_at (r : Req) (v : Nat) (l : List Comp) (hsome : ∀ c ∈ l, ∀ t y, y ∈ (c.cr t).reqs → y.isSome = true)
    (h1 : ∀ c ∈ l, c.node = v → (r.op = 5 ∧ c.node = r.tgt) ∨ ∃ t, t < 16 ∧ anySame r (c.cr t).reqs = true)
    (h2 : ∀ c ∈ l, c.node ≠ v → ¬ (r.op = 5 ∧ c.node = r.tgt) ∧ ∀ t, anySame r (c.cr t).reqs = false)
    (h3 : v ∈ l.map (·.node)) : ∃ i c, lookReq r l = some (some i) ∧ l[i]? = some c ∧ c.node = v := by
  induction l with
  | nil => cases h3
  | cons x l ih =>
    have has := has_some x r (hsome x (by simp)) 16
    by_cases e : x.node = v
    · refine ⟨0, x, ?_, rfl, e⟩
      rw [lookReq]
      by_cases c5 : r.op = 5 ∧ x.node = r.tgt
      · rw [if_pos (by simp [c5])]
      · rw [if_neg (by simpa using c5), has]
        rcases h1 x (by simp) e with h | ⟨t, ht, hs⟩
        · exact absurd h c5
        · have : ((List.range 16).any fun j => anySame r (x.cr (15 - j)).reqs) = true := by
            rw [List.any_eq_true]
            exact ⟨15 - t, List.mem_range.mpr (by omega), by rw [show 15 - (15 - t) = t from by omega]; exact hs⟩
          rw [this]
    · obtain ⟨n5, nt⟩ := h2 x (by simp) e
      have h3' : v ∈ l.map (·.node) := by
        rw [List.map_cons, List.mem_cons] at h3
        exact h3.resolve_left (fun x => e x.symm)
      obtain ⟨i, c, a, b, d⟩ := ih (fun c hc => hsome c (by simp [hc])) (fun c hc => h1 c (by simp [hc])) (fun c hc => h2 c (by simp [hc])) h3'
      refine ⟨i + 1, c, ?_, by simpa using b, d⟩
      rw [lookReq, if_neg (by simpa using n5), has]
      have : ((List.range 16).any fun j => anySame r (x.cr (15 - j)).reqs) = false := by
        rw [List.any_eq_false]; intro j _; rw [nt]; exact Bool.false_ne_true
      rw [this, a]; rfl

theorem any_of_mem {r a : Req} {l : List (Option Req)} (h : some a ∈ l) (hs : Again a r) : anySame r l = true := by
  unfold anySame
  rw [List.any_eq_true]
  exact ⟨some a, h, (same_iff a r).mpr hs⟩

theorem step_silent (κ : Req → Nat × Nat) (hκ : ∀ a b, Again a b → κ a = κ b) (S : RSpec) (s : Rt) (h : RRel κ S s) (e : REv) (S' : RSpec)
    (hs : RStep S e S') (hc : Calm κ S e S') : ∃ s', rtStep s e = some (s', []) ∧ RRel κ S' s' := by
  have hsome : ∀ c ∈ s.comps, ∀ t y, y ∈ (c.cr t).reqs → y.isSome = true := by
    intro c hc t y hy; obtain ⟨a, rfl, _⟩ := h.key c hc t y hy; rfl
  cases hs with
  | link r h0 h1 =>
    refine ⟨s, ?_, h⟩
    unfold rtStep rtReq; dsimp only; rw [if_pos (by simp [h0, h1])]
  | first r h5 h0 hr =>
    refine ⟨{ s with txn := fun j => if j = r.txn then some r else s.txn j }, ?_, ?_⟩
    · unfold rtStep rtReq; dsimp only; rw [if_neg (by simpa using h0), if_pos hr]
    · refine ⟨by dsimp only; rw [h.txn], h.nodup, h.n, h.mem, h.len, h.key, h.none, ?_, h.lt⟩
      intro i a hi
      dsimp only at hi
      by_cases e : i = r.txn
      · rw [if_pos e] at hi; cases hi; exact h5
      · rw [if_neg e] at hi; exact h.op i a hi
  | again r a c h5 h0 hr hp ha hs hcr =>
    have hin : c ∈ s.comps.map (·.node) := by
      refine Classical.byContradiction fun hn => ?_
      have := (h.none c hn r.pcrd).2; rw [this] at ha; cases ha
    have like : ∀ d ∈ s.comps, ∀ t, anySame r (d.cr t).reqs = true → d.node = c := by
      intro d hd t hany
      unfold anySame at hany
      rw [List.any_eq_true] at hany
      obtain ⟨y, hy, hyy⟩ := hany
      obtain ⟨b, rfl, hb, _⟩ := h.key d hd t y hy
      have e1 : κ b = κ r := hκ b r ((same_iff b r).mp hyy)
      obtain ⟨d', hd', e'⟩ := List.mem_map.mp hin
      obtain ⟨b', eb, hb', _⟩ := h.key d' hd' r.pcrd (some a) (h.mem d' hd' r.pcrd a (by rw [e']; exact ha))
      cases eb
      have e2 : κ a = κ r := hκ a r hs
      rw [hb, ← e2, hb'] at e1
      have := (Prod.mk.inj e1).1
      rw [this, e']
    obtain ⟨i, d, hl, hd, hn⟩ := look_at r c s.comps hsome
      (by
        intro d hd hn
        exact .inr ⟨r.pcrd, hp, any_of_mem (h.mem d hd r.pcrd a (by rw [hn]; exact ha)) hs⟩)
      (by
        intro d hd hn
        refine ⟨fun x => h5 x.1, fun t => ?_⟩
        rw [Bool.eq_false_iff]; intro hany; exact hn (like d hd t hany))
      hin
    have hdm : d ∈ s.comps := List.mem_of_getElem? hd
    have hany : anySame r (d.cr r.pcrd).reqs = true := any_of_mem (h.mem d hdm r.pcrd a (by rw [hn]; exact ha)) hs
    have hgive : d.give r = some (some (d.set r.pcrd (d.cr r.pcrd).dec)) := by
      unfold Comp.give
      rw [if_neg (by simp [h5]), hasReq_some r _ (hsome d hdm r.pcrd), hany]; rfl
    refine ⟨{ s with comps := atNode c (fun x => x.set r.pcrd (x.cr r.pcrd).dec) s.comps }, ?_, ?_⟩
    · unfold rtStep rtReq
      dsimp only
      rw [if_neg (by simpa using h0), if_neg (by rw [hr]; exact Bool.false_ne_true), hl, Option.bind_some]
      dsimp only
      rw [hd]
      dsimp only
      rw [hgive, Option.map_some]
      dsimp only
      rw [← atNode_set c (fun x => x.set r.pcrd (x.cr r.pcrd).dec) s.comps i d hd h.nodup hn]
    · refine rel_at κ S s h c r.pcrd PCr.dec _ _ (fun c' t' hne => upd_ne _ _ _ _ _ _ hne) (fun c' t' hne => upd_ne _ _ _ _ _ _ hne) ?_ hc.2.1
      intro p hpn hpm hpl hpk
      rw [upd_self, upd_self, dec_lt p (by rw [hpn]; exact hcr) (by rw [hpn]; exact h.lt _ _)]
      refine ⟨by rw [hpn], ?_⟩
      by_cases z : p.n - 1 = 0
      · have w0 := hc.1 c r.pcrd (by omega) (by dsimp only; rw [upd_self, ← hpn]; exact z)
        dsimp only at w0
        rw [upd_self] at w0
        rw [w0]; simp [z]
      · simp only [if_neg z]
        refine ⟨fun b hb => hpm b (List.mem_of_mem_erase hb), Nat.le_trans (List.length_erase_le) hpl, hpk⟩
  | giveBack r w h5 hr hp hcr hw =>
    have hin : r.tgt ∈ s.comps.map (·.node) := by
      refine Classical.byContradiction fun hn => ?_
      have := (h.none r.tgt hn r.pcrd).1; omega
    have no5 : ∀ d ∈ s.comps, ∀ t, anySame r (d.cr t).reqs = false := by
      intro d hd t
      unfold anySame
      rw [List.any_eq_false]
      intro y hy
      obtain ⟨b, rfl, _, hb⟩ := h.key d hd t y hy
      intro hyy
      obtain ⟨_, _, _, _, _, e⟩ := (same_iff b r).mp hyy
      apply hb; rw [← h5, e]
    obtain ⟨i, d, hl, hd, hn⟩ := look_at r r.tgt s.comps hsome
      (by intro d hd hn; exact .inl ⟨h5, hn⟩)
      (by intro d hd hn; exact ⟨fun x => hn x.2, no5 d hd⟩) hin
    have hdm : d ∈ s.comps := List.mem_of_getElem? hd
    have hgive : d.give r = some (some (d.set r.pcrd (d.cr r.pcrd).dec)) := by
      unfold Comp.give
      rw [if_pos]
      rw [h.n d hdm, hn]; simp [h5, hcr]
    refine ⟨{ s with comps := atNode r.tgt (fun x => x.set r.pcrd (x.cr r.pcrd).dec) s.comps }, ?_, ?_⟩
    · unfold rtStep rtReq
      dsimp only
      rw [if_neg (by simp [h5]), if_neg (by rw [hr]; exact Bool.false_ne_true), hl, Option.bind_some]
      dsimp only
      rw [hd]
      dsimp only
      rw [hgive, Option.map_some]
      dsimp only
      rw [← atNode_set r.tgt (fun x => x.set r.pcrd (x.cr r.pcrd).dec) s.comps i d hd h.nodup hn]
    · refine rel_at κ S s h r.tgt r.pcrd PCr.dec _ _ (fun c' t' hne => upd_ne _ _ _ _ _ _ hne) (fun c' t' hne => upd_ne _ _ _ _ _ _ hne) ?_ hc.2.1
      intro p hpn hpm hpl hpk
      rw [upd_self, upd_self, dec_lt p (by rw [hpn]; exact hcr) (by rw [hpn]; exact h.lt _ _)]
      refine ⟨by rw [hpn], ?_⟩
      by_cases z : p.n - 1 = 0
      · have w0 := hc.1 r.tgt r.pcrd (by omega) (by dsimp only; rw [upd_self, ← hpn]; exact z)
        dsimp only at w0
        rw [upd_self] at w0
        rw [w0]; simp [z]
      · simp only [if_neg z]
        rcases hw with rfl | ⟨a, rfl⟩
        · exact ⟨hpm, hpl, hpk⟩
        · exact ⟨fun b hb => hpm b (List.mem_of_mem_erase hb), Nat.le_trans (List.length_erase_le) hpl, hpk⟩
  | data d hi =>
    have hr := rel_drop κ S s h d.txn
    refine ⟨s.clear d.txn, ?_, hr⟩
    unfold rtStep rtDat; dsimp only; rw [check_nil κ _ _ hr hi]
  | retry p a S' h3 hp ha hS hi =>
    have hk : κ a = (p.src, p.pcrd) := hc.2.2 h3 a ha
    have hr := rel_drop κ S s h p.txn
    have hrel : RRel κ S' { s.clear p.txn with comps := atNode p.src (fun c => c.set p.pcrd ⟨(c.cr p.pcrd).n, (c.cr p.pcrd).reqs ++ [s.txn p.txn]⟩) s.comps } := by
      rw [hS]
      refine rel_at κ (S.drop p.txn) (s.clear p.txn) hr p.src p.pcrd (fun q => ⟨q.n, q.reqs ++ [s.txn p.txn]⟩) S.cr _ (fun _ _ _ => rfl)
        (fun c' t' hne => upd_ne _ _ _ _ _ _ hne) ?_ h.lt
      intro q hqn hqm hql hqk
      rw [upd_self, h.txn, ha]
      refine ⟨hqn, ?_, ?_, ?_⟩
      · intro b hb
        rcases List.mem_append.mp hb with hb | hb
        · exact List.mem_append.mpr (.inl (hqm b hb))
        · rw [List.mem_singleton.mp hb]; simp
      · have : (S.wait p.src p.pcrd).length ≤ q.reqs.length := hql
        simpa using this
      · intro y hy
        rcases List.mem_append.mp hy with hy | hy
        · exact hqk y hy
        · exact ⟨a, List.mem_singleton.mp hy, hk, h.op _ a ha⟩
    refine ⟨_, ?_, hrel⟩
    unfold rtStep rtRsp
    dsimp only
    rw [if_pos (by simp [h3]), check_nil κ _ _ hrel hi]
    rw [h.txn, ha]; rfl
  | grant p S' h7 hp hS hi =>
    have hrel : RRel κ S' { s with comps := atNode p.src (fun c => c.set p.pcrd ⟨((c.cr p.pcrd).n + 1) % 2 ^ 32, (c.cr p.pcrd).reqs⟩) s.comps } := by
      have hlt := hc.2.1
      rw [hS] at hlt ⊢
      refine rel_at κ S s h p.src p.pcrd (fun q => ⟨(q.n + 1) % 2 ^ 32, q.reqs⟩) _ S.wait (fun c' t' hne => upd_ne _ _ _ _ _ _ hne)
        (fun _ _ _ => rfl) ?_ hlt
      intro q hqn hqm hql hqk
      have := hlt p.src p.pcrd
      dsimp only at this
      rw [upd_self] at this ⊢
      exact ⟨by dsimp only; rw [hqn, Nat.mod_eq_of_lt this], hqm, hql, hqk⟩
    refine ⟨_, ?_, hrel⟩
    unfold rtStep rtRsp
    dsimp only
    rw [if_neg (by simp [h7]), if_pos (by simp [h7]), check_nil κ _ _ hrel hi]
  | answer p h3 h7 hi =>
    have hr := rel_drop κ S s h p.txn
    refine ⟨s.clear p.txn, ?_, hr⟩
    unfold rtStep rtRsp; dsimp only; rw [if_neg (by simpa using h3), if_neg (by simpa using h7), check_nil κ _ _ hr hi]

theorem run_silent (κ : Req → Nat × Nat) (hκ : ∀ a b, Again a b → κ a = κ b) (es : List REv) :
    ∀ S s, RRel κ S s → Orderly κ S es → rtRun s es = some [] := by
  induction es with
  | nil => intro S s _ _; rfl
  | cons e es ih =>
    rintro S s h ⟨S', hs, hc, ho⟩
    obtain ⟨s', e1, h'⟩ := step_silent κ hκ S s h e S' hs hc
    rw [rtRun, e1, Option.bind_some, ih S' s' h' ho]; rfl

/-- **Retried requests.** As long as requests are told to retry, credits granted, used and given back as the specification says
(and `Calm`), nothing is reported. -/
theorem retry_silent_partial (κ : Req → Nat × Nat) (hκ : ∀ a b, Again a b → κ a = κ b) (es : List REv) (h : Orderly κ {} es) :
    rtRun {} es = some [] := by
  refine run_silent κ hκ es {} {} ⟨rfl, by simp, by simp, by simp, by simp, by simp, fun _ _ _ => ⟨rfl, rfl⟩, ?_, ?_⟩ h
  · intro i a h; cases h
  · intro v t; exact Nat.two_pow_pos 32

/-! ## What is surely reported -/

/-- What the checker holds, said of what has happened. -/
structure HRel (H : List REv) (s : Rt) : Prop where
  out : ∀ i a, s.txn i = some a → Waits H i a
  told : ∀ c ∈ s.comps, ∀ t, ∀ y ∈ (c.cr t).reqs, ∃ a, y = some a ∧ ToldTo H t a

theorem toldTo_snoc {H : List REv} {t : Nat} {a : Req} (h : ToldTo H t a) (e : REv) : ToldTo (H ++ [e]) t a := by
  obtain ⟨H1, p, H2, e1, h1, h2, h3⟩ := h
  exact ⟨H1, p, H2 ++ [e], by rw [e1]; simp, h1, h2, h3⟩

/-- An answer that is not for the request. -/
def Keeps (i : Nat) : REv → Prop
  | .req b => b.txn = i → b.retry = true → b.op = 0 ∧ b.txn = 0
  | .dat d => d.txn ≠ i
  | .rsp p => p.txn = i → p.op = 7

theorem waits_snoc {H : List REv} {i : Nat} {a : Req} (h : Waits H i a) (e : REv) (he : Keeps i e) : Waits (H ++ [e]) i a := by
  obtain ⟨H1, H2, e1, h1, h2, h3⟩ := h
  refine ⟨H1, H2 ++ [e], by rw [e1]; simp, h1, h2, ?_⟩
  intro x hx
  rcases List.mem_append.mp hx with hx | hx
  · exact h3 x hx
  · rw [List.mem_singleton.mp hx]; cases e <;> exact he

theorem atNode_any (v : Nat) (f : Comp → Comp) (l : List Comp) : ∀ c ∈ atNode v f l, c ∈ l ∨ (∃ d ∈ l, c = f d) ∨ c = f ⟨v, fun _ => {}⟩ := by
  induction l with
  | nil => intro c hc; exact .inr (.inr (List.mem_singleton.mp hc))
  | cons x l ih =>
    intro c hc
    rw [atNode] at hc
    by_cases e : x.node = v
    · rw [if_pos e] at hc
      rcases List.mem_cons.mp hc with hc | hc
      · exact .inr (.inl ⟨x, by simp, hc⟩)
      · exact .inl (by simp [hc])
    · rw [if_neg e] at hc
      rcases List.mem_cons.mp hc with hc | hc
      · exact .inl (by simp [hc])
      · rcases ih c hc with h | ⟨d, hd, h⟩ | h
        · exact .inl (by simp [h])
        · exact .inr (.inl ⟨d, by simp [hd], h⟩)
        · exact .inr (.inr h)

theorem any_mem {r : Req} {l : List (Option Req)} (h : anySame r l = true) : ∃ a, some a ∈ l ∧ Again a r := by
  unfold anySame at h
  rw [List.any_eq_true] at h
  obtain ⟨y, hy, hyy⟩ := h
  rcases y with _ | a
  · cases hyy
  · exact ⟨a, hy, (same_iff a r).mp hyy⟩

theorem dec_sub (p : PCr) : ∀ y ∈ p.dec.reqs, y ∈ p.reqs := by
  intro y hy
  unfold PCr.dec at hy
  dsimp only at hy
  by_cases z : (p.n + 2 ^ 32 - 1) % 2 ^ 32 = 0
  · rw [if_pos z] at hy; cases hy
  · rw [if_neg z] at hy; exact hy

/-- What a flit must be if it is not reported. -/
def Sound (H : List REv) : REv → Prop
  | .req r => r.retry = false → r.op ≠ 5 → ¬ (r.op = 0 ∧ r.txn = 0) → ∃ a, ToldTo H r.pcrd a ∧ Again a r
  | .dat _ => True
  | .rsp p => p.op = 3 → ∃ a, Waits H p.txn a

theorem clear_txn (s : Rt) (i j : Nat) (a : Req) (h : (s.clear i).txn j = some a) : j ≠ i ∧ s.txn j = some a := by
  unfold Rt.clear at h
  dsimp only at h
  by_cases e : j = i
  · rw [if_pos e] at h; cases h
  · rw [if_neg e] at h; exact ⟨e, h⟩

theorem step_heard (H : List REv) (s : Rt) (h : HRel H s) (e : REv) (s' : Rt) (hs : rtStep s e = some (s', [])) :
    Sound H e ∧ HRel (H ++ [e]) s' := by
  have hsome : ∀ c ∈ s.comps, ∀ t y, y ∈ (c.cr t).reqs → y.isSome = true := by
    intro c hc t y hy; obtain ⟨a, rfl, _⟩ := h.told c hc t y hy; rfl
  have told' : ∀ c ∈ s.comps, ∀ t, ∀ y ∈ (c.cr t).reqs, ∃ a, y = some a ∧ ToldTo (H ++ [e]) t a := by
    intro c hc t y hy
    obtain ⟨a, e1, h1⟩ := h.told c hc t y hy
    exact ⟨a, e1, toldTo_snoc h1 e⟩
  rcases e with r | d | p
  · unfold rtStep rtReq at hs
    dsimp only at hs
    by_cases l0 : r.op = 0 ∧ r.txn = 0
    · rw [if_pos (by simp [l0])] at hs
      cases hs
      exact ⟨fun _ _ x => absurd l0 x, fun i a hi => waits_snoc (h.out i a hi) _ (fun _ _ => l0), told'⟩
    rw [if_neg (by simpa using l0)] at hs
    by_cases hr : r.retry = true
    · rw [if_pos hr] at hs
      cases hs
      refine ⟨fun x => absurd (hr.symm.trans x) (by decide), ?_, told'⟩
      intro i a hi
      dsimp only at hi
      by_cases e : i = r.txn
      · rw [if_pos e] at hi
        cases hi
        exact ⟨H, [], by simp, e.symm, hr, by simp⟩
      · rw [if_neg e] at hi
        exact waits_snoc (h.out i a hi) _ (fun x => absurd x.symm e)
    rw [if_neg hr] at hs
    have hk : ∀ i a, s.txn i = some a → Waits (H ++ [.req r]) i a := fun i a hi => waits_snoc (h.out i a hi) _ (fun _ x => absurd x hr)
    rw [Option.bind_eq_some_iff] at hs
    obtain ⟨o, _, hs⟩ := hs
    rcases o with _ | i
    · injection hs with hs; cases (Prod.mk.inj hs).2
    dsimp only at hs
    cases hd : s.comps[i]? with
    | none => rw [hd] at hs; injection hs with hs; cases (Prod.mk.inj hs).2
    | some d =>
      rw [hd] at hs
      dsimp only at hs
      have hdm : d ∈ s.comps := List.mem_of_getElem? hd
      rw [Option.map_eq_some_iff] at hs
      obtain ⟨o, hg, hs⟩ := hs
      rcases o with _ | c'
      · cases (Prod.mk.inj hs).2
      dsimp only at hs
      cases hs
      have hc' : c' = d.set r.pcrd (d.cr r.pcrd).dec ∧ (r.op ≠ 5 → anySame r (d.cr r.pcrd).reqs = true) := by
        unfold Comp.give at hg
        by_cases b : (r.op == 5 && decide ((d.cr r.pcrd).n > 0)) = true
        · rw [if_pos b] at hg
          injection hg with hg; injection hg with hg
          refine ⟨hg.symm, fun x => ?_⟩
          simp [x] at b
        · rw [if_neg b, hasReq_some r _ (hsome d hdm r.pcrd), Option.map_some] at hg
          cases ha : anySame r (d.cr r.pcrd).reqs
          · rw [ha] at hg; injection hg with hg; cases hg
          · rw [ha] at hg; injection hg with hg; injection hg with hg
            exact ⟨hg.symm, fun _ => rfl⟩
      refine ⟨?_, hk, ?_⟩
      · intro _ h5 _
        obtain ⟨a, ha, hag⟩ := any_mem (hc'.2 h5)
        obtain ⟨b, eb, hb⟩ := h.told d hdm r.pcrd _ ha
        cases eb
        exact ⟨a, hb, hag⟩
      · intro c hc t y hy
        rcases List.mem_or_eq_of_mem_set hc with hc | hc
        · exact told' c hc t y hy
        · rw [hc, hc'.1, set_cr] at hy
          by_cases e : t = r.pcrd
          · rw [if_pos e] at hy; rw [e]; exact told' d hdm r.pcrd y (dec_sub _ y hy)
          · rw [if_neg e] at hy; exact told' d hdm t y hy
  · unfold rtStep rtDat at hs
    dsimp only at hs
    injection hs with hs
    obtain ⟨rfl, _⟩ := Prod.mk.inj hs
    refine ⟨trivial, ?_, told'⟩
    intro i a hi
    obtain ⟨ne, hi⟩ := clear_txn s d.txn i a hi
    exact waits_snoc (h.out i a hi) _ (fun x => ne x.symm)
  · unfold rtStep rtRsp at hs
    dsimp only at hs
    have hout : p.op ≠ 7 → ∀ i a, (s.clear p.txn).txn i = some a → Waits (H ++ [.rsp p]) i a := by
      intro _ i a hi
      obtain ⟨ne, hi⟩ := clear_txn s p.txn i a hi
      exact waits_snoc (h.out i a hi) _ (fun x => absurd x.symm ne)
    by_cases h3 : p.op = 3
    · rw [if_pos (by simp [h3])] at hs
      injection hs with hs
      obtain ⟨rfl, hn⟩ := Prod.mk.inj hs
      rw [List.append_eq_nil_iff, err_nil] at hn
      obtain ⟨a, ha⟩ := Option.isSome_iff_exists.mp hn.1
      have hw := h.out _ a ha
      refine ⟨fun _ => ⟨a, hw⟩, hout (by omega), ?_⟩
      have hnew : ToldTo (H ++ [.rsp p]) p.pcrd a := ⟨H, p, [], rfl, h3, rfl, hw⟩
      have hadd : ∀ d : Comp, (∀ t, ∀ y ∈ (d.cr t).reqs, ∃ a, y = some a ∧ ToldTo (H ++ [.rsp p]) t a) →
          ∀ t, ∀ y ∈ ((d.set p.pcrd ⟨(d.cr p.pcrd).n, (d.cr p.pcrd).reqs ++ [s.txn p.txn]⟩).cr t).reqs, ∃ a, y = some a ∧ ToldTo (H ++ [.rsp p]) t a := by
        intro d hd t y hy
        rw [set_cr] at hy
        by_cases e : t = p.pcrd
        · rw [if_pos e] at hy
          rcases List.mem_append.mp hy with hy | hy
          · rw [e]; exact hd _ y hy
          · rw [e, List.mem_singleton.mp hy]; exact ⟨a, ha, hnew⟩
        · rw [if_neg e] at hy; exact hd t y hy
      intro c hc
      rcases atNode_any _ _ _ c hc with hc | ⟨d, hd, hc⟩ | hc
      · exact told' c hc
      · rw [hc]; exact hadd d (told' d hd)
      · rw [hc]; exact hadd _ (fun t y hy => by cases hy)
    rw [if_neg (by simpa using h3)] at hs
    by_cases h7 : p.op = 7
    · rw [if_pos (by simp [h7])] at hs
      injection hs with hs
      obtain ⟨rfl, _⟩ := Prod.mk.inj hs
      refine ⟨fun x => absurd x h3, fun i a hi => waits_snoc (h.out i a hi) _ (fun _ => h7), ?_⟩
      have hadd : ∀ d : Comp, (∀ t, ∀ y ∈ (d.cr t).reqs, ∃ a, y = some a ∧ ToldTo (H ++ [.rsp p]) t a) →
          ∀ t, ∀ y ∈ ((d.set p.pcrd ⟨((d.cr p.pcrd).n + 1) % 2 ^ 32, (d.cr p.pcrd).reqs⟩).cr t).reqs, ∃ a, y = some a ∧ ToldTo (H ++ [.rsp p]) t a := by
        intro d hd t y hy
        rw [set_cr] at hy
        by_cases e : t = p.pcrd
        · rw [if_pos e] at hy; rw [e]; exact hd _ y hy
        · rw [if_neg e] at hy; exact hd t y hy
      intro c hc
      rcases atNode_any _ _ _ c hc with hc | ⟨d, hd, hc⟩ | hc
      · exact told' c hc
      · rw [hc]; exact hadd d (told' d hd)
      · rw [hc]; exact hadd _ (fun t y hy => by cases hy)
    rw [if_neg (by simpa using h7)] at hs
    injection hs with hs
    obtain ⟨rfl, _⟩ := Prod.mk.inj hs
    exact ⟨fun x => absurd x h3, hout h7, told'⟩

theorem run_heard (es : List REv) : ∀ H s, HRel H s → rtRun s es = some [] → ∀ pre e post, es = pre ++ e :: post → Sound (H ++ pre) e := by
  induction es with
  | nil => intro H s _ _ pre e post he; cases pre <;> cases he
  | cons x es ih =>
    intro H s h hr pre e post he
    rw [rtRun, Option.bind_eq_some_iff] at hr
    obtain ⟨⟨s', l⟩, hs, hr⟩ := hr
    rw [Option.map_eq_some_iff] at hr
    obtain ⟨m, hm, hn⟩ := hr
    rw [List.append_eq_nil_iff] at hn
    obtain ⟨hl, rfl⟩ := hn
    dsimp only at hl hm
    subst hl
    obtain ⟨h1, h2⟩ := step_heard H s h x s' hs
    rcases pre with _ | ⟨y, pre⟩
    · cases he; rw [List.append_nil]; exact h1
    · injection he with e1 e2
      subst e1
      have := ih (H ++ [x]) s' h2 hm pre e post e2
      rwa [List.append_assoc] at this

/-- **What is surely reported.** If nothing is, every `RetryAck` answers a request that waits for an answer and may be told to
retry, and every request sent with a credit has been told to retry with a credit of that type. -/
theorem retry_heard_partial (es : List REv) (h : rtRun {} es = some []) :
    (∀ pre p post, es = pre ++ .rsp p :: post → p.op = 3 → ∃ a, Waits pre p.txn a) ∧
    (∀ pre r post, es = pre ++ .req r :: post → r.retry = false → r.op ≠ 5 → ¬ (r.op = 0 ∧ r.txn = 0) → ∃ a, ToldTo pre r.pcrd a ∧ Again a r) := by
  have hr : HRel [] {} := ⟨(fun i a h => by cases h), (fun c hc => by cases hc)⟩
  exact ⟨fun pre p post e => run_heard es [] {} hr h pre (.rsp p) post e, fun pre r post e => run_heard es [] {} hr h pre (.req r) post e⟩

end Verif.PcChi
