import Verif.AxiOrder.Model

/-! Helper lemmas for the ordering properties. -/
namespace Verif.AxiOrder

namespace Master

theorem lookup_some {i : Nat} : ∀ {l : List Tr} {t : Tr} {rest : List Tr},
    lookup i l = some (t, rest) →
    t.id = i ∧ ∃ a b, l = a ++ t :: b ∧ rest = a ++ b ∧ ∀ x ∈ a, x.id ≠ i
  | [], t, rest, h => by simp [lookup] at h
  | u :: us, t, rest, h => by
    unfold lookup at h
    split at h
    · rename_i hu
      simp only [Option.some.injEq, Prod.mk.injEq] at h
      obtain ⟨rfl, rfl⟩ := h
      exact ⟨hu, [], _, rfl, rfl, by simp⟩
    · rename_i hu
      split at h
      · exact absurd h (by simp)
      · rename_i v r hv
        simp only [Option.some.injEq, Prod.mk.injEq] at h
        obtain ⟨rfl, rfl⟩ := h
        obtain ⟨h1, a, b, h2, h3, h4⟩ := lookup_some hv
        refine ⟨h1, u :: a, b, by simp [h2], by simp [h3], ?_⟩
        intro x hx
        rcases List.mem_cons.1 hx with rfl | hx
        · exact hu
        · exact h4 x hx

theorem lookup_none {i : Nat} : ∀ {l : List Tr}, lookup i l = none → ∀ x ∈ l, x.id ≠ i
  | [], _ => by simp
  | u :: us, h => by
    unfold lookup at h
    split at h
    · exact absurd h (by simp)
    · rename_i hu
      split at h
      · rename_i hv
        intro x hx
        rcases List.mem_cons.1 hx with rfl | hx
        · exact hu
        · exact lookup_none hv x hx
      · exact absurd h (by simp)

/-- Everything the read side holds, completed ones first. -/
def RSt.all (s : RSt) : List Tr := s.log.map (·.1) ++ s.cur.toList.map (·.1) ++ s.pend

def WSt.all (s : WSt) : List Tr := s.log.map (·.1) ++ s.pend ++ s.data

theorem filter_take_out {i : Nat} {t : Tr} {a b : List Tr} (ha : ∀ x ∈ a, x.id ≠ t.id) :
    (a ++ t :: b).filter (·.id == i) = (t :: (a ++ b)).filter (·.id == i) := by
  by_cases h : t.id = i
  · have ha' : a.filter (·.id == i) = [] := by
      rw [List.filter_eq_nil_iff]
      intro x hx
      have := ha x hx
      simp only [beq_iff_eq]
      omega
    have ht : (t.id == i) = true := by simpa using h
    simp [List.filter_append, List.filter_cons, ha', ht]
  · have ht : (t.id == i) = false := by simpa using h
    simp [List.filter_append, List.filter_cons, ht]

theorem rstep_order {s s' : RSt} {o : ROp} (h : rstep s o = some s') (i : Nat) :
    s'.all.filter (·.id == i)
      = (s.all ++ (match o with | .issue t => [t] | _ => [])).filter (·.id == i) := by
  cases o with
  | issue t =>
    simp only [rstep, Option.some.injEq] at h
    subst h
    simp [RSt.all, List.filter_append]
  | reset =>
    simp only [rstep, Option.some.injEq] at h
    subst h
    simp [RSt.all, List.filter_append, Function.comp_def]
  | beat rid =>
    simp only [rstep] at h
    split at h
    · rename_i hc
      split at h
      · exact absurd h (by simp)
      · rename_i t rest hl
        obtain ⟨h1, a, b, h2, h3, h4⟩ := lookup_some hl
        have hf := filter_take_out (i := i) (t := t) (a := a) (b := b)
          (by intro x hx; rw [h1]; exact h4 x hx)
        split at h <;> (simp only [Option.some.injEq] at h; subst h)
        · simp only [RSt.all, List.append_nil, hc, h2, h3, List.map_append, List.filter_append,
            List.map_cons, List.map_nil, List.append_assoc, Option.toList_none, List.nil_append] at *
          rw [hf]; simp [List.filter_cons]; split <;> simp
        · simp only [RSt.all, List.append_nil, hc, h2, h3, List.map_append, List.filter_append,
            List.map_cons, List.map_nil, List.append_assoc, Option.toList_none, List.nil_append,
            Option.toList_some] at *
          rw [hf]; simp [List.filter_cons]; split <;> simp
    · rename_i t left ids hc
      split at h <;> (simp only [Option.some.injEq] at h; subst h) <;> simp [RSt.all, hc]

theorem wstep_order {s s' : WSt} {o : WOp} (h : wstep s o = some s') (i : Nat) :
    s'.all.filter (·.id == i)
      = (s.all ++ (match o with | .issue t => [t] | _ => [])).filter (·.id == i) := by
  cases o with
  | issue t =>
    simp only [wstep, Option.some.injEq] at h
    subst h
    simp [WSt.all, List.filter_append]
  | sent =>
    simp only [wstep] at h
    split at h <;> (simp only [Option.some.injEq] at h; subst h)
    · simp
    · rename_i t ts hd
      simp [WSt.all, hd]
  | reset =>
    simp only [wstep, Option.some.injEq] at h
    subst h
    simp [WSt.all, List.filter_append, Function.comp_def]
  | resp bid =>
    simp only [wstep] at h
    split at h
    · exact absurd h (by simp)
    · rename_i t rest hl
      obtain ⟨h1, a, b, h2, h3, h4⟩ := lookup_some hl
      have hf := filter_take_out (i := i) (t := t) (a := a) (b := b)
        (by intro x hx; rw [h1]; exact h4 x hx)
      simp only [Option.some.injEq] at h; subst h
      simp only [WSt.all, List.append_nil, h2, h3, List.map_append, List.filter_append,
        List.map_cons, List.map_nil, List.append_assoc] at *
      rw [← List.append_assoc (List.filter _ a) (List.filter _ (t :: b)), hf]
      simp [List.filter_cons]; split <;> simp

end Master

namespace Slave

def byId (i : Nat) (l : List Tr) : List Tr := l.filter (·.id == i)

theorem byId_append (i : Nat) (a b : List Tr) : byId i (a ++ b) = byId i a ++ byId i b := by
  simp [byId]

theorem mem_byId {i : Nat} {l : List Tr} {t : Tr} : t ∈ byId i l ↔ t ∈ l ∧ t.id = i := by
  simp [byId]

theorem firstWithId_eq (l : List Tr) (i : Nat) : firstWithId l i = (byId i l).head? := by
  simp [firstWithId, byId, List.head?_filter]

/-- The transactions for which `b_transport` has been called, in order. -/
def calls (log : List Ev) : List Tr :=
  log.filterMap fun e => match e with | .call t => some t | .done _ => none

theorem calls_append (a b : List Ev) : calls (a ++ b) = calls a ++ calls b := by
  simp [calls]

/-- The transactions whose TLM call has completed. -/
def St.completed (s : St) : List Tr := s.delivered ++ s.cur.toList ++ s.fifo

def Th.isBusy : Th → Bool
  | .busy _ => true
  | _ => false

def busyIn (ths : List (Nat × Th)) (i : Nat) : Bool := ths.any fun p => p.1 == i && p.2.isBusy

def thOk (l : List Tr) (i : Nat) : Th → Prop
  | .start => ∃ t ∈ l, t.id = i
  | .wait t => firstWithId l i = some t
  | .busy t => firstWithId l i = some t
  | .put _ => False

structure Inv (s : St) : Prop where
  nb : ∀ t ∈ s.accepted, t.barrier = false
  order : ∀ i, byId i s.accepted = byId i (s.completed ++ s.list)
  perm : s.accepted.Perm (s.completed ++ s.list)
  bound : s.cur.toList.length + s.fifo.length + s.list.length ≤ maxOutstanding
  tags : s.accepted.Pairwise (·.tag < ·.tag)
  lt : ∀ t ∈ s.accepted, t.tag < s.accepted.length
  sub : s.list.Pairwise (·.tag < ·.tag)
  nodup : (s.threads.map (·.1)).Nodup
  cover : ∀ t ∈ s.list, t.id ∈ s.threads.map (·.1)
  ok : ∀ p ∈ s.threads, thOk s.list p.1 p.2
  called : ∀ i, byId i (calls s.log)
    = byId i s.completed ++ (if busyIn s.threads i then (byId i s.list).take 1 else [])
  finished : ∀ t, Ev.done t ∈ s.log ↔ t ∈ s.completed
  pages : ∀ pre t2 post, s.log = pre ++ .call t2 :: post →
    ∀ t1 ∈ s.accepted, t1.tag < t2.tag → t1.page = t2.page ∨ t1.id = t2.id → Ev.done t1 ∈ pre

theorem Inv.init : Inv St.init where
  nb := by simp [St.init]
  order := by simp [St.init, St.completed]
  perm := by simp [St.init, St.completed]
  bound := by simp [St.init]
  tags := by simp [St.init]
  lt := by simp [St.init]
  sub := by simp [St.init]
  nodup := by simp [St.init]
  cover := by simp [St.init]
  ok := by simp [St.init]
  called := by simp [St.init, St.completed, busyIn, calls, byId]
  finished := by simp [St.init, St.completed]
  pages := by simp [St.init]

theorem outstanding_eq {s : St} (h : Inv s) :
    s.outstanding = s.cur.toList.length + s.fifo.length + s.list.length := by
  have h1 : s.accepted.filter (!·.barrier) = s.accepted := by
    rw [List.filter_eq_self]; intro t ht; simp [h.nb t ht]
  have h2 : s.delivered.filter (!·.barrier) = s.delivered := by
    rw [List.filter_eq_self]; intro t ht
    have : t ∈ s.accepted := h.perm.mem_iff.2 (by simp [St.completed, ht])
    simp [h.nb t this]
  have h3 := h.perm.length_eq
  simp only [St.completed, List.length_append] at h3
  simp only [St.outstanding, h1, h2]
  omega

/-! Threads -/

theorem split_threads {ths : List (Nat × Th)} {k : Nat} {p : Nat × Th}
    (h : ths[k]? = some p) :
    ∃ a b, ths = a ++ p :: b ∧ ths.eraseIdx k = a ++ b ∧ ∀ q, ths.set k q = a ++ q :: b := by
  obtain ⟨hk, rfl⟩ := List.getElem?_eq_some_iff.1 h
  refine ⟨ths.take k, ths.drop (k + 1), ?_, ?_, ?_⟩
  · simp
  · exact List.eraseIdx_eq_take_drop_succ ths k
  · intro q
    exact List.set_eq_take_append_cons_drop.trans (by simp [hk])

theorem busyIn_append (a b : List (Nat × Th)) (i : Nat) :
    busyIn (a ++ b) i = (busyIn a i || busyIn b i) := by simp [busyIn]

theorem busyIn_cons (p : Nat × Th) (b : List (Nat × Th)) (i : Nat) :
    busyIn (p :: b) i = ((p.1 == i && p.2.isBusy) || busyIn b i) := by simp [busyIn]

theorem busyIn_none {a : List (Nat × Th)} {i : Nat} (h : i ∉ a.map (·.1)) :
    busyIn a i = false := by
  simp only [busyIn, List.any_eq_false]
  intro p hp
  have : p.1 ≠ i := by
    rintro rfl
    exact h (List.mem_map_of_mem hp)
  simp [this]

theorem nodup_split {a b : List (Nat × Th)} {p : Nat × Th}
    (h : ((a ++ p :: b).map (·.1)).Nodup) :
    p.1 ∉ a.map (·.1) ∧ p.1 ∉ b.map (·.1) ∧ ((a ++ b).map (·.1)).Nodup := by
  rw [List.map_append, List.map_cons, List.perm_middle.nodup_iff, List.nodup_cons] at h
  rw [List.mem_append, not_or] at h
  exact ⟨h.1.1, h.1.2, by rw [List.map_append]; exact h.2⟩

/-! The list -/

theorem mem_takeWhile_of_lt : ∀ {l : List Tr} {t1 t : Tr}, l.Pairwise (·.tag < ·.tag) →
    t1 ∈ l → t1.tag < t.tag → t ∈ l → t1 ∈ l.takeWhile (·.tag != t.tag)
  | [], _, _, _, h, _, _ => by simp at h
  | u :: us, t1, t, hp, h1, hlt, ht => by
    rw [List.pairwise_cons] at hp
    have hut : u.tag ≠ t.tag := by
      rcases List.mem_cons.1 h1 with rfl | h1
      · omega
      · have := hp.1 t1 h1
        omega
    have hb : (u.tag != t.tag) = true := by simpa using hut
    rw [List.takeWhile_cons, if_pos hb]
    rcases List.mem_cons.1 h1 with rfl | h1
    · simp
    · have ht' : t ∈ us := by
        rcases List.mem_cons.1 ht with rfl | ht
        · exact absurd rfl hut
        · exact ht
      exact List.mem_cons_of_mem _ (mem_takeWhile_of_lt hp.2 h1 hlt ht')

theorem tag_inj {l : List Tr} (h : l.Pairwise (·.tag < ·.tag)) {t u : Tr} (ht : t ∈ l)
    (hu : u ∈ l) (e : t.tag = u.tag) : t = u := by
  induction l with
  | nil => simp at ht
  | cons x xs ih =>
    rw [List.pairwise_cons] at h
    rcases List.mem_cons.1 ht with rfl | ht' <;> rcases List.mem_cons.1 hu with rfl | hu'
    · rfl
    · have := h.1 u hu'; omega
    · have := h.1 t ht'; omega
    · exact ih h.2 ht' hu'

theorem mem_of_first {l : List Tr} {i : Nat} {t : Tr} (h : firstWithId l i = some t) :
    t ∈ l ∧ t.id = i := by
  rw [firstWithId_eq] at h
  exact mem_byId.1 (List.mem_of_head? h)

theorem first_le {l : List Tr} {i : Nat} {t u : Tr} (hp : l.Pairwise (·.tag < ·.tag))
    (h : firstWithId l i = some t) (hu : u ∈ l) (hi : u.id = i) : t.tag ≤ u.tag := by
  rw [firstWithId_eq] at h
  have hp' : (byId i l).Pairwise (·.tag < ·.tag) := hp.filter _
  have hu' : u ∈ byId i l := mem_byId.2 ⟨hu, hi⟩
  cases hb : byId i l with
  | nil => rw [hb] at h; simp at h
  | cons x xs =>
    rw [hb] at h hp' hu'
    simp only [List.head?_cons, Option.some.injEq] at h
    subst h
    rcases List.mem_cons.1 hu' with rfl | hu'
    · exact Nat.le_refl _
    · have := (List.pairwise_cons.1 hp').1 u hu'
      omega

theorem remove_first {l : List Tr} {i : Nat} {t : Tr} (hp : l.Pairwise (·.tag < ·.tag))
    (h : firstWithId l i = some t) : byId i l = t :: byId i (remove l t) := by
  have hm := mem_of_first h
  rw [firstWithId_eq] at h
  have h1 : byId i (remove l t) = (byId i l).filter (·.tag != t.tag) := by
    simp [byId, remove, List.filter_filter, Bool.and_comm]
  rw [h1]
  have hp' : (byId i l).Pairwise (·.tag < ·.tag) := hp.filter _
  cases hb : byId i l with
  | nil => rw [hb] at h; simp at h
  | cons x xs =>
    rw [hb] at h hp'
    simp only [List.head?_cons, Option.some.injEq] at h
    subst h
    rw [List.pairwise_cons] at hp'
    rw [List.filter_cons_of_neg (by simp)]
    congr 1
    symm
    rw [List.filter_eq_self]
    intro u hu
    have := hp'.1 u hu
    simp only [bne_iff_ne]
    omega

theorem remove_other {l : List Tr} {i j : Nat} {t : Tr} (hp : l.Pairwise (·.tag < ·.tag))
    (h : firstWithId l i = some t) (hj : j ≠ i) : byId j (remove l t) = byId j l := by
  have hm := mem_of_first h
  simp only [byId, remove, List.filter_filter]
  apply List.filter_congr
  intro u hu
  by_cases hu' : u.id = j
  · have : u.tag ≠ t.tag := by
      intro e
      have := tag_inj hp hu hm.1 e
      subst this
      omega
    simp [hu', this]
  · have h2 : (u.id == j) = false := by simpa using hu'
    simp [h2]

theorem perm_remove {l : List Tr} {t : Tr} (hp : l.Pairwise (·.tag < ·.tag)) (ht : t ∈ l) :
    l.Perm (t :: remove l t) := by
  induction l with
  | nil => simp at ht
  | cons x xs ih =>
    have hp' := List.pairwise_cons.1 hp
    by_cases hx : x = t
    · subst hx
      have : remove (x :: xs) x = xs := by
        unfold remove
        rw [List.filter_cons_of_neg (by simp), List.filter_eq_self]
        intro u hu
        have := hp'.1 u hu
        simp only [bne_iff_ne]
        omega
      rw [this]
    · have ht' : t ∈ xs := by
        rcases List.mem_cons.1 ht with rfl | h
        · exact absurd rfl hx
        · exact h
      have hne : x.tag ≠ t.tag := by
        have := hp'.1 t ht'; omega
      have : remove (x :: xs) t = x :: remove xs t := by
        unfold remove
        rw [List.filter_cons_of_pos (by simpa using hne)]
      rw [this]
      exact ((ih hp'.2 ht').cons x).trans (List.Perm.swap t x _)

end Slave

end Verif.AxiOrder
