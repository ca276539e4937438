import Verif.AxiOrder.Lemmas

/-! The invariant of the worker threads is kept by every step. -/
namespace Verif.AxiOrder.Slave

theorem Inv.mem_list {s : St} (h : Inv s) {t : Tr} (ht : t ∈ s.list) : t ∈ s.accepted :=
  h.perm.mem_iff.2 (List.mem_append_right _ ht)

theorem Inv.mem_completed {s : St} (h : Inv s) {t : Tr} (ht : t ∈ s.completed) :
    t ∈ s.accepted := h.perm.mem_iff.2 (List.mem_append_left _ ht)

theorem Inv.mem_calls {s : St} (h : Inv s) {t : Tr} (ht : t ∈ calls s.log) :
    t ∈ s.accepted := by
  have h1 : t ∈ byId t.id (calls s.log) := mem_byId.2 ⟨ht, rfl⟩
  rw [h.called] at h1
  rcases List.mem_append.1 h1 with h1 | h1
  · exact h.mem_completed (mem_byId.1 h1).1
  · split at h1
    · exact h.mem_list (mem_byId.1 (List.mem_of_mem_take h1)).1
    · simp at h1

theorem mem_calls_of_split {log pre post : List Ev} {t : Tr}
    (h : log = pre ++ .call t :: post) : t ∈ calls log := by
  subst h
  simp [calls]

theorem thOk_exists {l : List Tr} {i : Nat} {th : Th} (h : thOk l i th) : ∃ t ∈ l, t.id = i := by
  cases th with
  | start => exact h
  | wait t => exact ⟨t, mem_of_first h⟩
  | busy t => exact ⟨t, mem_of_first h⟩
  | put t => exact h.elim

theorem thOk_append {l : List Tr} {i : Nat} {th : Th} (h : thOk l i th) (m : List Tr) :
    thOk (l ++ m) i th := by
  have key : ∀ t, firstWithId l i = some t → firstWithId (l ++ m) i = some t := by
    intro t ht
    simp only [firstWithId, List.find?_append] at *
    rw [ht]; rfl
  cases th with
  | start =>
    obtain ⟨t, ht, e⟩ := h
    exact ⟨t, List.mem_append_left _ ht, e⟩
  | wait t => exact key t h
  | busy t => exact key t h
  | put t => exact h

theorem step_accept {s : St} (h : Inv s) (id page : Nat) : Inv (step s (.accept id page false)) := by
  simp only [step]
  split
  · exact h
  rename_i hout
  rw [outstanding_eq h] at hout
  have hb : busyIn (if (s.list.any (·.id == id)) = true then s.threads
      else s.threads ++ [(id, .start)]) = busyIn s.threads := by
    funext i
    split
    · rfl
    · simp [busyIn, Th.isBusy]
  refine ⟨?_, ?_, ?_, ?_, ?_, ?_, ?_, ?_, ?_, ?_, ?_, ?_, ?_⟩
  · intro t ht
    rcases List.mem_append.1 ht with ht | ht
    · exact h.nb t ht
    · simp only [List.mem_singleton] at ht; subst ht; rfl
  · intro i
    simp only [St.completed] at *
    rw [byId_append, h.order i, ← List.append_assoc, byId_append _ _ [_]]
    rfl
  · have := h.perm.append_right [(⟨s.accepted.length, id, page, false⟩ : Tr)]
    simpa [St.completed, List.append_assoc] using this
  · simp only [List.length_append, List.length_singleton]; omega
  · refine List.pairwise_append.2 ⟨h.tags, by simp, ?_⟩
    intro a ha b hb
    simp only [List.mem_singleton] at hb; subst hb
    exact h.lt a ha
  · intro t ht
    simp only [List.length_append, List.length_singleton]
    rcases List.mem_append.1 ht with ht | ht
    · have := h.lt t ht; omega
    · simp only [List.mem_singleton] at ht; subst ht; simp
  · refine List.pairwise_append.2 ⟨h.sub, by simp, ?_⟩
    intro a ha b hb
    simp only [List.mem_singleton] at hb; subst hb
    exact h.lt a (h.mem_list ha)
  · simp only
    split
    · exact h.nodup
    · rename_i hany
      rw [List.map_append]
      refine List.nodup_append.2 ⟨h.nodup, by simp, ?_⟩
      intro a ha b hb e
      simp only [List.map_cons, List.map_nil, List.mem_singleton] at hb
      subst hb
      subst e
      obtain ⟨p, hp, rfl⟩ := List.mem_map.1 ha
      obtain ⟨t, ht, e⟩ := thOk_exists (h.ok p hp)
      exact hany (List.any_eq_true.2 ⟨t, ht, by simpa using e⟩)
  · intro t ht
    simp only
    rcases List.mem_append.1 ht with ht | ht
    · have := h.cover t ht
      split
      · exact this
      · rw [List.map_append]; exact List.mem_append_left _ this
    · simp only [List.mem_singleton] at ht; subst ht
      split
      · rename_i hany
        obtain ⟨u, hu, e⟩ := List.any_eq_true.1 hany
        have := h.cover u hu
        simp only [beq_iff_eq] at e
        rw [e] at this
        exact this
      · simp
  · intro p hp
    simp only at hp
    have hold : p ∈ s.threads → thOk (s.list ++ [⟨s.accepted.length, id, page, false⟩]) p.1 p.2 :=
      fun hp => thOk_append (h.ok p hp) _
    split at hp
    · exact hold hp
    · rcases List.mem_append.1 hp with hp | hp
      · exact hold hp
      · simp only [List.mem_singleton] at hp
        subst hp
        exact ⟨_, List.mem_append_right _ (List.mem_singleton.2 rfl), rfl⟩
  · intro i
    simp only [hb, St.completed]
    rw [h.called i]
    congr 1
    split
    · rename_i hbusy
      obtain ⟨p, hp, e⟩ := List.any_eq_true.1 hbusy
      obtain ⟨t, ht, e'⟩ := thOk_exists (h.ok p hp)
      simp only [Bool.and_eq_true, beq_iff_eq] at e
      rw [byId_append, List.take_append_of_le_length]
      have : t ∈ byId i s.list := mem_byId.2 ⟨ht, by omega⟩
      exact List.length_pos_of_mem this
    · rfl
  · intro t
    exact h.finished t
  · intro pre t2 post hlog t1 ht1 hlt hpage
    rcases List.mem_append.1 ht1 with ht1 | ht1
    · exact h.pages pre t2 post hlog t1 ht1 hlt hpage
    · simp only [List.mem_singleton] at ht1
      subst ht1
      have := h.lt t2 (h.mem_calls (mem_calls_of_split hlog))
      simp only at hlt
      omega

theorem step_take {s : St} (h : Inv s) : Inv (step s .take) := by
  simp only [step]
  split
  · rename_i t ts hc hf
    have hcomp : ∀ x : St, x = { s with cur := some t, fifo := ts } → x.completed = s.completed := by
      rintro _ rfl
      simp [St.completed, hc, hf]
    have hcomp := hcomp _ rfl
    have hbound := h.bound
    refine ⟨h.nb, ?_, ?_, ?_, h.tags, h.lt, h.sub, h.nodup, h.cover, h.ok, ?_, ?_, h.pages⟩
    · rw [hcomp]; exact h.order
    · rw [hcomp]; exact h.perm
    · rw [hc, hf] at hbound
      simp only [Option.toList_none, List.length_nil, List.length_cons] at hbound
      simp only [Option.toList_some, List.length_singleton]
      omega
    · rw [hcomp]; exact h.called
    · rw [hcomp]; exact h.finished
  · exact h

theorem step_finish {s : St} (h : Inv s) : Inv (step s .finish) := by
  simp only [step]
  split
  · exact h
  · rename_i t hc
    have hcomp : ∀ x : St, x = { s with cur := none, delivered := s.delivered ++ [t] } →
        x.completed = s.completed := by
      rintro _ rfl
      simp [St.completed, hc]
    have hcomp := hcomp _ rfl
    have hbound := h.bound
    refine ⟨h.nb, ?_, ?_, ?_, h.tags, h.lt, h.sub, h.nodup, h.cover, h.ok, ?_, ?_, h.pages⟩
    · rw [hcomp]; exact h.order
    · rw [hcomp]; exact h.perm
    · simp only [Option.toList_none, List.length_nil]
      omega
    · rw [hcomp]; exact h.called
    · rw [hcomp]; exact h.finished

/-- Replacing a thread that is not busy by one in the same role. -/
theorem inv_set {s : St} (h : Inv s) {k id : Nat} {th th' : Th}
    (hk : s.threads[k]? = some (id, th)) (hb : th.isBusy = false) (hb' : th'.isBusy = false)
    (hok : thOk s.list id th') : Inv { s with threads := s.threads.set k (id, th') } := by
  obtain ⟨a, b, hs, -, hset⟩ := split_threads hk
  have hmap : (s.threads.set k (id, th')).map (·.1) = s.threads.map (·.1) := by
    rw [hset, hs]; simp
  have hbusy : busyIn (s.threads.set k (id, th')) = busyIn s.threads := by
    funext i
    rw [hset, hs]
    simp [busyIn_append, busyIn_cons, hb, hb']
  refine ⟨h.nb, h.order, h.perm, h.bound, h.tags, h.lt, h.sub, ?_, ?_, ?_, ?_, h.finished, h.pages⟩
  · show ((s.threads.set k (id, th')).map (·.1)).Nodup
    rw [hmap]; exact h.nodup
  · intro t ht
    show t.id ∈ (s.threads.set k (id, th')).map (·.1)
    rw [hmap]; exact h.cover t ht
  · intro p hp
    rcases List.mem_or_eq_of_mem_set hp with hp | rfl
    · exact h.ok p hp
    · exact hok
  · intro i
    show byId i (calls s.log) = byId i s.completed
      ++ (if busyIn (s.threads.set k (id, th')) i then _ else _)
    rw [hbusy]; exact h.called i

theorem step_run {s : St} (h : Inv s) (k : Nat) : Inv (step s (.run k)) := by
  simp only [step]
  split
  · exact h
  · -- a new thread picks its first transaction
    rename_i id hk
    have hmem := List.mem_of_getElem? hk
    obtain ⟨t, ht, hid⟩ := h.ok _ hmem
    unfold pick
    split
    · rename_i hnone
      rw [firstWithId, List.find?_eq_none] at hnone
      exact absurd (by simpa using hid) (hnone t ht)
    · rename_i u hu
      exact inv_set h hk rfl rfl hu
  · -- issuing the TLM call
    rename_i id t hk
    split
    · exact h
    · rename_i hw
      have hmem := List.mem_of_getElem? hk
      have hfirst : firstWithId s.list id = some t := h.ok _ hmem
      obtain ⟨htl, htid⟩ := mem_of_first hfirst
      obtain ⟨a, b, hs, -, hset⟩ := split_threads hk
      have hnd := h.nodup
      rw [hs] at hnd
      obtain ⟨hna, hnb, -⟩ := nodup_split hnd
      have hmap : (s.threads.set k (id, .busy t)).map (·.1) = s.threads.map (·.1) := by
        rw [hset, hs]; simp
      refine ⟨h.nb, h.order, h.perm, h.bound, h.tags, h.lt, h.sub, ?_, ?_, ?_, ?_, ?_, ?_⟩
      · show ((s.threads.set k (id, .busy t)).map (·.1)).Nodup
        rw [hmap]; exact h.nodup
      · intro x hx
        show x.id ∈ (s.threads.set k (id, .busy t)).map (·.1)
        rw [hmap]; exact h.cover x hx
      · intro p hp
        rcases List.mem_or_eq_of_mem_set hp with hp | rfl
        · exact h.ok p hp
        · exact hfirst
      · intro i
        show byId i (calls (s.log ++ [Ev.call t])) = byId i s.completed
          ++ (if busyIn (s.threads.set k (id, .busy t)) i then (byId i s.list).take 1 else [])
        rw [calls_append, byId_append, h.called i, List.append_assoc]
        congr 1
        have hc : calls [Ev.call t] = [t] := rfl
        rw [hc]
        by_cases hi : i = id
        · subst hi
          have hb0 : busyIn s.threads i = false := by
            rw [hs, busyIn_append, busyIn_cons, busyIn_none hna, busyIn_none hnb]
            simp [Th.isBusy]
          have hb1 : busyIn (s.threads.set k (i, .busy t)) i = true := by
            rw [hset, busyIn_append, busyIn_cons]
            simp [Th.isBusy]
          rw [hb0, hb1]
          rw [firstWithId_eq] at hfirst
          cases hl : byId i s.list with
          | nil => rw [hl] at hfirst; simp at hfirst
          | cons x xs =>
            rw [hl] at hfirst
            simp only [List.head?_cons, Option.some.injEq] at hfirst
            subst hfirst
            simp [byId, htid]
        · have hb0 : busyIn (s.threads.set k (id, .busy t)) i = busyIn s.threads i := by
            have : (id == i) = false := by simpa using fun e => hi e.symm
            rw [hset, hs]
            simp [busyIn_append, busyIn_cons, this]
          have : byId i [t] = [] := by
            have : (t.id == i) = false := by simp only [beq_eq_false_iff_ne]; omega
            simp [byId, this]
          rw [hb0, this, List.append_nil]
      · intro u
        show Ev.done u ∈ s.log ++ [Ev.call t] ↔ u ∈ s.completed
        rw [← h.finished u]; simp
      · intro pre t2 post hlog t1 ht1 hlt hpage
        have hlog : s.log ++ [Ev.call t] = pre ++ .call t2 :: post := hlog
        rcases List.eq_nil_or_concat post with rfl | ⟨post', e, rfl⟩
        · have := List.append_inj' hlog rfl
          obtain ⟨hpre, he⟩ := this
          simp only [List.cons.injEq, Ev.call.injEq, and_true] at he
          subst he
          subst hpre
          rw [h.finished]
          rcases List.mem_append.1 (h.perm.mem_iff.1 ht1) with hc | hl
          · exact hc
          · exfalso
            rcases hpage with hpage | hsame
            · apply hw
              have := mem_takeWhile_of_lt h.sub hl hlt htl
              simp only [mustWait, Bool.or_eq_true]
              right
              exact List.any_eq_true.2 ⟨t1, this, by simpa using hpage⟩
            · have := first_le h.sub hfirst hl (by omega)
              omega
        · rw [List.concat_eq_append, ← List.cons_append, ← List.append_assoc] at hlog
          have := List.append_inj' hlog rfl
          exact h.pages pre t2 post' this.1 t1 ht1 hlt hpage
  · -- completion
    rename_i id t hk
    have hmem := List.mem_of_getElem? hk
    have hfirst : firstWithId s.list id = some t := h.ok _ hmem
    obtain ⟨htl, htid⟩ := mem_of_first hfirst
    have hlen : 1 ≤ s.list.length := List.length_pos_of_mem htl
    have hbound := h.bound
    split
    · obtain ⟨a, b, hs, herase, hset⟩ := split_threads hk
      have hnd := h.nodup
      rw [hs] at hnd
      obtain ⟨hna, hnb, hnab⟩ := nodup_split hnd
      have hperm := perm_remove h.sub htl
      have hothers : ∀ p ∈ a ++ b, p ∈ s.threads ∧ p.1 ≠ id := by
        intro p hp
        refine ⟨?_, ?_⟩
        · rw [hs]
          rcases List.mem_append.1 hp with hp | hp
          · exact List.mem_append_left _ hp
          · exact List.mem_append_right _ (List.mem_cons_of_mem _ hp)
        · intro e
          rcases List.mem_append.1 hp with hp | hp
          · exact hna (List.mem_map.2 ⟨p, hp, e⟩)
          · exact hnb (List.mem_map.2 ⟨p, hp, e⟩)
      have hotherok : ∀ p ∈ a ++ b, thOk (remove s.list t) p.1 p.2 := by
        intro p hp
        obtain ⟨hp, hne⟩ := hothers p hp
        have hrem := remove_other h.sub hfirst hne
        have hold := h.ok p hp
        have key : ∀ u, firstWithId s.list p.1 = some u →
            firstWithId (remove s.list t) p.1 = some u := by
          intro u hu
          rw [firstWithId_eq] at hu ⊢
          rw [hrem]; exact hu
        rcases p with ⟨i, th⟩
        cases th with
        | start =>
          obtain ⟨u, hu, e⟩ := hold
          have : u ∈ byId i (remove s.list t) := by
            simp only at hrem
            rw [hrem]; exact mem_byId.2 ⟨hu, e⟩
          exact ⟨u, (mem_byId.1 this).1, e⟩
        | wait u => exact key u hold
        | busy u => exact key u hold
        | put u => exact hold
      have hcovother : ∀ x ∈ remove s.list t, x.id ≠ id → x.id ∈ (a ++ b).map (·.1) := by
        intro x hx hne
        have := h.cover x (List.mem_filter.1 hx).1
        rw [hs] at this
        simp only [List.map_append, List.map_cons, List.mem_append, List.mem_cons] at this ⊢
        rcases this with h1 | h1 | h1
        · exact Or.inl h1
        · exact absurd h1 hne
        · exact Or.inr h1
      have hbusyother : ∀ i, i ≠ id → busyIn (a ++ b) i = busyIn s.threads i := by
        intro i hi
        have : (id == i) = false := by simpa using fun e => hi e.symm
        rw [hs]
        simp [busyIn_append, busyIn_cons, this]
      have hbusyid : busyIn s.threads id = true := by
        rw [hs, busyIn_append, busyIn_cons]
        simp [Th.isBusy]
      have hbusynone : busyIn (a ++ b) id = false := by
        rw [busyIn_append, busyIn_none hna, busyIn_none hnb]; rfl
      -- the threads afterwards
      have hths : ∃ ths, pick (remove s.list t) id k s.threads = ths ∧ (ths.map (·.1)).Nodup ∧
          (∀ x ∈ remove s.list t, x.id ∈ ths.map (·.1)) ∧
          (∀ p ∈ ths, thOk (remove s.list t) p.1 p.2) ∧
          (∀ i, busyIn ths i = busyIn (a ++ b) i) := by
        refine ⟨_, rfl, ?_⟩
        unfold pick
        split
        · rename_i hnone
          rw [herase]
          refine ⟨hnab, ?_, hotherok, fun _ => rfl⟩
          intro x hx
          apply hcovother x hx
          intro e
          rw [firstWithId, List.find?_eq_none] at hnone
          exact hnone x hx (by simpa using e)
        · rename_i u hu
          rw [hset]
          refine ⟨?_, ?_, ?_, ?_⟩
          · have := h.nodup
            rw [hs] at this
            simpa using this
          · intro x hx
            by_cases e : x.id = id
            · rw [e]; simp
            · have := hcovother x hx e
              simp only [List.map_append, List.map_cons, List.mem_append, List.mem_cons] at this ⊢
              rcases this with h1 | h1
              · exact Or.inl h1
              · exact Or.inr (Or.inr h1)
          · intro p hp
            rcases List.mem_append.1 hp with hp' | hp'
            · exact hotherok p (List.mem_append_left _ hp')
            · rcases List.mem_cons.1 hp' with rfl | hp'
              · exact hu
              · exact hotherok p (List.mem_append_right _ hp')
          · intro i
            simp [busyIn_append, busyIn_cons, Th.isBusy]
      obtain ⟨ths, hpick, hths1, hths2, hths3, hths4⟩ := hths
      rw [hpick]
      have hcomp : St.completed ⟨remove s.list t, ths, s.fifo ++ [t], s.cur, s.delivered,
          s.log ++ [Ev.done t], s.accepted⟩ = s.completed ++ [t] := by
        simp [St.completed]
      refine ⟨h.nb, ?_, ?_, ?_, h.tags, h.lt, h.sub.filter _, hths1, hths2, hths3, ?_, ?_, ?_⟩
      · intro i
        rw [hcomp]
        show byId i s.accepted = byId i (s.completed ++ [t] ++ remove s.list t)
        rw [h.order i, byId_append, byId_append, byId_append, List.append_assoc]
        congr 1
        by_cases hi : i = id
        · subst hi
          rw [remove_first h.sub hfirst]
          simp [byId, htid]
        · have : byId i [t] = [] := by
            have : (t.id == i) = false := by simp only [beq_eq_false_iff_ne]; omega
            simp [byId, this]
          rw [this, remove_other h.sub hfirst hi]; rfl
      · rw [hcomp]
        show s.accepted.Perm (s.completed ++ [t] ++ remove s.list t)
        refine h.perm.trans ?_
        rw [List.append_assoc]
        exact hperm.append_left _
      · show s.cur.toList.length + (s.fifo ++ [t]).length + (remove s.list t).length ≤ _
        have := hperm.length_eq
        simp only [List.length_cons] at this
        simp only [List.length_append, List.length_singleton]
        omega
      · intro i
        rw [hcomp]
        show byId i (calls (s.log ++ [Ev.done t])) = byId i (s.completed ++ [t])
          ++ (if busyIn ths i then (byId i (remove s.list t)).take 1 else [])
        have hc : calls [Ev.done t] = [] := rfl
        rw [calls_append, hc, List.append_nil, h.called i, byId_append, List.append_assoc, hths4 i]
        congr 1
        by_cases hi : i = id
        · subst hi
          rw [hbusyid, hbusynone, remove_first h.sub hfirst]
          simp [byId, htid]
        · have : byId i [t] = [] := by
            have : (t.id == i) = false := by simp only [beq_eq_false_iff_ne]; omega
            simp [byId, this]
          rw [this, hbusyother i hi, remove_other h.sub hfirst hi]; rfl
      · intro u
        rw [hcomp]
        show Ev.done u ∈ s.log ++ [Ev.done t] ↔ u ∈ s.completed ++ [t]
        rw [List.mem_append, List.mem_append, h.finished u]
        simp
      · intro pre t2 post hlog t1 ht1 hlt hpage
        have hlog : s.log ++ [Ev.done t] = pre ++ .call t2 :: post := hlog
        rcases List.eq_nil_or_concat post with rfl | ⟨post', e, rfl⟩
        · have := (List.append_inj' hlog rfl).2
          simp at this
        · rw [List.concat_eq_append, ← List.cons_append, ← List.append_assoc] at hlog
          have := List.append_inj' hlog rfl
          exact h.pages pre t2 post' this.1 t1 ht1 hlt hpage
    · rename_i hfull
      simp only [maxOutstanding, fifoDepth] at *
      omega
  · rename_i id t hk
    exact (h.ok _ (List.mem_of_getElem? hk)).elim

/-- Accepted transactions carry no ACE barrier. -/
def NoBarrier : Op → Prop
  | .accept _ _ b => b = false
  | _ => True

theorem inv_run {ops : List Op} (hops : ∀ o ∈ ops, NoBarrier o) : ∀ {s : St}, Inv s → Inv (run s ops) := by
  induction ops with
  | nil => intro s h; exact h
  | cons o os ih =>
    intro s h
    have ho := hops o (List.mem_cons_self ..)
    refine ih (fun o' h' => hops o' (List.mem_cons_of_mem _ h')) ?_
    cases o with
    | accept id page b =>
      have : b = false := ho
      subst this
      exact step_accept h id page
    | run k => exact step_run h k
    | take => exact step_take h
    | finish => exact step_finish h

end Verif.AxiOrder.Slave
