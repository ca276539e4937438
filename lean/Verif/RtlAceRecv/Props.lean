import Verif.RtlAceRecv.Soon

/-!
# What software sees of what comes in

Property **C89**.  All runs start at the reset, and software gives a descriptor
again only when it has seen it.
-/

namespace Verif.RtlAceRecv

section
variable {α : Type}

/-- **C89** What software reads, when it gets an index and looks in the
descriptor, is what was accepted on the channel, in the order in which it was
accepted, with nothing left out and nothing twice. -/
theorem recv_in_order (c : Cfg) (l : List (In α)) (hp : AllPolite c World.start l) :
    (World.start.run c l).seen.map (·.2) <+: (World.start.run c l).accepted.map some := by
  obtain ⟨u, v⟩ := inv_run (inv_start c) l hp
  rw [v.acc]
  exact List.prefix_append _ _

/-- **C89** A descriptor is used only when software has given it, and once for
each time. -/
theorem recv_given_once (c : Cfg) (l : List (In α)) (hp : AllPolite c World.start l) (j : Nat) (hj : j < 16) :
    (World.start.run c l).seenOf j ≤ (World.start.run c l).givenOf j ∧
      (World.start.run c l).givenOf j ≤ (World.start.run c l).seenOf j + 1 := by
  obtain ⟨u, v⟩ := inv_run (inv_start c) l hp
  have h1 := v.bal j hj
  have h2 := v.one j hj
  omega

/-- Every index software gets is that of a descriptor. -/
theorem recv_index (c : Cfg) (l : List (In α)) (hp : AllPolite c World.start l) :
    ∀ p ∈ (World.start.run c l).seen, p.1 < 16 := by
  obtain ⟨u, v⟩ := inv_run (inv_start c) l hp
  exact v.slt

/-- **C89** What software saw in a descriptor stays there until it gives the
descriptor again. -/
theorem recv_stays (c : Cfg) (l : List (In α)) (hp : AllPolite c World.start l) (j : Nat) (hj : j < 16)
    (hb : (World.start.run c l).givenOf j = (World.start.run c l).seenOf j) (x : Option α)
    (hx : (World.start.run c l).lastOf j = some x) : (World.start.run c l).s.desc j = x := by
  obtain ⟨u, v⟩ := inv_run (inv_start c) l hp
  have h1 := v.bal j hj
  exact v.last j hj x (by omega) hx

/-- **C89** The channel never accepts more than there is room for: at most 25
transfers are under way. -/
theorem recv_room (c : Cfg) (l : List (In α)) (hp : AllPolite c World.start l) :
    (World.start.run c l).accepted.length ≤ (World.start.run c l).seen.length + 25 := by
  obtain ⟨u, v⟩ := inv_run (inv_start c) l hp
  have h1 := congrArg List.length v.acc
  have h2 := congrArg List.length v.tr
  have h3 := track16 v
  have h4 := v.room
  have h5 : (cur (World.start.run c l).s).toList.length ≤ 1 := by cases cur (World.start.run c l).s <;> simp
  simp only [List.length_append, List.length_map] at h1 h2
  omega

/-- **C89** On the channel of write responses every response is acknowledged
once: not before it was accepted, and before software sees it.  On the others
there is no acknowledge. -/
theorem recv_acks (c : Cfg) (l : List (In α)) (hp : AllPolite c World.start l) :
    if c.late then (World.start.run c l).seen.length ≤ (World.start.run c l).acks ∧
        (World.start.run c l).acks ≤ (World.start.run c l).accepted.length
    else (World.start.run c l).acks = 0 := by
  obtain ⟨u, v⟩ := inv_run (inv_start c) l hp
  have h := v.acks
  have h1 := congrArg List.length v.acc
  have h2 := congrArg List.length v.tr
  unfold track at h2
  simp only [List.length_append, List.length_map] at h1 h2
  cases hc : c.late
  · rw [hc] at h; simp at h ⊢; omega
  · rw [hc] at h
    simp only [if_true] at h ⊢
    omega

/-- **C89** When software has given as many descriptors as transfers were
accepted and takes every index, then it sees everything: after 801 cycles
without a new transfer nothing is missing, and every write response is
acknowledged. -/
theorem recv_all_seen (c : Cfg) (l m : List (In α)) (hp : AllPolite c World.start l)
    (hp' : AllPolite c (World.start.run c l) m) (hq : ∀ i ∈ m, i.quiet) (hm : 801 ≤ m.length)
    (hg : (World.start.run c l).accepted.length ≤ (World.start.run c l).given.length) :
    ((World.start.run c l).run c m).seen.map (·.2) = (World.start.run c l).accepted.map some ∧
      (c.late = true → ((World.start.run c l).run c m).acks = (World.start.run c l).accepted.length) := by
  obtain ⟨u, v⟩ := inv_run (inv_start c) l hp
  have hr := rank_le v
  obtain ⟨e1, e2⟩ := done_run m v hp' hq hg (.inr (by omega))
  have hd := e2 (.inr (by omega))
  obtain ⟨u', v'⟩ := inv_run v m hp'
  have hu : u' = [] := by
    have := v'.tr
    rw [hd.2.2.2] at this
    exact List.map_eq_nil_iff.mp this.symm
  have h := v'.acc
  have hc : cur ((World.start.run c l).run c m).s = none := by
    unfold cur; rw [if_neg (by rw [hd.2.2.1]; simp)]
  rw [hu, hc, hd.1, hd.2.1] at h
  simp only [List.map_nil, List.nil_append, List.append_nil, Option.toList_none] at h
  rw [e1] at h
  refine ⟨h.symm, fun hl => ?_⟩
  have ha := v'.acks
  rw [hl, hu] at ha
  have h1 := congrArg List.length h
  have ht := hd.2.2.2
  unfold track at ht
  have : ((World.start.run c l).run c m).s.avail = none := by
    cases hav : ((World.start.run c l).run c m).s.avail with
    | none => rfl
    | some a => rw [hav] at ht; simp at ht
  rw [this] at ha
  simp at ha h1
  omega

end

end Verif.RtlAceRecv
