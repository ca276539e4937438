import Verif.AceSnoop.Order

/-! # C60: snoops and responses to one line are kept apart -/

namespace Verif.AceSnoop
namespace Order

/-- Entries are numbered in the order they came. -/
structure Inv (s : St) : Prop where
  sorted : s.list.Pairwise fun a b => a.id < b.id
  fresh : ∀ e ∈ s.list, e.id < s.next
  act : ∀ e ∈ s.active, e ∈ s.list ∧ e.kind = .snoop ∧ ∀ x ∈ s.list, x.id < e.id → x.meets e = false
  rd : ∀ e, s.rd = some e → e ∈ s.list ∧ e.kind = .read
  wr : ∀ e, s.wr = some e → e ∈ s.list ∧ e.kind = .write
  gone : ∀ e ∈ s.gone, e ∈ s.list ∧ e.kind = .snoop ∧ e ∉ s.active
  nodup : s.active.Nodup

theorem blocked_sound {l : List Ent} (hs : l.Pairwise fun a b => a.id < b.id) {e : Ent} (he : e ∈ l)
    (hb : blocked l e = false) : ∀ x ∈ l, x.id < e.id → x.meets e = false := by
  induction l with
  | nil => cases he
  | cons y l ih =>
    rw [List.pairwise_cons] at hs
    unfold blocked at hb
    by_cases hy : y = e
    · subst hy
      intro x hx hlt
      rcases List.mem_cons.1 hx with rfl | hx
      · omega
      · have := hs.1 x hx; omega
    · rw [if_neg hy] at hb
      simp only [Bool.or_eq_false_iff] at hb
      intro x hx hlt
      rcases List.mem_cons.1 hx with rfl | hx
      · exact hb.1
      · refine ih hs.2 ?_ hb.2 x hx hlt
        rcases List.mem_cons.1 he with h | h
        · exact absurd h.symm hy
        · exact h

theorem eq_of_id {l : List Ent} (hs : l.Pairwise fun a b => a.id < b.id) {a b : Ent} (ha : a ∈ l) (hb : b ∈ l)
    (h : a.id = b.id) : a = b := by
  induction l with
  | nil => cases ha
  | cons y l ih =>
    rw [List.pairwise_cons] at hs
    rcases List.mem_cons.1 ha with ha' | ha' <;> rcases List.mem_cons.1 hb with hb' | hb'
    · rw [ha', hb']
    · have := hs.1 b hb'; rw [ha'] at h; omega
    · have := hs.1 a ha'; rw [hb'] at h; omega
    · exact ih hs.2 ha' hb'

theorem Inv.nodupL {s : St} (h : Inv s) : s.list.Nodup :=
  h.sorted.imp (fun {a b} hab e => by rw [e] at hab; exact Nat.lt_irrefl _ hab)

theorem mem_erase_other {l : List Ent} {a e : Ent} (h : a ∈ l) (hne : a ≠ e) : a ∈ l.erase e :=
  (List.mem_erase_of_ne hne).2 h

theorem Inv.init : Inv {} := ⟨.nil, nofun, nofun, nofun, nofun, nofun, .nil⟩

theorem Inv.step {s t : St} (m : Move) (h : Inv s) (hm : s.move m = some t) : Inv t := by
  have hnd := h.nodupL
  cases m with
  | enter k addr len =>
    cases hm
    have mem : ∀ x, x ∈ s.list → x ∈ s.list ++ [⟨s.next, k, addr, len⟩] := fun x hx => List.mem_append_left _ hx
    refine ⟨?_, ?_, ?_, fun e he => ⟨mem _ (h.rd e he).1, (h.rd e he).2⟩, fun e he => ⟨mem _ (h.wr e he).1, (h.wr e he).2⟩,
      fun e he => ⟨mem _ (h.gone e he).1, (h.gone e he).2⟩, h.nodup⟩
    · rw [List.pairwise_append]
      refine ⟨h.sorted, List.pairwise_singleton .., fun a ha b hb => ?_⟩
      rw [List.mem_singleton.1 hb]; exact h.fresh a ha
    · intro e he
      show e.id < s.next + 1
      rcases List.mem_append.1 he with he | he
      · have := h.fresh e he; omega
      · rw [List.mem_singleton.1 he]; exact Nat.lt_succ_self _
    · intro e he
      obtain ⟨h1, h2, h3⟩ := h.act e he
      refine ⟨mem _ h1, h2, fun x hx hlt => ?_⟩
      rcases List.mem_append.1 hx with hx | hx
      · exact h3 x hx hlt
      · rw [List.mem_singleton.1 hx] at hlt
        have := h.fresh e h1
        simp only [] at hlt
        omega
  | snoopGo e =>
    unfold St.move at hm
    by_cases hc : e ∈ s.list ∧ e.kind = .snoop ∧ e ∉ s.active ∧ e ∉ s.gone ∧ blocked s.list e = false ∧
        free s.lockRresp e = true ∧ free s.lockSnoop e = true
    · simp only [if_pos hc] at hm
      cases hm
      obtain ⟨c1, c2, c3, c4, c5, _, _⟩ := hc
      refine ⟨h.sorted, h.fresh, ?_, h.rd, h.wr, ?_, ?_⟩
      · intro x hx
        rcases List.mem_append.1 hx with hx | hx
        · exact h.act x hx
        · rw [List.mem_singleton.1 hx]; exact ⟨c1, c2, blocked_sound h.sorted c1 c5⟩
      · intro x hx
        obtain ⟨h1, h2, h3⟩ := h.gone x hx
        refine ⟨h1, h2, fun hx' => ?_⟩
        rcases List.mem_append.1 hx' with hx' | hx'
        · exact h3 hx'
        · rw [List.mem_singleton.1 hx'] at hx; exact c4 hx
      · show (s.active ++ [e]).Nodup
        rw [List.nodup_append]
        refine ⟨h.nodup, List.pairwise_singleton .., fun a ha b hb => ?_⟩
        rw [List.mem_singleton.1 hb]
        intro e'; rw [e'] at ha; exact c3 ha
    · simp only [if_neg hc] at hm; cases hm
  | snoopDone e =>
    unfold St.move at hm
    by_cases hc : e ∈ s.active
    · simp only [if_pos hc] at hm
      cases hm
      obtain ⟨e1, e2, _⟩ := h.act e hc
      refine ⟨h.sorted.sublist List.erase_sublist, fun x hx => h.fresh x (List.mem_of_mem_erase hx), ?_, ?_, ?_, ?_,
        h.nodup.sublist List.erase_sublist⟩
      · intro x hx
        have hne : x ≠ e := fun h' => by
          rw [h'] at hx
          exact (List.Nodup.not_mem_erase h.nodup) hx
        obtain ⟨h1, h2, h3⟩ := h.act x (List.mem_of_mem_erase hx)
        exact ⟨mem_erase_other h1 hne, h2, fun y hy => h3 y (List.mem_of_mem_erase hy)⟩
      · intro x hx
        obtain ⟨h1, h2⟩ := h.rd x hx
        exact ⟨mem_erase_other h1 (fun h' => by rw [h', e2] at h2; cases h2), h2⟩
      · intro x hx
        obtain ⟨h1, h2⟩ := h.wr x hx
        exact ⟨mem_erase_other h1 (fun h' => by rw [h', e2] at h2; cases h2), h2⟩
      · intro x hx
        obtain ⟨h1, h2, h3⟩ := h.gone x hx
        exact ⟨mem_erase_other h1 (fun h' => by rw [h'] at h3; exact h3 hc), h2,
          fun h' => h3 (List.mem_of_mem_erase h')⟩
    · simp only [if_neg hc] at hm; cases hm
  | readGo e =>
    unfold St.move at hm
    by_cases hc : e ∈ s.list ∧ e.kind = .read ∧ s.rd = none ∧ free s.lockSnoop e = true
    · simp only [if_pos hc] at hm
      cases hm
      refine ⟨h.sorted, h.fresh, h.act, fun x hx => ?_, h.wr, h.gone, h.nodup⟩
      cases hx
      exact ⟨hc.1, hc.2.1⟩
    · simp only [if_neg hc] at hm; cases hm
  | readDone =>
    unfold St.move at hm
    cases hr : s.rd with
    | none => rw [hr] at hm; cases hm
    | some e =>
      rw [hr] at hm
      cases hm
      obtain ⟨e1, e2⟩ := h.rd e hr
      refine ⟨h.sorted.sublist List.erase_sublist, fun x hx => h.fresh x (List.mem_of_mem_erase hx), ?_, nofun, ?_, ?_,
        h.nodup⟩
      · intro x hx
        obtain ⟨h1, h2, h3⟩ := h.act x hx
        exact ⟨mem_erase_other h1 (fun h' => by rw [h', e2] at h2; cases h2), h2,
          fun y hy => h3 y (List.mem_of_mem_erase hy)⟩
      · intro x hx
        obtain ⟨h1, h2⟩ := h.wr x hx
        exact ⟨mem_erase_other h1 (fun h' => by rw [h', e2] at h2; cases h2), h2⟩
      · intro x hx
        obtain ⟨h1, h2, h3⟩ := h.gone x hx
        exact ⟨mem_erase_other h1 (fun h' => by rw [h', e2] at h2; cases h2), h2, h3⟩
  | writeGo e =>
    unfold St.move at hm
    by_cases hc : e ∈ s.list ∧ e.kind = .write ∧ s.wr = none
    · simp only [if_pos hc] at hm
      cases hm
      refine ⟨h.sorted, h.fresh, h.act, h.rd, fun x hx => ?_, h.gone, h.nodup⟩
      cases hx
      exact ⟨hc.1, hc.2.1⟩
    · simp only [if_neg hc] at hm; cases hm
  | writeDone =>
    unfold St.move at hm
    cases hr : s.wr with
    | none => rw [hr] at hm; cases hm
    | some e =>
      rw [hr] at hm
      cases hm
      obtain ⟨e1, e2⟩ := h.wr e hr
      refine ⟨h.sorted.sublist List.erase_sublist, fun x hx => h.fresh x (List.mem_of_mem_erase hx), ?_, ?_, nofun, ?_,
        h.nodup⟩
      · intro x hx
        obtain ⟨h1, h2, h3⟩ := h.act x hx
        exact ⟨mem_erase_other h1 (fun h' => by rw [h', e2] at h2; cases h2), h2,
          fun y hy => h3 y (List.mem_of_mem_erase hy)⟩
      · intro x hx
        obtain ⟨h1, h2⟩ := h.rd x hx
        exact ⟨mem_erase_other h1 (fun h' => by rw [h', e2] at h2; cases h2), h2⟩
      · intro x hx
        obtain ⟨h1, h2, h3⟩ := h.gone x hx
        exact ⟨mem_erase_other h1 (fun h' => by rw [h', e2] at h2; cases h2), h2, h3⟩
  | reset =>
    cases hm
    refine ⟨h.sorted.sublist List.filter_sublist, fun x hx => h.fresh x (List.mem_filter.1 hx).1, nofun, nofun, nofun, ?_,
      .nil⟩
    intro x hx
    have key : x ∈ s.list ∧ x.kind = .snoop ∧ x ∉ s.active := by
      rcases List.mem_append.1 hx with hx | hx
      · exact h.gone x hx
      · have := List.mem_filter.1 hx
        simp at this
        exact ⟨this.1, this.2.1, this.2.2⟩
    refine ⟨List.mem_filter.2 ⟨key.1, ?_⟩, key.2.1, nofun⟩
    have hr : s.rd ≠ some x := fun h' => by have := (h.rd x h').2; rw [key.2.1] at this; cases this
    have hw : s.wr ≠ some x := fun h' => by have := (h.wr x h').2; rw [key.2.1] at this; cases this
    simp [key.2.2, hr, hw]

theorem Inv.reach {s : St} (h : Reach s) : Inv s := by
  induction h with
  | init => exact Inv.init
  | step m _ hm ih => exact ih.step m hm

/-- A snoop is sent out only after every earlier transaction on its line is over: while it is
in flight, no response that became due before it and touches its bytes is still waiting to be
sent or acknowledged, and no earlier snoop of the line is in flight or waiting. -/
theorem snoop_waits {s : St} (h : Reach s) (e x : Ent) (he : e ∈ s.active) (hx : x ∈ s.list) (hlt : x.id < e.id)
    (ex : x.Ok) (ee : e.Ok) : ¬ Shares x e := by
  rw [← overlap_right x e ex ee, ((Inv.reach h).act e he).2.2 x hx hlt]
  decide

/-- Snoops in flight are on different lines. -/
theorem snoops_apart {s : St} (h : Reach s) (e x : Ent) (he : e ∈ s.active) (hx : x ∈ s.active) (hne : x ≠ e)
    (ex : x.Ok) (ee : e.Ok) : ¬ Shares x e := by
  have i := Inv.reach h
  have h1 := (i.act e he).1
  have h2 := (i.act x hx).1
  rcases Nat.lt_trichotomy x.id e.id with hlt | heq | hlt
  · exact snoop_waits h e x he h2 hlt ex ee
  · exact absurd (eq_of_id i.sorted h2 h1 heq) hne
  · intro ⟨y, hy1, hy2⟩
    exact snoop_waits h x e hx h1 hlt ee ex ⟨y, hy2, hy1⟩

/-! ### Read responses against snoops -/

/-- With one snoop at a time the locks say what is going on. -/
structure Inv1 (s : St) : Prop where
  lock : ∀ e ∈ s.active, s.lockSnoop = some (e.addr, e.len)
  rlock : ∀ e, s.rd = some e → s.lockRresp = some (e.addr, e.len)
  apart : ∀ e ∈ s.active, ∀ r, s.rd = some r → e.meets r = false ∨ r.meets e = false
  one : s.active.length ≤ 1

theorem Inv1.step {s t : St} (m : Move) (h : Inv1 s) (hg : ∀ e, m = .snoopGo e → s.active = [])
    (hm : s.move m = some t) : Inv1 t := by
  cases m with
  | enter k addr len => cases hm; exact ⟨h.lock, h.rlock, h.apart, h.one⟩
  | snoopGo e =>
    unfold St.move at hm
    by_cases hc : e ∈ s.list ∧ e.kind = .snoop ∧ e ∉ s.active ∧ e ∉ s.gone ∧ blocked s.list e = false ∧
        free s.lockRresp e = true ∧ free s.lockSnoop e = true
    · simp only [if_pos hc] at hm
      cases hm
      have ha := hg e rfl
      have hact : ∀ x ∈ s.active ++ [e], x = e := by rw [ha]; intro x hx; simpa using hx
      refine ⟨fun x hx => ?_, h.rlock, fun x hx r hr => ?_, by simp [ha]⟩
      · rw [hact x hx]
      · rw [hact x hx]
        right
        have hfree := hc.2.2.2.2.2.1
        unfold free at hfree
        rw [h.rlock r hr] at hfree
        simpa [Ent.meets] using hfree
    · simp only [if_neg hc] at hm; cases hm
  | snoopDone e =>
    unfold St.move at hm
    by_cases hc : e ∈ s.active
    · simp only [if_pos hc] at hm
      cases hm
      have h0 : s.active.erase e = [] := by
        apply List.length_eq_zero_iff.1
        rw [List.length_erase_of_mem hc]
        have := h.one
        omega
      refine ⟨?_, h.rlock, ?_, ?_⟩
      · intro x hx; have hx : x ∈ s.active.erase e := hx; rw [h0] at hx; cases hx
      · intro x hx; have hx : x ∈ s.active.erase e := hx; rw [h0] at hx; cases hx
      · show (s.active.erase e).length ≤ 1
        rw [h0]; decide
    · simp only [if_neg hc] at hm; cases hm
  | readGo e =>
    unfold St.move at hm
    by_cases hc : e ∈ s.list ∧ e.kind = .read ∧ s.rd = none ∧ free s.lockSnoop e = true
    · simp only [if_pos hc] at hm
      cases hm
      refine ⟨h.lock, fun x hx => by cases hx; rfl, fun x hx r hr => ?_, h.one⟩
      cases hr
      left
      have hfree := hc.2.2.2
      unfold free at hfree
      rw [h.lock x hx] at hfree
      simpa [Ent.meets] using hfree
    · simp only [if_neg hc] at hm; cases hm
  | readDone =>
    unfold St.move at hm
    cases hr : s.rd with
    | none => rw [hr] at hm; cases hm
    | some e => rw [hr] at hm; cases hm; exact ⟨h.lock, nofun, fun _ _ => nofun, h.one⟩
  | writeGo e =>
    unfold St.move at hm
    by_cases hc : e ∈ s.list ∧ e.kind = .write ∧ s.wr = none
    · simp only [if_pos hc] at hm; cases hm; exact ⟨h.lock, h.rlock, h.apart, h.one⟩
    · simp only [if_neg hc] at hm; cases hm
  | writeDone =>
    unfold St.move at hm
    cases hr : s.wr with
    | none => rw [hr] at hm; cases hm
    | some e => rw [hr] at hm; cases hm; exact ⟨h.lock, h.rlock, h.apart, h.one⟩
  | reset => cases hm; exact ⟨nofun, nofun, nofun, Nat.zero_le _⟩

theorem Inv1.reach {s : St} (h : Reach1 s) : Inv1 s := by
  induction h with
  | init => exact ⟨nofun, nofun, nofun, by decide⟩
  | step m _ hg hm ih => exact ih.step m hg hm

/-- With one snoop in flight at a time, a read response and a snoop that touch the same bytes
are never under way together. -/
theorem read_response_apart_partial {s : St} (h : Reach1 s) (e r : Ent) (he : e ∈ s.active) (hr : s.rd = some r)
    (ee : e.Ok) (er : r.Ok) : ¬ Shares e r := by
  rcases (Inv1.reach h).apart e he r hr with h' | h'
  · rw [← overlap_right e r ee er, h']; decide
  · intro ⟨y, hy1, hy2⟩
    have : Shares r e := ⟨y, hy2, hy1⟩
    rw [← overlap_right r e er ee, h'] at this
    cases this

def St.runs (s : St) : List Move → Option St
  | [] => some s
  | m :: ms => (s.move m).bind fun t => t.runs ms

theorem Reach.runs {s t : St} (h : Reach s) : ∀ {ms : List Move}, s.runs ms = some t → Reach t := by
  intro ms
  induction ms generalizing s with
  | nil => intro e; cases e; exact h
  | cons m ms ih =>
    intro e
    unfold St.runs at e
    cases hm : s.move m with
    | none => rw [hm] at e; cases e
    | some u => rw [hm] at e; exact ih (.step m h hm) e

theorem Reach1.runs {s t : St} (h : Reach1 s) : ∀ {ms : List Move},
    (∀ m ∈ ms, ∀ e, m ≠ .snoopGo e) → s.runs ms = some t → Reach1 t := by
  intro ms
  induction ms generalizing s with
  | nil => intro _ e; cases e; exact h
  | cons m ms ih =>
    intro hg e
    unfold St.runs at e
    cases hm : s.move m with
    | none => rw [hm] at e; cases e
    | some u =>
      rw [hm] at e
      exact ih (.step m h (fun x hx => absurd hx (hg m (List.mem_cons_self ..) x)) hm)
        (fun m' hm' => hg m' (List.mem_cons_of_mem _ hm')) e

/-- A snoop in flight next to a read response on another line. -/
example : ∃ s, Reach1 s ∧ s.active = [⟨1, .snoop, 0x80, 64⟩] ∧ s.rd = some ⟨0, .read, 0x40, 64⟩ := by
  have e1 : ∃ s, St.runs {} [.enter .read 0x40 64, .enter .snoop 0x80 64, .readGo ⟨0, .read, 0x40, 64⟩] = some s ∧
      s.active = [] ∧ ∃ t, s.move (.snoopGo ⟨1, .snoop, 0x80, 64⟩) = some t ∧
      t.active = [⟨1, .snoop, 0x80, 64⟩] ∧ t.rd = some ⟨0, .read, 0x40, 64⟩ := ⟨_, rfl, rfl, _, rfl, rfl, rfl⟩
  obtain ⟨s, hs, ha, t, ht, h1, h2⟩ := e1
  refine ⟨t, .step _ (Reach1.runs .init ?_ hs) (fun _ _ => ha) ht, h1, h2⟩
  intro m hm e he
  rw [he] at hm
  simp at hm

/-- FINDING. The lock remembers one range only: with two snoops in flight a read response on
the first one's line is sent while that snoop is still unanswered. -/
theorem two_snoops_unlock : ∃ s e r, Reach s ∧ e ∈ s.active ∧ s.rd = some r ∧ Shares e r := by
  have e1 : ∃ s, St.runs {} [.enter .snoop 0x40 64, .snoopGo ⟨0, .snoop, 0x40, 64⟩, .enter .snoop 0x80 64,
      .snoopGo ⟨1, .snoop, 0x80, 64⟩, .enter .read 0x40 64, .readGo ⟨2, .read, 0x40, 64⟩] = some s ∧
      (⟨0, .snoop, 0x40, 64⟩ : Ent) ∈ s.active ∧ s.rd = some ⟨2, .read, 0x40, 64⟩ :=
    ⟨_, rfl, List.mem_cons_self .., rfl⟩
  obtain ⟨s, hs, h1, h2⟩ := e1
  exact ⟨s, _, _, Reach.runs .init hs, h1, h2, 0x40, by decide, by decide⟩

/-- FINDING. Write responses do not wait for snoops at all. -/
theorem write_response_during_snoop : ∃ s e r, Reach s ∧ e ∈ s.active ∧ s.wr = some r ∧ Shares e r := by
  have e1 : ∃ s, St.runs {} [.enter .snoop 0x40 64, .snoopGo ⟨0, .snoop, 0x40, 64⟩, .enter .write 0x40 64,
      .writeGo ⟨1, .write, 0x40, 64⟩] = some s ∧
      (⟨0, .snoop, 0x40, 64⟩ : Ent) ∈ s.active ∧ s.wr = some ⟨1, .write, 0x40, 64⟩ :=
    ⟨_, rfl, List.mem_cons_self .., rfl⟩
  obtain ⟨s, hs, h1, h2⟩ := e1
  exact ⟨s, _, _, Reach.runs .init hs, h1, h2, 0x40, by decide, by decide⟩

/-- Calls that gave up stay recorded. -/
theorem gone_stays {s t : St} (m : Move) (hm : s.move m = some t) (g : Ent) (h : g ∈ s.gone) : g ∈ t.gone := by
  cases m <;> unfold St.move at hm
  case enter => cases hm; exact h
  case snoopGo => simp only [] at hm; split at hm <;> cases hm; exact h
  case snoopDone => simp only [] at hm; split at hm <;> cases hm; exact h
  case readGo => simp only [] at hm; split at hm <;> cases hm; exact h
  case readDone => simp only [] at hm; split at hm <;> cases hm; exact h
  case writeGo => simp only [] at hm; split at hm <;> cases hm; exact h
  case writeDone => simp only [] at hm; split at hm <;> cases hm; exact h
  case reset => cases hm; exact List.mem_append_left _ h

/-- FINDING. A snoop that was waiting when a reset came stays in the list for ever: no later
snoop of its line is ever sent. -/
theorem reset_blocks_line {s : St} (h : Reach s) (g e : Ent) (hg : g ∈ s.gone) (he : e ∈ s.active) (hlt : g.id < e.id)
    (eg : g.Ok) (ee : e.Ok) : ¬ Shares g e :=
  snoop_waits h e g he ((Inv.reach h).gone g hg).1 hlt eg ee

/-- Such a state. -/
example : ∃ s, Reach s ∧ s.gone = [⟨1, .snoop, 0x40, 64⟩] ∧ s.active = [] ∧
    s.list = [⟨1, .snoop, 0x40, 64⟩, ⟨2, .snoop, 0x40, 64⟩] := by
  have e1 : ∃ s, St.runs {} [.enter .snoop 0x40 64, .snoopGo ⟨0, .snoop, 0x40, 64⟩, .enter .snoop 0x40 64, .reset,
      .enter .snoop 0x40 64] = some s ∧ s.gone = [⟨1, .snoop, 0x40, 64⟩] ∧ s.active = [] ∧
      s.list = [⟨1, .snoop, 0x40, 64⟩, ⟨2, .snoop, 0x40, 64⟩] := ⟨_, rfl, by decide, by decide, by decide⟩
  obtain ⟨s, hs, h1⟩ := e1
  exact ⟨s, Reach.runs .init hs, h1⟩

end Order

/-! ### Resets on the master side -/
namespace Master

/-- `ACESnoopChannels_M`, counts only: `m_crList`, a transaction at the target (and whether a
reset came meanwhile), one on the CR channel (with data or not), `m_cdFifo`, one on the CD
channel, `m_numACE`. -/
structure St where
  list : Nat := 0
  run : Option Bool := none
  cr : Option Bool := none
  fifo : Nat := 0
  cur : Bool := false
  num : Nat := 0
deriving DecidableEq

inductive Move | accept | start | answer (dt : Bool) | crDone | cdStart | cdDone | reset

def St.move (s : St) : Move → Option St
  -- 224-245
  | .accept => if s.num < 16 then some { s with list := s.list + 1, num := s.num + 1 } else none
  -- 255-261
  | .start => if s.run = none ∧ s.cr = none ∧ 0 < s.list then some { s with list := s.list - 1, run := some false } else none
  -- 263-279: an aborted transaction is dropped without being counted off
  | .answer dt =>
    match s.run with
    | some false => some { s with run := none, cr := some dt, fifo := if dt then s.fifo + 1 else s.fifo }
    | some true => some { s with run := none }
    | none => none
  -- 281-291
  | .crDone =>
    match s.cr with
    | some true => some { s with cr := none }
    | some false => some { s with cr := none, num := s.num - 1 }
    | none => none
  -- 331
  | .cdStart => if s.cur = false ∧ 0 < s.fifo then some { s with cur := true, fifo := s.fifo - 1 } else none
  -- 360-361
  | .cdDone => if s.cur then some { s with cur := false, num := s.num - 1 } else none
  -- 382-390
  | .reset => some { s with list := 0, fifo := 0, run := s.run.map fun _ => true }

inductive Reach (s₀ : St) : St → Prop
  | init : Reach s₀ s₀
  | step {s t : St} (m : Move) : Reach s₀ s → s.move m = some t → Reach s₀ t

/-- Snoops that will still be counted off. -/
def St.held (s : St) : Nat :=
  s.list + (if s.run = some false then 1 else 0) + (if s.cr = some false then 1 else 0) + s.fifo +
    (if s.cur then 1 else 0)

/-- The count covers what is held; without resets it is exact. -/
theorem held_le {s : St} (h : Reach {} s) : s.held ≤ s.num := by
  induction h with
  | init => decide
  | @step s t m _ hm ih =>
    unfold St.held at *
    cases m <;> unfold St.move at hm <;> simp only [] at hm
    case reset => cases hr : s.run <;> grind
    all_goals grind

/-- States reachable without a reset. -/
inductive ReachN : St → Prop
  | init : ReachN {}
  | step {s t : St} (m : Move) : ReachN s → m ≠ .reset → s.move m = some t → ReachN t

theorem exact_without_reset {s : St} (h : ReachN s) : s.held = s.num := by
  have key : s.held = s.num ∧ s.run ≠ some true ∧ (s.run ≠ none → s.cr = none) := by
    induction h with
    | init => decide
    | @step s t m _ hr hm ih =>
      unfold St.held at *
      cases m <;> unfold St.move at hm <;> simp only [] at hm
      case reset => exact (hr rfl).elim
      all_goals grind
  exact key.1

def St.runs (s : St) : List Move → Option St
  | [] => some s
  | m :: ms => (s.move m).bind fun t => t.runs ms

theorem Reach.runs {s₀ s t : St} (h : Reach s₀ s) : ∀ {ms : List Move}, s.runs ms = some t → Reach s₀ t := by
  intro ms
  induction ms generalizing s with
  | nil => intro e; cases e; exact h
  | cons m ms ih =>
    intro e
    unfold St.runs at e
    cases hm : s.move m with
    | none => rw [hm] at e; cases e
    | some u => rw [hm] at e; exact ih (.step m h hm) e

/-- FINDING. Snoops lost to resets are never counted off: after sixteen of them the master
holds nothing, and accepts no snoop ever again. -/
theorem resets_exhaust : ∃ s, Reach {} s ∧ s.held = 0 ∧ ∀ t, Reach s t → t.move .accept = none := by
  have e1 : ∃ s, St.runs {} (List.replicate 16 .accept ++ [.reset]) = some s ∧ s = { num := 16 } :=
    ⟨_, rfl, by decide⟩
  obtain ⟨s, hs, h1⟩ := e1
  refine ⟨s, Reach.runs .init hs, by rw [h1]; decide, fun t ht => ?_⟩
  have : t = { num := 16 } := by
    induction ht with
    | init => exact h1
    | step m _ hm ih =>
      rw [ih] at hm
      cases m <;> simp [St.move] at hm
      exact hm.symm
  rw [this]; rfl

end Master

/-! ### DVM synchronisation -/
namespace Dvm

/-- `IsIgnoreRead` and `IsDVMSync`, amba-ace.h 405-409, 514-521, for a snoop built by
`ACETransaction` (snoop-channels.h 150): its command is READ. -/
inductive Cmd | read | write | ignore
deriving DecidableEq

def isDvmSync (cmd : Cmd) (isReadTx : Bool) (snoop addr : Nat) : Bool :=
  decide (cmd = .ignore) && isReadTx && decide (snoop = 0xf) && decide ((addr >>> 12) &&& 7 = 4)

/-- What happens on a master: a snoop answered without data, a read sent. -/
inductive Ev
  | snooped (snoop addr : Nat)
  | read

/-- `m_numDVMSyncResp`: snoop-channels.h 284-286; tlm2axi-bridge.h 679 counts down on every
read, not only for DVMComplete. -/
def step (n : BitVec 32) : Ev → BitVec 32
  | .snooped s a => if isDvmSync .read true s a then n + 1 else n
  | .read => n - 1

/-- FINDING. Synchronisation responses are never counted, whatever snoops arrive. -/
theorem sync_never_counted (n : BitVec 32) (s a : Nat) : step n (.snooped s a) = n := by
  unfold step isDvmSync
  simp

/-- FINDING. A DVMComplete waits only while the count is zero (tlm2axi-bridge.h 673-674); after
any read and until 2^32 of them it is not, so the DVMComplete is sent before the response to
the DVM Sync it completes. -/
theorem complete_does_not_wait (k : Nat) (h : 0 < k) (hk : k < 2 ^ 32) :
    (List.replicate k Ev.read).foldl step 0#32 ≠ 0#32 := by
  have gen : ∀ k (n : BitVec 32), (List.replicate k Ev.read).foldl step n = n - BitVec.ofNat 32 k := by
    intro k
    induction k with
    | zero => intro n; simp
    | succ k ih =>
      intro n
      rw [List.replicate_succ, List.foldl_cons, ih]
      show n - 1#32 - BitVec.ofNat 32 k = _
      have : BitVec.ofNat 32 (k + 1) = BitVec.ofNat 32 k + 1#32 := by simp [BitVec.ofNat_add]
      rw [this]
      apply BitVec.eq_of_toNat_eq
      simp only [BitVec.toNat_sub, BitVec.toNat_add, BitVec.toNat_ofNat]
      omega
  rw [gen]
  intro h0
  have := congrArg BitVec.toNat h0
  simp only [BitVec.toNat_sub, BitVec.toNat_ofNat] at this
  omega

end Dvm
end Verif.AceSnoop
