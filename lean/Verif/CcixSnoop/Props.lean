import Verif.CcixSnoop.Spec

/-! C63: snoops over a link. -/
namespace Verif.CcixSnoop
open Spec

/-- What holds in every state, with one cache behind each port. -/
structure Inv (c : Cfg) (s : St) : Prop where
  abort : s.abort = false
  known : ∀ a, s.holds a = true → s.dir a = true ∧ a ∈ c.agents
  nodup : ∀ r, s.cur = some r → r.own.Nodup ∧ r.ports.Nodup ∧ r.out.Nodup
  ownOut : ∀ r, s.cur = some r → ∀ b, b ∈ r.own → b ∈ r.out ∧ c.ccix b = none
  portOut : ∀ r, s.cur = some r → ∀ p, p ∈ r.ports → ∃ b, b ∈ r.out ∧ c.ccix b = some p
  outOwn : ∀ r, s.cur = some r → ∀ b, b ∈ r.out → b ∈ c.agents ∧ (c.ccix b = none → b ∈ r.own) ∧
    ∀ p, c.ccix b = some p → p ∈ r.ports
  asked : ∀ r, s.cur = some r → r.out ≠ [] → ask r.op ≠ none
  src : ∀ r, s.cur = some r → r.src ∈ c.agents
  others : ∀ r, s.cur = some r → ask r.op = some .give → ∀ b, b ≠ r.src → s.holds b = true → b ∈ r.out

theorem upd_true {f : Nat → Bool} {a x : Nat} {v : Bool} : upd f a v x = if x = a then v else f x := rfl

theorem eraseDups_nodup : ∀ (n : Nat) (l : List Nat), l.length ≤ n → l.eraseDups.Nodup := by
  intro n
  induction n with
  | zero => intro l h; cases l with
    | nil => simp
    | cons a l => simp at h
  | succ n ih =>
    intro l h
    cases l with
    | nil => simp
    | cons a l =>
      rw [List.eraseDups_cons]
      refine List.nodup_cons.mpr ⟨?_, ih _ ?_⟩
      · rw [List.mem_eraseDups]; simp
      · have := List.length_filter_le (fun b => !b == a) l
        simp at h; omega

theorem mem_ports {c : Cfg} {s : St} {src p : Nat} {me : Bool} :
    p ∈ portTargets c s src me ↔ ∃ b, b ∈ c.agents ∧ (b ≠ src ∨ me = true) ∧ s.dir b = true ∧ c.ccix b = some p := by
  unfold portTargets
  rw [List.mem_eraseDups, List.mem_filterMap]
  constructor
  · rintro ⟨b, h1, h2⟩
    by_cases h : ((b != src || me) && s.dir b) = true
    · rw [if_pos h] at h2
      simp only [Bool.and_eq_true, Bool.or_eq_true, bne_iff_ne] at h
      exact ⟨b, h1, h.1, h.2, h2⟩
    · rw [if_neg h] at h2; cases h2
  · rintro ⟨b, h1, h2, h3, h4⟩
    refine ⟨b, h1, ?_⟩
    rw [if_pos (by simp [h2, h3])]; exact h4

theorem mem_own {c : Cfg} {s : St} {src b : Nat} {me : Bool} :
    b ∈ ownTargets c s src me ↔ b ∈ c.agents ∧ c.ccix b = none ∧ (b ≠ src ∨ me = true) ∧ s.dir b = true := by
  unfold ownTargets
  rw [List.mem_filter]
  simp only [Bool.and_eq_true, Bool.or_eq_true, bne_iff_ne, Option.isNone_iff_eq_none, and_assoc]

theorem mem_sent {c : Cfg} {s : St} {b : Nat} {ps : List Nat} :
    b ∈ sent c s ps ↔ b ∈ c.agents ∧ s.dir b = true ∧ ∃ p, c.ccix b = some p ∧ p ∈ ps := by
  unfold sent
  rw [List.mem_filter]
  cases h : c.ccix b with
  | none => simp
  | some p => simp

theorem start_inv {c : Cfg} {s s' : St} {op : BitVec 8} {src : Nat} {me : Bool} (hc : OneEach c) (h : Inv c s)
    (hm : s.move c (.start op src me) = some s') : Inv c s' := by
  simp only [St.move] at hm
  cases hcur : s.cur with
  | some r => rw [hcur] at hm; cases hm
  | none =>
    rw [hcur] at hm
    simp only at hm
    by_cases h1 : s.abort = true ∨ ¬ src ∈ c.agents ∨ (me = true ∧ op.toNat < 0x28)
    · rw [if_pos h1] at hm; cases hm
    · rw [if_neg h1] at hm
      have hsrc : src ∈ c.agents := by
        by_cases h2 : src ∈ c.agents
        · exact h2
        · exact absurd (Or.inr (Or.inl h2)) h1
      cases ha : ask op with
      | none =>
        rw [ha] at hm; cases hm
        refine ⟨h.abort, h.known, fun r e => ?_, fun r e => ?_, fun r e => ?_, fun r e => ?_, fun r e => ?_, fun r e => ?_,
          fun r e => ?_⟩ <;> cases e
        · simp
        · simp
        · simp
        · simp
        · simp
        · exact hsrc
        · simp [ha]
      | some k =>
        rw [ha] at hm
        cases hm
        refine ⟨h.abort, h.known, fun r e => ?_, fun r e => ?_, fun r e => ?_, fun r e => ?_, fun r e => ?_, fun r e => ?_,
          fun r e => ?_⟩ <;> cases e
        · refine ⟨hc.nodup.filter _, eraseDups_nodup _ _ (Nat.le_refl _), ?_⟩
          refine List.nodup_append.mpr ⟨hc.nodup.filter _, hc.nodup.filter _, ?_⟩
          intro a ha' b hb' e
          subst e
          obtain ⟨p, hp, -⟩ := (mem_sent.mp hb').2.2
          rw [(mem_own.mp ha').2.1] at hp; cases hp
        · intro b hb
          exact ⟨List.mem_append_left _ hb, (mem_own.mp hb).2.1⟩
        · intro p hp
          obtain ⟨b, b1, b2, b3, b4⟩ := mem_ports.mp hp
          exact ⟨b, List.mem_append_right _ (mem_sent.mpr ⟨b1, b3, p, b4, hp⟩), b4⟩
        · intro b hb
          rcases List.mem_append.mp hb with hb | hb
          · obtain ⟨b1, b2, b3, b4⟩ := mem_own.mp hb
            exact ⟨b1, fun _ => hb, fun p hp => by rw [b2] at hp; cases hp⟩
          · obtain ⟨b1, b2, p, b3, b4⟩ := mem_sent.mp hb
            exact ⟨b1, (fun hn => by rw [b3] at hn; cases hn), fun q hq => by rw [b3] at hq; cases hq; exact b4⟩
        · intro _; rw [ha]; simp
        · exact hsrc
        · intro _ b hne hb
          obtain ⟨d1, d2⟩ := h.known b hb
          cases hcc : c.ccix b with
          | none => exact List.mem_append_left _ (mem_own.mpr ⟨d2, hcc, Or.inl hne, d1⟩)
          | some p =>
            exact List.mem_append_right _ (mem_sent.mpr ⟨d2, d1, p, hcc, mem_ports.mpr ⟨b, d2, Or.inl hne, d1, hcc⟩⟩)

theorem keeps_true {k : Ask} {v : Bool} (h : keeps k v = true) : v = true ∧ k ≠ .give := by
  cases k <;> simp_all [keeps]

theorem answer_inv {c : Cfg} {s s' : St} {b : Nat} (hc : OneEach c) (h : Inv c s)
    (hm : s.move c (.answer b) = some s') : Inv c s' := by
  simp only [St.move] at hm
  cases hcur : s.cur with
  | none => rw [hcur] at hm; cases hm
  | some r =>
    rw [hcur] at hm
    simp only at hm
    by_cases h1 : s.abort = true ∨ ¬ b ∈ r.out
    · rw [if_pos h1] at hm; cases hm
    · rw [if_neg h1] at hm
      have hb : b ∈ r.out := by
        by_cases h2 : b ∈ r.out
        · exact h2
        · exact absurd (Or.inr h2) h1
      obtain ⟨o1, o2, o3⟩ := h.outOwn r hcur b hb
      obtain ⟨n1, n2, n3⟩ := h.nodup r hcur
      cases ha : ask r.op with
      | none => exact absurd ha (h.asked r hcur (List.ne_nil_of_mem hb))
      | some k =>
        rw [ha] at hm
        simp only at hm
        have hkn : ∀ a, upd s.holds b (keeps k (s.holds b)) a = true → s.holds a = true ∧ (a = b → k ≠ .give) := by
          intro a hx
          rw [upd_true] at hx
          by_cases e : a = b
          · rw [if_pos e] at hx
            have := keeps_true hx
            exact ⟨by rw [e]; exact this.1, fun _ => this.2⟩
          · rw [if_neg e] at hx
            exact ⟨hx, fun h => absurd h e⟩
        cases hcc : c.ccix b with
        | none =>
          rw [hcc] at hm
          simp only at hm
          rw [if_pos (by simpa using o2 hcc)] at hm
          cases hm
          refine ⟨h.abort, fun a hx => ?_, fun q e => ?_, fun q e => ?_, fun q e => ?_, fun q e => ?_, fun q e => ?_, fun q e => ?_,
            fun q e => ?_⟩
          · obtain ⟨e1, e2⟩ := hkn a hx
            obtain ⟨d1, d2⟩ := h.known a e1
            refine ⟨?_, d2⟩
            show upd s.dir b _ a = true
            rw [upd_true]
            by_cases e : a = b
            · rw [if_pos e]
              have hx' : keeps k (s.holds b) = true := by
                have h3 : upd s.holds b (keeps k (s.holds b)) a = true := hx
                rw [upd_true, if_pos e] at h3; exact h3
              rw [e] at d1
              simp [d1, hx']
            · rw [if_neg e]; exact d1
          all_goals (cases e)
          · exact ⟨n1.erase _, n2, n3.erase _⟩
          · intro x hx
            have hx1 := (n1.mem_erase_iff.mp hx)
            obtain ⟨y1, y2⟩ := h.ownOut r hcur x hx1.2
            exact ⟨n3.mem_erase_iff.mpr ⟨hx1.1, y1⟩, y2⟩
          · intro p hp
            obtain ⟨x, x1, x2⟩ := h.portOut r hcur p hp
            exact ⟨x, n3.mem_erase_iff.mpr ⟨(fun e => by rw [e, hcc] at x2; cases x2), x1⟩, x2⟩
          · intro x hx
            have hx1 := n3.mem_erase_iff.mp hx
            obtain ⟨y1, y2, y3⟩ := h.outOwn r hcur x hx1.2
            exact ⟨y1, fun hn => n1.mem_erase_iff.mpr ⟨hx1.1, y2 hn⟩, y3⟩
          · intro _; show ask r.op ≠ none; rw [ha]; simp
          · exact h.src r hcur
          · intro hg x hne hx
            obtain ⟨e1, e2⟩ := hkn x hx
            have hg' : ask r.op = some .give := hg
            rw [ha] at hg'
            have hkg : k = .give := Option.some.inj hg'
            refine n3.mem_erase_iff.mpr ⟨fun e => e2 e hkg, h.others r hcur hg x hne e1⟩
        | some p =>
          rw [hcc] at hm
          simp only at hm
          rw [if_pos (by simpa using o3 p hcc)] at hm
          cases hm
          refine ⟨h.abort, fun a hx => ?_, fun q e => ?_, fun q e => ?_, fun q e => ?_, fun q e => ?_, fun q e => ?_, fun q e => ?_,
            fun q e => ?_⟩
          · obtain ⟨e1, e2⟩ := hkn a hx
            obtain ⟨d1, d2⟩ := h.known a e1
            refine ⟨?_, d2⟩
            show (if ¬ keeps k (s.holds b) = true ∧ c.ccix r.src = some p then upd s.dir r.src false else s.dir) a = true
            by_cases hif : ¬ keeps k (s.holds b) = true ∧ c.ccix r.src = some p
            · rw [if_pos hif, upd_true]
              have hsb : r.src = b := hc.single _ (h.src r hcur) _ o1 p hif.2 hcc
              by_cases e : a = r.src
              · exfalso
                have h3 : upd s.holds b (keeps k (s.holds b)) a = true := hx
                rw [upd_true, if_pos (e.trans hsb)] at h3
                exact hif.1 h3
              · rw [if_neg e]; exact d1
            · rw [if_neg hif]; exact d1
          all_goals (cases e)
          · exact ⟨n1, n2.erase _, n3.erase _⟩
          · intro x hx
            obtain ⟨y1, y2⟩ := h.ownOut r hcur x hx
            exact ⟨n3.mem_erase_iff.mpr ⟨(fun e => by rw [e, hcc] at y2; cases y2), y1⟩, y2⟩
          · intro q hq
            have hq1 := n2.mem_erase_iff.mp hq
            obtain ⟨x, x1, x2⟩ := h.portOut r hcur q hq1.2
            refine ⟨x, n3.mem_erase_iff.mpr ⟨fun e => ?_, x1⟩, x2⟩
            rw [e, hcc] at x2; cases x2; exact hq1.1 rfl
          · intro x hx
            have hx1 := n3.mem_erase_iff.mp hx
            obtain ⟨y1, y2, y3⟩ := h.outOwn r hcur x hx1.2
            refine ⟨y1, y2, fun q hq => n2.mem_erase_iff.mpr ⟨fun e => ?_, y3 q hq⟩⟩
            subst e
            exact hx1.1 (hc.single _ y1 _ o1 q hq hcc)
          · intro _; show ask r.op ≠ none; rw [ha]; simp
          · exact h.src r hcur
          · intro hg x hne hx
            obtain ⟨e1, e2⟩ := hkn x hx
            have hg' : ask r.op = some .give := hg
            rw [ha] at hg'
            have hkg : k = .give := Option.some.inj hg'
            refine n3.mem_erase_iff.mpr ⟨fun e => e2 e hkg, h.others r hcur hg x hne e1⟩

theorem done_inv {c : Cfg} {s s' : St} (h : Inv c s) (hm : s.move c .done = some s') : Inv c s' := by
  simp only [St.move] at hm
  cases hcur : s.cur with
  | none => rw [hcur] at hm; cases hm
  | some r =>
    rw [hcur] at hm
    simp only at hm
    by_cases h1 : s.abort = true ∨ ¬ (r.own = [] ∧ r.ports = [])
    · rw [if_pos h1] at hm; cases hm
    · rw [if_neg h1] at hm
      cases ha : after r.op <;> rw [ha] at hm <;> cases hm
      · refine ⟨h.abort, fun a hx => ?_, nofun, nofun, nofun, nofun, nofun, nofun, nofun⟩
        replace hx : upd s.holds r.src true a = true := hx
        rw [upd_true] at hx
        show upd s.dir r.src true a = true ∧ _
        rw [upd_true]
        by_cases e : a = r.src
        · rw [if_pos e, e]; exact ⟨rfl, h.src r hcur⟩
        · rw [if_neg e] at hx ⊢; exact h.known a hx
      · exact ⟨h.abort, h.known, nofun, nofun, nofun, nofun, nofun, nofun, nofun⟩
      · refine ⟨h.abort, fun a hx => ?_, nofun, nofun, nofun, nofun, nofun, nofun, nofun⟩
        replace hx : upd s.holds r.src false a = true := hx
        rw [upd_true] at hx
        show upd s.dir r.src false a = true ∧ _
        rw [upd_true]
        by_cases e : a = r.src
        · rw [if_pos e] at hx; cases hx
        · rw [if_neg e] at hx ⊢; exact h.known a hx

theorem drop_inv {c : Cfg} {s s' : St} {b : Nat} (h : Inv c s) (hm : s.move c (.drop b) = some s') : Inv c s' := by
  cases hm
  have hd : ∀ a, upd s.holds b false a = true → s.holds a = true := by
    intro a hx
    rw [upd_true] at hx
    by_cases e : a = b
    · rw [if_pos e] at hx; cases hx
    · rw [if_neg e] at hx; exact hx
  exact ⟨h.abort, fun a hx => h.known a (hd a hx), h.nodup, h.ownOut, h.portOut, h.outOwn, h.asked, h.src,
    fun r e hg b' hne hx => h.others r e hg b' hne (hd b' hx)⟩

theorem reach_inv {c : Cfg} (hc : OneEach c) {s : St} (h : Reach c s) : Inv c s := by
  induction h with
  | init => exact ⟨rfl, nofun, nofun, nofun, nofun, nofun, nofun, nofun, nofun⟩
  | step m _ hm ih =>
    cases m with
    | start op src me => exact start_inv hc ih hm
    | answer b => exact answer_inv hc ih hm
    | done => exact done_inv ih hm
    | drop b => exact drop_inv ih hm

/-- **C63 (the filter).** With one cache behind each CCIX port: every copy anywhere is
known to the home's filter. -/
theorem copies_known_partial {c : Cfg} (hc : OneEach c) {s : St} (h : Reach c s) : Known s :=
  fun a ha => ((reach_inv hc h).known a ha).1

/-- **C63 (all have answered).** With one cache behind each CCIX port: when a request
goes on, every cache that was sent a snoop has answered it; and when an exclusive one
is done, no cache but the requester's has a copy. -/
theorem exclusive_done_partial {c : Cfg} (hc : OneEach c) {s s' : St} {r : Cur} (h : Reach c s) (hr : s.cur = some r)
    (hd : s.move c .done = some s') :
    r.out = [] ∧ (exclusive r.op → ∀ b, b ≠ r.src → s'.holds b = false) := by
  have hi := reach_inv hc h
  have hout : r.own = [] ∧ r.ports = [] := by
    simp only [St.move, hr] at hd
    by_cases h1 : s.abort = true ∨ ¬ (r.own = [] ∧ r.ports = [])
    · rw [if_pos h1] at hd; cases hd
    · by_cases h2 : r.own = [] ∧ r.ports = []
      · exact h2
      · exact absurd (Or.inr h2) h1
  have he : r.out = [] := by
    cases ho : r.out with
    | nil => rfl
    | cons b l =>
      have hb : b ∈ r.out := by rw [ho]; simp
      obtain ⟨-, o2, o3⟩ := hi.outOwn r hr b hb
      cases hcc : c.ccix b with
      | none => have := o2 hcc; rw [hout.1] at this; cases this
      | some p => have := o3 p hcc; rw [hout.2] at this; cases this
  refine ⟨he, fun hx b hne => ?_⟩
  have tab : ∀ op : BitVec 8, exclusive op → ask op = some .give := by unfold exclusive; decide +kernel
  have hn : s.holds b = false := by
    cases hh : s.holds b with
    | false => rfl
    | true => have := hi.others r hr (tab _ hx) b hne hh; rw [he] at this; cases this
  simp only [St.move, hr, if_neg (show ¬ (s.abort = true ∨ ¬ (r.own = [] ∧ r.ports = [])) by
    rw [hi.abort]; simp [hout])] at hd
  cases ha : after r.op <;> rw [ha] at hd <;> cases hd
  · show upd s.holds r.src true b = false
    rw [upd_true, if_neg hne]; exact hn
  · exact hn
  · show upd s.holds r.src false b = false
    rw [upd_true, if_neg hne]; exact hn

/-- **C63 (the requester).** When a request that grants a copy is done, the filter has
the requester, so that it is snooped for the next. -/
theorem grant_known {c : Cfg} {s s' : St} {r : Cur} (hr : s.cur = some r) (hd : s.move c .done = some s') (hg : grants r.op) :
    s'.dir r.src = true := by
  have ha : after r.op = .copy := by
    have : ∀ op ∈ ([0x01, 0x02, 0x26, 0x07, 0x0B, 0x0C] : List (BitVec 8)), after op = .copy := by decide
    exact this _ hg
  simp only [St.move, hr, ha] at hd
  by_cases h1 : s.abort = true ∨ ¬ (r.own = [] ∧ r.ports = [])
  · rw [if_pos h1] at hd; cases hd
  · rw [if_neg h1] at hd
    injection hd with hd
    subst hd
    simp [upd_true]

example : grants 0x0C ∧ ¬ grants 0x08 := by decide

/-- **C63 (progress).** With one cache behind each CCIX port: no assertion fails, and a
request being served can go on: it is done, or any cache that has not yet answered
can. -/
theorem snoops_progress_partial {c : Cfg} (hc : OneEach c) {s : St} (h : Reach c s) :
    s.abort = false ∧ ∀ r, s.cur = some r →
      (r.out = [] → ∃ s', s.move c .done = some s') ∧
      ∀ b, b ∈ r.out → ∃ s' r', s.move c (.answer b) = some s' ∧ s'.cur = some r' ∧ r'.out = r.out.erase b := by
  have hi := reach_inv hc h
  refine ⟨hi.abort, fun r hr => ⟨fun he => ?_, fun b hb => ?_⟩⟩
  · have h1 : r.own = [] := by
      cases ho : r.own with
      | nil => rfl
      | cons b l => have := (hi.ownOut r hr b (by rw [ho]; simp)).1; rw [he] at this; cases this
    have h2 : r.ports = [] := by
      cases ho : r.ports with
      | nil => rfl
      | cons b l =>
        obtain ⟨x, hx, -⟩ := hi.portOut r hr b (by rw [ho]; simp)
        rw [he] at hx; cases hx
    simp only [St.move, hr, if_neg (show ¬ (s.abort = true ∨ ¬ (r.own = [] ∧ r.ports = [])) by
      rw [hi.abort]; simp [h1, h2])]
    cases after r.op <;> exact ⟨_, rfl⟩
  · obtain ⟨-, o2, o3⟩ := hi.outOwn r hr b hb
    simp only [St.move, hr, if_neg (show ¬ (s.abort = true ∨ ¬ b ∈ r.out) by rw [hi.abort]; simp [hb])]
    cases ha : ask r.op with
    | none => exact absurd ha (hi.asked r hr (List.ne_nil_of_mem hb))
    | some k =>
      simp only
      cases hcc : c.ccix b with
      | none => simp only; rw [if_pos (by simpa using o2 hcc)]; exact ⟨_, _, rfl, rfl, rfl⟩
      | some p => simp only; rw [if_pos (by simpa using o3 p hcc)]; exact ⟨_, _, rfl, rfl, rfl⟩

theorem Reach.runs {c : Cfg} {s s' : St} {ms : List Move} (h : Reach c s) (hr : s.runs c ms = some s') : Reach c s' := by
  induction ms generalizing s with
  | nil => cases hr; exact h
  | cons m ms ih =>
    simp only [St.runs] at hr
    cases hm : s.move c m with
    | none => rw [hm] at hr; cases hr
    | some t => rw [hm] at hr; exact ih (.step m h hm) hr

/-- A home with a cache of its own (0), one behind port 7 (1) and one behind port 8 (2). -/
def three : Cfg := ⟨[0, 1, 2], fun b => if b = 1 then some 7 else if b = 2 then some 8 else none⟩

/-- Both remote caches share the line, then the home's own makes it unique. -/
def shareThenUnique : List Move :=
  [.start 0x01 1 false, .done, .start 0x01 2 false, .answer 1, .done, .start 0x07 0 false, .answer 2]

example : OneEach three ∧ ∃ s r, Reach three s ∧ s.cur = some r ∧ exclusive r.op ∧ r.out = [1] ∧ s.holds 1 = true := by
  refine ⟨⟨by decide, ?_⟩, ?_⟩
  · intro a ha b hb p h1 h2
    simp only [three, List.mem_cons, List.not_mem_nil, or_false] at ha hb
    rcases ha with rfl | rfl | rfl <;> rcases hb with rfl | rfl | rfl <;> simp_all [three]
    all_goals omega
  · cases h : St.init.runs three shareThenUnique with
    | none => exact absurd (show (St.init.runs three shareThenUnique).isSome = true by decide) (by rw [h]; simp)
    | some s =>
      have h1 : (St.init.runs three shareThenUnique).map (fun s => (s.cur, s.holds 1)) =
        some (some ⟨0x07, 0, [], [7], [1]⟩, true) := by decide
      rw [h] at h1
      have h2 := Option.some.inj h1
      exact ⟨s, _, Reach.init.runs h, (Prod.mk.inj h2).1, by unfold exclusive; decide, rfl, (Prod.mk.inj h2).2⟩

/-! ### Two caches behind one port -/

/-- The same caches, both remote ones behind port 7. -/
def pair : Cfg := ⟨[0, 1, 2], fun b => if b = 1 ∨ b = 2 then some 7 else none⟩

/-- **C63 fault (not all have answered).** With two caches behind one port the home
goes on after the first answer: the request for a unique copy is done while the other
still has one (`/repo/tlm-modules/iconnect-chi.h` 2880-2887: one transaction for the
port, `/repo/tlm-modules/private/ccix/ccixport.h` 3703-3721: a snoop for each cache). -/
theorem second_copy_survives : ∃ s, Reach pair s ∧ s.cur = none ∧ s.holds 0 = true ∧ s.holds 2 = true ∧ s.abort = false := by
  have key : (St.init.runs pair [.start 0x01 1 false, .done, .start 0x01 2 false, .answer 1, .done,
      .start 0x07 0 false, .answer 1, .done]).map (fun s => (s.cur, s.holds 0, s.holds 2, s.abort)) =
      some (none, true, true, false) := by decide
  cases h : St.init.runs pair [.start 0x01 1 false, .done, .start 0x01 2 false, .answer 1, .done,
      .start 0x07 0 false, .answer 1, .done] with
  | none => rw [h] at key; cases key
  | some s => rw [h] at key; simp at key; exact ⟨s, Reach.init.runs h, key⟩

/-- **C63 fault (second answer).** The second answer fails an assertion. -/
theorem second_answer_aborts : ∃ s, Reach pair s ∧ s.abort = true := by
  have key : (St.init.runs pair [.start 0x01 1 false, .done, .start 0x01 2 false, .answer 1, .done,
      .start 0x07 0 false, .answer 1, .answer 2]).map (fun s => s.abort) = some true := by decide
  cases h : St.init.runs pair [.start 0x01 1 false, .done, .start 0x01 2 false, .answer 1, .done,
      .start 0x07 0 false, .answer 1, .answer 2] with
  | none => rw [h] at key; cases key
  | some s => rw [h] at key; simp at key; exact ⟨s, Reach.init.runs h, key⟩

/-- **C63 fault (filter).** The answer of one cache changes the filter entry of the
requester behind the same port: here a cache that has dropped its copy answers the
request to clean the line of one that has not, and that copy is no longer known. -/
theorem copy_forgotten : ∃ s, Reach pair s ∧ s.abort = false ∧ s.cur = none ∧ s.holds 2 = true ∧ s.dir 2 = false := by
  have key : (St.init.runs pair [.start 0x01 1 false, .done, .start 0x01 2 false, .answer 1, .done, .drop 1,
      .start 0x08 2 false, .answer 1, .done]).map (fun s => (s.abort, s.cur, s.holds 2, s.dir 2)) =
      some (false, none, true, false) := by decide
  cases h : St.init.runs pair [.start 0x01 1 false, .done, .start 0x01 2 false, .answer 1, .done, .drop 1,
      .start 0x08 2 false, .answer 1, .done] with
  | none => rw [h] at key; cases key
  | some s => rw [h] at key; simp at key; exact ⟨s, Reach.init.runs h, key⟩

/-- **C63 fault (own request).** A requester behind the same port is snooped for its
own request although it did not ask to be. -/
theorem requester_snooped : ∃ s r, Reach pair s ∧ s.cur = some r ∧ r.op = 0x0B ∧ r.src = 2 ∧ 2 ∈ r.out := by
  have key : (St.init.runs pair [.start 0x01 1 false, .done, .start 0x01 2 false, .answer 1, .done,
      .start 0x0B 2 false]).map (fun s => s.cur) = some (some ⟨0x0B, 2, [], [7], [1, 2]⟩) := by decide
  cases h : St.init.runs pair [.start 0x01 1 false, .done, .start 0x01 2 false, .answer 1, .done,
      .start 0x0B 2 false] with
  | none => rw [h] at key; cases key
  | some s => rw [h] at key; simp at key; exact ⟨s, _, Reach.init.runs h, key, rfl, rfl, by decide⟩

/-! ### The chip that answers -/

/-- **C63 (answers of a chip).** A chip with one request node gives that node's answer
to a snoop from the other chip, once. -/
theorem one_node_answers_partial (a : Ccix.SnpAns) : collect [a] = ([a], false) := rfl

/-- **C63 fault.** With two or more nodes on the chip the first answer to arrive stands
for the chip, and an assertion fails at the second, whatever they are. -/
theorem two_nodes_abort (a b : Ccix.SnpAns) (as : List Ccix.SnpAns) : collect (a :: b :: as) = ([a], true) := rfl

/-- **C63 fault.** If the node that answers first has no copy and another passes dirty
data, nothing sent to the home says so. -/
theorem dirty_data_lost (a b : Ccix.SnpAns) (as : List Ccix.SnpAns) (h : passesDirty a = false) (h' : keepsCopy a = false) :
    ∀ x ∈ (collect (a :: b :: as)).1, passesDirty x = false ∧ keepsCopy x = false := by
  intro x hx
  rw [two_nodes_abort] at hx
  rcases List.mem_singleton.mp hx with rfl
  exact ⟨h, h'⟩

example : passesDirty (.data 4) = true ∧ passesDirty (.resp 0) = false ∧ keepsCopy (.resp 0) = false ∧
    keepsCopy (.data 1) = true := by decide

end Verif.CcixSnoop
