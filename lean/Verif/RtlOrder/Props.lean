import Verif.RtlOrder.Keep

/-! # Responses of one ID go out in the order of their requests -/

namespace Verif.RtlOrder

open RtlFifo (Queue)

section
variable {ι : Type} [DecidableEq ι]

theorem inv_run (ins : List (In ι)) : ∀ {w : World ι} {q : Nat → Queue Nat} {f : Flight ι}, Inv w q f → AllPolite w ins → AllClean w ins →
    ∃ q' f', Inv (w.run ins) q' f' := by
  induction ins with
  | nil => intro w q f v _ _; exact ⟨q, f, v⟩
  | cons i t ih => intro w q f v p c; exact ih (inv_next v c.1 p.1) p.2 c.2

theorem prefix_of {w : World ι} {q : Nat → Queue Nat} {f : Flight ι} (v : Inv w q f) (x : ι) : ofId x w.sent <+: ofId x w.acc := by
  by_cases h : ∃ j, (q j).items ≠ [] ∧ w.s.ids j = some x
  · obtain ⟨j, hj, hx⟩ := h
    rw [v.held.ordQ j x hj hx, List.append_assoc]
    exact List.prefix_append _ _
  · rw [v.held.ordE x fun j hj hx => h ⟨j, hj, hx⟩]
    exact List.prefix_append _ _

/-- For every ID the responses which have gone out are those of the first
requests accepted with that ID, in that order.  Partial: the early output of
a FIFO just written must not be taken for another descriptor
(`stale_head_breaks_order`). -/
theorem in_order_partial (ins : List (In ι)) (p : AllPolite World.start ins) (c : AllClean World.start ins) (x : ι) :
    ofId x (World.start.run ins).sent <+: ofId x (World.start.run ins).acc := by
  obtain ⟨q, f, v⟩ := inv_run ins inv_start p c
  exact prefix_of v x

/-- A response goes out only for a request software has answered, and once for
each.  Partial: as `in_order_partial`. -/
theorem answered_once_partial (ins : List (In ι)) (p : AllPolite World.start ins) (c : AllClean World.start ins) (d : Nat) (hd : d < 16) :
    uses (World.start.run ins).sent d ≤ (World.start.run ins).asked.count d ∧
    (World.start.run ins).asked.count d ≤ uses (World.start.run ins).acc d := by
  obtain ⟨q, f, v⟩ := inv_run ins inv_start p c
  generalize World.start.run ins = w at v
  have ha := v.asked d hd
  cases hr : w.s.req d
  · rw [hr] at ha
    simp only [Bool.false_eq_true, if_false] at ha
    refine ⟨by omega, ?_⟩
    by_cases h : (∃ j, d ∈ (q j).items) ∨ ∃ t x, f = some (t, d, x)
    · rcases h with ⟨j, h⟩ | ⟨t, x, h⟩
      · have := v.held.inside j d h; omega
      · have := (v.held.fly t d x h).2.2.2.2.2.2; omega
    · have := v.held.outside d (fun j hj => h (.inl ⟨j, hj⟩)) (fun t x hx => h (.inr ⟨t, x, hx⟩))
      omega
  · rw [hr] at ha
    simp only [if_true] at ha
    obtain ⟨j, hj⟩ := v.req d hd hr
    have := v.held.inside j d hj
    omega

/-- The index of the response is what the queue of responses gets, one cycle
later.  Partial: as `in_order_partial`. -/
theorem handed_on_partial (ins : List (In ι)) (i : In ι) (p : AllPolite World.start ins) (c : AllClean World.start ins) :
    (World.start.run ins).sends.map (·.1) = ((World.start.run ins).next i).s.out.toList := by
  obtain ⟨q, f, v⟩ := inv_run ins inv_start p c
  generalize World.start.run ins = w at v
  show w.sends.map (·.1) = (if any w.s.rden then some w.s.sig else none).toList
  rcases v.ser with ⟨_, hr, _⟩ | ⟨d, j, _, hr, hs, hh, _⟩
  · have : ¬ any w.s.rden = true := by simp [any_iff, hr]
    simp [World.sends, this]
  · have hne : (q j).items ≠ [] := by intro hc; rw [hc] at hh; cases hh
    obtain ⟨x, hx⟩ := v.held.idsome j hne
    have hl := v.held.lab j d x (List.mem_of_mem_head? hh) hx
    have : any w.s.rden = true := any_iff.2 ⟨j, v.held.lt j hne, by simp [hr]⟩
    unfold World.sends
    unfold lastOf at hl
    rw [if_pos this, if_pos this, hs, hl]
    rfl

/-! ## Nothing waits for ever -/

/-- A descriptor answered by software is at the head of its FIFO. -/
def Ripe (w : World ι) (q : Nat → Queue Nat) : Prop := ∃ d j, w.s.req d = true ∧ (q j).items.head? = some d

def serving (w : World ι) : Bool := any w.s.ser

def reqs (w : World ι) : Nat := (List.range 16).countP w.s.req

def fresh (w : World ι) : Nat := (List.range 16).countP fun k => w.s.req k && !w.s.fail k

/-- The descriptor looked for was not found before. -/
def again (w : World ι) : Nat :=
  match lowest w.s.proc with
  | none => 1
  | some d => if w.s.fail d then 2 else 0

def rank (w : World ι) : Nat := 100 * reqs w + if serving w then 0 else 1 + 4 * fresh w + again w

theorem countP_lt {p p' : Nat → Bool} : ∀ {l : List Nat} {a : Nat}, (∀ b, p' b = true → p b = true) → a ∈ l → p a = true → p' a = false →
    l.countP p' < l.countP p := by
  intro l
  induction l with
  | nil => intro a _ h; cases h
  | cons b t ih =>
    intro a hp ha h1 h2
    have hle : t.countP p' ≤ t.countP p := List.countP_mono_left fun c _ => hp c
    rcases List.mem_cons.1 ha with rfl | ha
    · rw [List.countP_cons, List.countP_cons, h1, h2]
      simp only [Bool.false_eq_true, if_false, if_true]
      omega
    · have := ih hp ha h1 h2
      rw [List.countP_cons, List.countP_cons]
      cases hb : p' b
      · simp only [Bool.false_eq_true, if_false]
        split <;> omega
      · rw [hp b hb]
        simp only [if_true]
        omega

theorem countP_le_16 (p : Nat → Bool) : (List.range 16).countP p ≤ 16 := by
  have := List.countP_le_length (p := p) (l := List.range 16)
  simpa using this

omit [DecidableEq ι] in
theorem again_le (w : World ι) : again w ≤ 2 := by
  unfold again
  split
  · omega
  · split <;> omega

omit [DecidableEq ι] in
theorem rank_le (w : World ι) : rank w ≤ 1667 := by
  have h1 : reqs w ≤ 16 := countP_le_16 _
  have h2 : fresh w ≤ 16 := countP_le_16 _
  have h3 := again_le w
  unfold rank
  split <;> omega

omit [DecidableEq ι] in
theorem req_quiet (w : World ι) (k : Nat) : reqNext w.s (In.quiet : In ι) k = (!w.s.ser k && w.s.req k) := by
  unfold reqNext In.quiet
  cases w.s.ser k <;> simp

omit [DecidableEq ι] in
theorem quiet_polite (w : World ι) : Polite w In.quiet where
  alc := by intro d x h; cases h
  init := by intro d _ h; cases h

/-- One cycle brings the next response nearer. -/
theorem rank_lt {w : World ι} {q : Nat → Queue Nat} {f : Flight ι} (v : Inv w q f) (hR : Ripe w q) :
    rank (w.next In.quiet) < rank w := by
  have hreqn : (w.next In.quiet).s.req = fun k => !w.s.ser k && w.s.req k := by
    funext k; exact req_quiet w k
  rcases v.ser with ⟨hs, hr, hf⟩ | ⟨e, j, hs, _, _, hh, hre⟩
  · have ha : any w.s.ser = false := any_false.2 fun k _ => hs k
    have hreq : (w.next In.quiet).s.req = w.s.req := by
      rw [hreqn]; funext k; simp [hs]
    obtain ⟨h, j, h1, h2⟩ := hR
    have h16 : h < 16 := v.held.el j h (List.mem_of_mem_head? h2)
    have hfh : w.s.fail h = false := by
      cases hc : w.s.fail h
      · rfl
      · exact absurd h2 (hf h hc j)
    have hreqs : reqs (w.next In.quiet) = reqs w := by unfold reqs; rw [hreq]
    have hproc : ∀ k, (w.next In.quiet).s.proc k = (!w.s.fail k && w.s.req k) := by
      intro k
      show procNext w.s k = _
      unfold procNext
      rw [hs]
      cases w.s.fail k <;> simp
    have hrank : rank w = 100 * reqs w + (1 + 4 * fresh w + again w) := by
      unfold rank serving
      rw [ha]
      rfl
    rw [hrank]
    by_cases hser : serving (w.next In.quiet) = true
    · unfold rank
      rw [hser, hreqs, if_pos rfl]
      omega
    · unfold rank
      rw [if_neg hser, hreqs]
      -- not found
      have nonempty : ∀ d, lowest (w.next In.quiet).s.proc = some d → w.s.fail d = false := by
        intro d hd
        have := (lowest_some hd).2
        rw [hproc] at this
        simp only [Bool.and_eq_true, Bool.not_eq_true'] at this
        exact this.1
      have some' : lowest (w.next In.quiet).s.proc ≠ none := by
        intro hc
        have := lowest_none hc h h16
        rw [hproc, hfh, h1] at this
        cases this
      cases hl : lowest w.s.proc with
      | none =>
        have hfail : (w.next In.quiet).s.fail = w.s.fail := by
          show failNext w.s = _
          simp [failNext, ha, hl]
        have hfr : fresh (w.next In.quiet) = fresh w := by unfold fresh; rw [hreq, hfail]
        have h3 : again w = 1 := by simp [again, hl]
        have h4 : again (w.next In.quiet) = 0 := by
          unfold again
          cases hd : lowest (w.next In.quiet).s.proc with
          | none => exact absurd hd some'
          | some d =>
            dsimp only
            rw [hfail, nonempty d hd]
            rfl
        omega
      | some d =>
        obtain ⟨hd16, hdp⟩ := lowest_some hl
        have hno : any (hit w.s d) = false := by
          cases hc : any (hit w.s d)
          · rfl
          · refine absurd (any_iff.2 ⟨d, hd16, ?_⟩) hser
            show serNext w.s d = true
            simp [serNext, ha, hl, hc]
        have hfail : ∀ k, (w.next In.quiet).s.fail k = (w.s.fail k || decide (k = d)) := by
          intro k
          show failNext w.s k = _
          have : any (fun j => !hit w.s d j) = true := any_iff.2 ⟨0, by omega, by rw [any_false.1 hno 0 (by omega)]; rfl⟩
          simp [failNext, ha, hl, this]
        cases hfd : w.s.fail d
        · have hlt : fresh (w.next In.quiet) < fresh w := by
            unfold fresh
            rw [hreq]
            refine countP_lt (a := d) ?_ (List.mem_range.2 hd16) ?_ ?_
            · intro b hb
              simp only [hfail, Bool.and_eq_true, Bool.not_eq_true', Bool.or_eq_false_iff] at hb ⊢
              exact ⟨hb.1, hb.2.1⟩
            · simp [hfd, v.proc d hdp]
            · simp [hfail]
          have := again_le (w.next In.quiet)
          omega
        · have hfail' : (w.next In.quiet).s.fail = w.s.fail := by
            funext k
            rw [hfail]
            by_cases hk : k = d
            · rw [hk, hfd]; rfl
            · simp [hk]
          have hfr : fresh (w.next In.quiet) = fresh w := by unfold fresh; rw [hreq, hfail']
          have h3 : again w = 2 := by simp [again, hl, hfd]
          have h4 : again (w.next In.quiet) = 0 := by
            unfold again
            cases hd : lowest (w.next In.quiet).s.proc with
            | none => exact absurd hd some'
            | some e =>
              dsimp only
              rw [hfail', nonempty e hd]
              rfl
          omega
  · have he : e < 16 := v.held.el j e (List.mem_of_mem_head? hh)
    have ha : serving w = true := any_iff.2 ⟨e, he, by simp [hs]⟩
    have hlt : reqs (w.next In.quiet) < reqs w := by
      unfold reqs
      rw [hreqn]
      refine countP_lt (a := e) ?_ (List.mem_range.2 he) hre ?_
      · intro b hb
        simp only [Bool.and_eq_true] at hb
        exact hb.2
      · simp [hs]
    have h2 : fresh (w.next In.quiet) ≤ 16 := countP_le_16 _
    have h3 := again_le (w.next In.quiet)
    unfold rank
    rw [ha, if_pos rfl]
    split <;> omega

/-- When nothing is ripe, nothing becomes ripe by itself. -/
theorem unripe_next {w : World ι} {q : Nat → Queue Nat} {f : Flight ι} (v : Inv w q f) (hR : ¬ Ripe w q) :
    ¬ Ripe (w.next In.quiet) (qNext w.s q) := by
  rintro ⟨d, j, h1, h2⟩
  have h1 : reqNext w.s (In.quiet : In ι) d = true := h1
  rw [req_quiet] at h1
  simp only [Bool.and_eq_true, Bool.not_eq_true'] at h1
  rcases v.ser with ⟨_, hr, _⟩ | ⟨e, k, _, _, _, hh, hre⟩
  · rcases head_next v hr h2 with h | ⟨h, rfl⟩
    · exact hR ⟨d, j, h1.2, h⟩
    · obtain ⟨_, hlt, _⟩ := not_in_flight v (k := 0) h
      obtain ⟨l, hl⟩ := v.req _ hlt h1.2
      exact (not_in_flight v h).1 hl
  · exact hR ⟨e, k, hre, hh⟩

theorem settles (n : Nat) : ∀ {w : World ι} {q : Nat → Queue Nat} {f : Flight ι}, Inv w q f → AllClean w (List.replicate n In.quiet) →
    (Ripe w q → rank w < n) → ∃ q' f', Inv (w.run (List.replicate n In.quiet)) q' f' ∧ ¬ Ripe (w.run (List.replicate n In.quiet)) q' := by
  induction n with
  | zero => intro w q f v _ h; exact ⟨q, f, v, fun hR => absurd (h hR) (by omega)⟩
  | succ n ih =>
    intro w q f v c h
    rw [List.replicate_succ] at c ⊢
    refine ih (inv_next v c.1 (quiet_polite w)) c.2 fun hR => ?_
    have hw : Ripe w q := Classical.byContradiction fun hc => unripe_next v hc hR
    have h1 := rank_lt v hw
    have h2 := h hw
    omega

theorem allClean_append (a b : List (In ι)) : ∀ {w : World ι}, AllClean w (a ++ b) → AllClean w a ∧ AllClean (w.run a) b := by
  induction a with
  | nil =>
    intro w h
    refine ⟨?_, h⟩
    cases b with
    | nil => exact h
    | cons i t => exact h.1
  | cons i t ih =>
    intro w h
    obtain ⟨h1, h2⟩ := ih h.2
    exact ⟨⟨h.1, h1⟩, h2⟩

theorem run_append (a b : List (In ι)) : ∀ (w : World ι), w.run (a ++ b) = (w.run a).run b := by
  induction a with
  | nil => intro w; rfl
  | cons i t ih => intro w; exact ih _

/-- When nothing has come for 1700 cycles or more, the oldest request of each ID
without a response is one which software has not answered.  Partial: as
`in_order_partial`. -/
theorem answered_leave_partial (ins : List (In ι)) (n : Nat) (hn : 1700 ≤ n) (p : AllPolite World.start ins)
    (c : AllClean World.start (ins ++ List.replicate n In.quiet)) (d : Nat) (x : ι) (r : List (Nat × ι))
    (h : ofId x (World.start.run (ins ++ List.replicate n In.quiet)).acc =
      ofId x (World.start.run (ins ++ List.replicate n In.quiet)).sent ++ (d, x) :: r) :
    (World.start.run (ins ++ List.replicate n In.quiet)).asked.count d =
      uses (World.start.run (ins ++ List.replicate n In.quiet)).sent d := by
  obtain ⟨c1, c2⟩ := allClean_append _ _ c
  obtain ⟨q, f, v⟩ := inv_run ins inv_start p c1
  obtain ⟨q', f', v', hR⟩ := settles n v c2 (fun _ => by have := rank_le (World.start.run ins : World ι); omega)
  rw [run_append] at h ⊢
  generalize (World.start.run ins).run (List.replicate n In.quiet) = w at v' hR h ⊢
  have key : d < 16 ∧ ((∃ j, (q' j).items.head? = some d) ∨ ∀ j, d ∉ (q' j).items) := by
    by_cases hex : ∃ j, (q' j).items ≠ [] ∧ w.s.ids j = some x
    · obtain ⟨j, hj, hx⟩ := hex
      rw [v'.held.ordQ j x hj hx, List.append_assoc] at h
      have h := List.append_cancel_left h
      cases hq : (q' j).items with
      | nil => exact absurd hq hj
      | cons a t =>
        rw [hq] at h
        simp only [List.map_cons, List.cons_append, List.cons.injEq, Prod.mk.injEq] at h
        have hd : a = d := h.1.1
        subst hd
        exact ⟨v'.held.el j a (by rw [hq]; simp), .inl ⟨j, by rw [hq]; rfl⟩⟩
    · rw [v'.held.ordE x fun j hj hx => hex ⟨j, hj, hx⟩] at h
      have h := List.append_cancel_left h
      cases hf : f' with
      | none => rw [hf] at h; simp [flightOf] at h
      | some t =>
        obtain ⟨t, e, y⟩ := t
        rw [hf] at h
        simp only [flightOf] at h
        split at h
        · cases h
          have := v'.held.fly _ _ _ hf
          exact ⟨this.2.2.2.1, .inr this.2.2.2.2.1⟩
        · cases h
  obtain ⟨hd, hk⟩ := key
  rw [v'.asked d hd]
  cases hr : w.s.req d
  · rfl
  · exfalso
    rcases hk with ⟨j, hj⟩ | hk
    · exact hR ⟨d, j, hr, hj⟩
    · obtain ⟨j, hj⟩ := v'.req d hd hr
      exact hk j hj

/-! ## One ID -/

/-- All requests have one ID. -/
structure OneId (x : ι) (w : World ι) (q : Nat → Queue Nat) : Prop where
  ids : ∀ j y, w.s.ids j = some y → y = x
  fill : ∀ d y, w.s.stage = .fill d y → y = x
  just : ∀ j, w.just j = true → (q j).items ≠ []

theorem one_clean {x : ι} {w : World ι} {q : Nat → Queue Nat} {f : Flight ι} (v : Inv w q f) (o : OneId x w q) : Clean w := by
  intro j _ hj d hl hp
  have hq := o.just j hj
  obtain ⟨hd, hpr⟩ := lowest_some hl
  obtain ⟨k, hk⟩ := v.req d hd (v.proc d hpr)
  have hk' : (q k).items ≠ [] := List.ne_nil_of_mem hk
  obtain ⟨y, hy⟩ := v.held.idsome j hq
  obtain ⟨z, hz⟩ := v.held.idsome k hk'
  have hjk : j = k := v.held.idne j k hq hk' (by rw [hy, hz, o.ids _ _ hy, o.ids _ _ hz])
  subst hjk
  have hrd : RtlFifo.slot fc (w.s.fifo j) 0 = (w.s.fifo j).rd := Nat.mod_eq_of_lt (v.fifo j).rd
  have h0 := (v.fifo j).items 0 d
  rw [hrd] at h0
  refine h0 ?_
  rcases v.pre j hq with h | ⟨_, y, hy, _⟩
  · rw [← List.head?_eq_getElem?, ← h, hp]
  · rw [hy] at hk ⊢
    rw [List.mem_singleton.1 hk]
    rfl

theorem one_next {x : ι} {w : World ι} {q : Nat → Queue Nat} {f : Flight ι} (v : Inv w q f) (o : OneId x w q) {i : In ι}
    (h : ∀ d y, i.alc = some (d, y) → y = x) : OneId x (w.next i) (qNext w.s q) where
  ids := by
    intro j y hy
    have hy : idsNext w.s j = some y := hy
    cases hst : w.s.stage with
    | idle => simp only [idsNext, hst] at hy; exact o.ids j y hy
    | done => simp only [idsNext, hst] at hy; exact o.ids j y hy
    | fill d z =>
      simp only [idsNext, hst] at hy
      split at hy
      · exact o.ids j y hy
      · dsimp only at hy
        split at hy
        · cases hy; exact o.fill d _ hst
        · exact o.ids j y hy
  fill := by
    intro d y hy
    have hy : stageNext w.s i = .fill d y := hy
    unfold stageNext at hy
    split at hy
    · split at hy
      · rename_i e z ha
        cases hy
        exact h d y ha
      · cases hy
    · cases hy
    · cases hy
  just := by
    intro j hj
    have hj : w.s.wren j = true := hj
    rw [items_next _ _ _ (room v j), hj]
    simp

theorem one_run {x : ι} (ins : List (In ι)) : ∀ {w : World ι} {q : Nat → Queue Nat} {f : Flight ι}, Inv w q f → OneId x w q →
    (∀ i ∈ ins, ∀ d y, i.alc = some (d, y) → y = x) → AllPolite w ins → AllClean w ins := by
  induction ins with
  | nil => intro w q f v o _ _; exact one_clean v o
  | cons i t ih =>
    intro w q f v o h p
    have c := one_clean v o
    exact ⟨c, ih (inv_next v c p.1) (one_next v o (h i (List.mem_cons_self ..))) (fun i' hi => h i' (List.mem_cons_of_mem _ hi)) p.2⟩

theorem one_start (x : ι) : OneId x World.start (fun _ => ⟨[], none⟩) where
  ids := by intro j y h; cases h
  fill := by intro d y h; cases h
  just := by intro j h; cases h

theorem allPolite_quiet (ins : List (In ι)) (n : Nat) : ∀ {w : World ι}, AllPolite w ins → AllPolite w (ins ++ List.replicate n In.quiet) := by
  induction ins with
  | nil =>
    induction n with
    | zero => intro w _; exact trivial
    | succ n ih => intro w _; exact ⟨quiet_polite w, ih trivial⟩
  | cons i t ih => intro w h; exact ⟨h.1, ih h.2⟩

/-- With one ID, as on AXI4-Lite, nothing is left to assume about the FIFOs:
responses go out in the order of the requests. -/
theorem in_order_one_id (ins : List (In ι)) (x : ι) (h : ∀ i ∈ ins, ∀ d y, i.alc = some (d, y) → y = x) (p : AllPolite World.start ins) :
    ofId x (World.start.run ins).sent <+: ofId x (World.start.run ins).acc :=
  in_order_partial ins p (one_run ins inv_start (one_start x) h p) x

/-- With one ID the oldest request without a response is, when nothing has
come for 1700 cycles or more, one software has not answered. -/
theorem answered_leave_one_id (ins : List (In ι)) (n : Nat) (hn : 1700 ≤ n) (x : ι) (h : ∀ i ∈ ins, ∀ d y, i.alc = some (d, y) → y = x) (p : AllPolite World.start ins)
    (d : Nat) (r : List (Nat × ι))
    (hh : ofId x (World.start.run (ins ++ List.replicate n In.quiet)).acc =
      ofId x (World.start.run (ins ++ List.replicate n In.quiet)).sent ++ (d, x) :: r) :
    (World.start.run (ins ++ List.replicate n In.quiet)).asked.count d =
      uses (World.start.run (ins ++ List.replicate n In.quiet)).sent d := by
  refine answered_leave_partial ins n hn p (one_run _ inv_start (one_start x) ?_ (allPolite_quiet ins _ p)) d x r hh
  intro i hi e y ha
  rcases List.mem_append.1 hi with hi | hi
  · exact h i hi e y ha
  · rw [(List.mem_replicate.1 hi).2] at ha
    cases ha

end

end Verif.RtlOrder
