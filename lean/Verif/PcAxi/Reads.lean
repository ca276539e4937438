import Verif.PcAxi.Model

/-! # C47: reads under the protocol checker -/

namespace Verif.PcAxi

/-! ## Specification

Each identifier is a channel of its own: the bursts asked for with it are answered in order, each with
as many beats as asked for, `RLAST` on the last one, and no error (`EXOKAY` only for exclusive reads). -/

inductive RdEv
  | ar (a : Ar)
  | r (r : R)
  deriving DecidableEq, Repr

def RdEv.id : RdEv → Nat
  | .ar a => a.id
  | .r x => x.id

/-- What one identifier may see, with the bursts outstanding (beats left, exclusive), oldest first. -/
def Legal : List (Nat × Bool) → List RdEv → Prop
  | _, [] => True
  | q, .ar a :: t => Legal (q ++ [(a.len + 1, a.excl)]) t
  | [], .r _ :: _ => False
  | (n, ex) :: q, .r r :: t =>
    (r.last = true ↔ n = 1) ∧ (r.resp = 0 ∨ (ex = true ∧ r.resp = 1)) ∧
      Legal (if n = 1 then q else (n - 1, ex) :: q) t

/-- The handshakes of a trace, in order; an address comes before a beat of the same cycle. -/
def events : List RdCycle → List RdEv
  | [] => []
  | .reset :: t => events t
  | .clk ar r :: t => ar.toList.map .ar ++ r.toList.map .r ++ events t

def isAr : RdEv → Bool
  | .ar _ => true
  | _ => false

def isLast : RdEv → Bool
  | .r r => r.last
  | _ => false

/-- Never more than `depth` bursts outstanding. -/
def Within (depth : Nat) (evs : List RdEv) : Prop :=
  ∀ pre, pre <+: evs → pre.countP isAr ≤ pre.countP isLast + depth

/-! ## Proof -/

def evStep (c : RdCfg) (l : List RTx) : RdEv → List RTx × List RErr
  | .ar a => (rdAr c l a, [])
  | .r r => rdR c l r

def evRun (c : RdCfg) : List RTx → List RdEv → List RErr
  | _, [] => []
  | l, e :: t => (evStep c l e).2 ++ evRun c (evStep c l e).1 t

theorem rdRun_events (c : RdCfg) (l : List RTx) (tr : List RdCycle) (hr : RdCycle.reset ∉ tr) :
    (rdRun c l tr).2 = evRun c l (events tr) := by
  induction tr generalizing l with
  | nil => rfl
  | cons x t ih =>
    have ih' := fun l => ih l (fun h => hr (List.mem_cons_of_mem _ h))
    cases x with
    | reset => exact absurd (List.mem_cons_self ..) hr
    | clk ar r =>
      cases ar <;> cases r <;> simp [rdRun, rdStep, events, evRun, evStep, ih']

theorem filter_updFirst_same (id : Nat) (f : RTx → Option RTx) (hf : ∀ t t', f t = some t' → t.id = id → t'.id = id)
    (l : List RTx) :
    (updFirst id f l).filter (fun t => t.id = id) =
      match l.filter (fun t => t.id = id) with
      | [] => []
      | t :: r => (f t).toList ++ r := by
  induction l with
  | nil => rfl
  | cons t l ih =>
    unfold updFirst
    by_cases c : t.id = id
    · rw [if_pos c]
      cases h : f t with
      | none => simp [c, h]
      | some t' => simp [c, h, hf t t' h c]
    · rw [if_neg c]
      simp [c, ih]

theorem filter_updFirst_other (id id' : Nat) (hne : id' ≠ id) (f : RTx → Option RTx)
    (hf : ∀ t t', f t = some t' → t.id = id → t'.id = id) (l : List RTx) :
    (updFirst id f l).filter (fun t => t.id = id') = l.filter (fun t => t.id = id') := by
  induction l with
  | nil => rfl
  | cons t l ih =>
    unfold updFirst
    by_cases c : t.id = id
    · rw [if_pos c]
      have n1 : ¬ t.id = id' := fun h => hne (h.symm.trans c)
      cases h : f t with
      | none => simp [n1]
      | some t' =>
        have n2 : ¬ t'.id = id' := fun h' => hne (h'.symm.trans (hf t t' h c))
        simp [n1, n2]
    · rw [if_neg c]
      by_cases c' : t.id = id' <;> simp [c', ih]

theorem length_updFirst (id : Nat) (f : RTx → Option RTx) (l : List RTx) (t : RTx)
    (h : l.find? (fun t => t.id = id) = some t) :
    (updFirst id f l).length + 1 = l.length + (f t).toList.length := by
  induction l with
  | nil => simp at h
  | cons u l ih =>
    unfold updFirst
    by_cases c : u.id = id
    · rw [if_pos c]
      have : u = t := by simpa [c] using h
      subst this
      cases f u <;> simp
    · rw [if_neg c]
      have := ih (by simpa [c] using h)
      simp only [List.length_cons]
      omega

/-- The checker's list, seen per identifier. -/
def Rel (l : List RTx) (q : Nat → List (Nat × Bool)) : Prop :=
  ∀ id, (l.filter (fun t => t.id = id)) = (q id).map (fun x => (⟨id, (x.1 : Int), x.2⟩ : RTx)) ∧
    ∀ x ∈ q id, 0 < x.1

def qAr (q : Nat → List (Nat × Bool)) (a : Ar) : Nat → List (Nat × Bool) :=
  fun id => if id = a.id then q id ++ [(a.len + 1, a.excl)] else q id

theorem Rel.ar {l q} (h : Rel l q) (a : Ar) : Rel (l ++ [⟨a.id, a.len + 1, a.excl⟩]) (qAr q a) := by
  intro id
  obtain ⟨h1, h2⟩ := h id
  unfold qAr
  by_cases c : id = a.id
  · rw [if_pos c]
    subst c
    constructor
    · simp [h1]
    · intro x hx
      rcases List.mem_append.mp hx with hx | hx
      · exact h2 x hx
      · rw [List.mem_singleton.mp hx]; exact Nat.succ_pos _
  · rw [if_neg c]
    have : ¬ a.id = id := fun e => c e.symm
    exact ⟨by simp [h1, this], h2⟩

def qR (q : Nat → List (Nat × Bool)) (i : Nat) (n : Nat) (ex : Bool) (rest : List (Nat × Bool)) :
    Nat → List (Nat × Bool) :=
  fun id => if id = i then (if n = 1 then rest else (n - 1, ex) :: rest) else q id

theorem Rel.r {l q} (h : Rel l q) (r : R) {n : Nat} {ex : Bool} {rest : List (Nat × Bool)}
    (hq : q r.id = (n, ex) :: rest) (hl : r.last = true ↔ n = 1) :
    Rel (updFirst r.id (fun _ => if r.last then none else some ⟨r.id, (n : Int) - 1, ex⟩) l)
      (qR q r.id n ex rest) := by
  have hf : ∀ t t' : RTx, (if r.last then none else some (⟨r.id, (n : Int) - 1, ex⟩ : RTx)) = some t' →
      t.id = r.id → t'.id = r.id := by
    intro t t' e _
    split at e
    · cases e
    · cases e; rfl
  have hn : 0 < n := (h r.id).2 (n, ex) (by rw [hq]; exact List.mem_cons_self ..)
  intro id
  obtain ⟨h1, h2⟩ := h id
  unfold qR
  by_cases c : id = r.id
  · subst c
    rw [if_pos rfl, filter_updFirst_same _ _ hf, h1, hq]
    simp only [List.map_cons]
    by_cases c1 : n = 1
    · have : r.last = true := hl.mpr c1
      simp only [this, if_true, if_pos c1]
      exact ⟨rfl, fun x hx => h2 x (by rw [hq]; exact List.mem_cons_of_mem _ hx)⟩
    · have : r.last = false := by
        cases e : r.last
        · rfl
        · exact absurd (hl.mp e) c1
      simp only [this, Bool.false_eq_true, if_false, if_neg c1]
      refine ⟨?_, ?_⟩
      · simp only [Option.toList, List.map_cons, List.cons_append, List.nil_append]
        congr 2
        omega
      · intro x hx
        rcases List.mem_cons.mp hx with rfl | hx
        · show 0 < n - 1; omega
        · exact h2 x (by rw [hq]; exact List.mem_cons_of_mem _ hx)
  · rw [if_neg c, filter_updFirst_other _ _ c _ hf]
    exact ⟨h1, h2⟩

theorem updFirst_congr (id : Nat) (f g : RTx → Option RTx) (l : List RTx) (t : RTx)
    (h : l.find? (fun t => t.id = id) = some t) (e : f t = g t) : updFirst id f l = updFirst id g l := by
  induction l with
  | nil => rfl
  | cons u l ih =>
    unfold updFirst
    by_cases c : u.id = id
    · have : u = t := by simpa [c] using h
      subst this
      rw [if_pos c, if_pos c, e]
    · rw [if_neg c, if_neg c, ih (by simpa [c] using h)]

theorem respOk_iff (ex : Bool) (resp : Nat) : respOk ex resp = true ↔ (resp = 0 ∨ (ex = true ∧ resp = 1)) := by
  unfold respOk
  cases ex <;> simp <;> omega

theorem Legal.congr_filter {evs : List RdEv} {q : List (Nat × Bool)} (e : RdEv) (id : Nat) (h : e.id ≠ id) :
    Legal q ((e :: evs).filter (fun e => e.id = id)) ↔ Legal q (evs.filter (fun e => e.id = id)) := by
  simp [h]

theorem evRun_iff (c : RdCfg) (h1 : c.respCheck = true) (h2 : c.orderCheck = true) (evs : List RdEv)
    (l : List RTx) (q : Nat → List (Nat × Bool)) (hR : Rel l q)
    (hd : ∀ pre, pre <+: evs → l.length + pre.countP isAr ≤ pre.countP isLast + c.depth) :
    evRun c l evs = [] ↔ ∀ id, Legal (q id) (evs.filter (fun e => e.id = id)) := by
  induction evs generalizing l q with
  | nil => simp [evRun, Legal]
  | cons e t ih =>
    cases e with
    | ar a =>
      have hlt : l.length < c.depth := by
        have := hd [.ar a] (List.prefix_cons_inj _ |>.mpr (List.nil_prefix))
        simp [isAr, isLast] at this
        omega
      have hst : (evStep c l (.ar a)) = (l ++ [⟨a.id, a.len + 1, a.excl⟩], []) := by
        simp [evStep, rdAr, hlt]
      unfold evRun
      rw [hst]
      rw [List.nil_append, ih _ _ (hR.ar a)]
      · constructor <;> intro hh id <;> have := hh id <;> unfold qAr at * <;> by_cases c' : id = a.id
        · subst c'; simpa [RdEv.id, Legal] using this
        · have n' : ¬ a.id = id := fun e => c' e.symm
          simpa [RdEv.id, c', n'] using this
        · subst c'; simpa [RdEv.id, Legal] using this
        · have n' : ¬ a.id = id := fun e => c' e.symm
          simpa [RdEv.id, c', n'] using this
      · intro pre hp
        have := hd (.ar a :: pre) (List.prefix_cons_inj _ |>.mpr hp)
        simp [List.countP_cons, isAr, isLast] at this ⊢
        omega
    | r r =>
      obtain ⟨hr1, hr2⟩ := hR r.id
      have hfind : l.find? (fun t => t.id = r.id) = (l.filter (fun t => t.id = r.id)).head? :=
        (List.head?_filter ..).symm
      rcases hq : q r.id with _ | ⟨⟨n, ex⟩, rest⟩
      · rw [hr1, hq] at hfind
        have : (evStep c l (.r r)).2 = [.unknownId] := by
          show (rdR c l r).2 = _
          unfold rdR
          rw [hfind]
          rfl
        unfold evRun
        rw [this]
        constructor
        · intro h; simp at h
        · intro h
          have := h r.id
          rw [hq] at this
          simp [RdEv.id, Legal] at this
      · rw [hr1, hq] at hfind
        simp only [List.map_cons, List.head?_cons] at hfind
        have hn : 0 < n := hr2 (n, ex) (by rw [hq]; exact List.mem_cons_self ..)
        have hst : evStep c l (.r r) =
            (updFirst r.id (fun _ => if r.last then none else some ⟨r.id, (n : Int) - 1, ex⟩) l,
              (if c.respCheck && !respOk ex r.resp then [.resp] else []) ++
              (if c.orderCheck && (r.last != decide ((n : Int) - 1 = 0)) then [.burst] else [])) := by
          show rdR c l r = _
          unfold rdR
          rw [hfind]
        have hdec : decide ((n : Int) - 1 = 0) = decide (n = 1) := by
          apply decide_eq_decide.mpr; omega
        by_cases hl : r.last = true ↔ n = 1
        · by_cases hp : respOk ex r.resp = true
          · have he : (evStep c l (.r r)).2 = [] := by
              rw [hst]
              simp only [hp, hdec]
              have : r.last = decide (n = 1) := by
                cases e : r.last <;> by_cases c1 : n = 1 <;> simp_all
              simp [this]
            unfold evRun
            rw [he, List.nil_append, hst]
            have := hR.r r hq hl
            rw [ih _ _ this]
            · constructor <;> intro hh id <;> have := hh id <;> unfold qR at * <;> by_cases c' : id = r.id
              · subst c'
                rw [if_pos rfl] at this
                rw [hq]
                have ef : List.filter (fun e => decide (e.id = r.id)) (RdEv.r r :: t) =
                  RdEv.r r :: List.filter (fun e => decide (e.id = r.id)) t := by simp [RdEv.id]
                rw [ef]
                exact ⟨hl, (respOk_iff _ _).mp hp, this⟩
              · have n' : ¬ r.id = id := fun e => c' e.symm
                simpa [RdEv.id, c', n'] using this
              · subst c'
                rw [if_pos rfl]
                rw [hq] at this
                have ef : List.filter (fun e => decide (e.id = r.id)) (RdEv.r r :: t) =
                  RdEv.r r :: List.filter (fun e => decide (e.id = r.id)) t := by simp [RdEv.id]
                rw [ef] at this
                exact this.2.2
              · have n' : ¬ r.id = id := fun e => c' e.symm
                simpa [RdEv.id, c', n'] using this
            · intro pre hpre
              have h0 := hd (.r r :: pre) (List.prefix_cons_inj _ |>.mpr hpre)
              have hlen := length_updFirst r.id
                (fun _ => if r.last then none else some (⟨r.id, (n : Int) - 1, ex⟩ : RTx)) l _ hfind
              have i1 : isAr (.r r) = false := rfl
              have i2 : isLast (.r r) = r.last := rfl
              cases e : r.last <;> simp [i1, i2, e] at hlen h0 ⊢ <;> omega
          · have he : (evStep c l (.r r)).2 ≠ [] := by
              rw [hst]; simp [h1, hp]
            constructor
            · intro h
              unfold evRun at h
              exact absurd (List.append_eq_nil_iff.mp h).1 he
            · intro h
              have := h r.id
              rw [hq] at this
              have ef : List.filter (fun e => decide (e.id = r.id)) (RdEv.r r :: t) =
                RdEv.r r :: List.filter (fun e => decide (e.id = r.id)) t := by simp [RdEv.id]
              rw [ef] at this
              exact absurd ((respOk_iff _ _).mpr this.2.1) hp
        · have he : (evStep c l (.r r)).2 ≠ [] := by
            rw [hst]
            simp only [hdec, h2]
            have : (r.last != decide (n = 1)) = true := by
              cases e : r.last <;> by_cases c1 : n = 1 <;> simp_all
            simp [this]
          constructor
          · intro h
            unfold evRun at h
            exact absurd (List.append_eq_nil_iff.mp h).1 he
          · intro h
            have := h r.id
            rw [hq] at this
            have ef : List.filter (fun e => decide (e.id = r.id)) (RdEv.r r :: t) =
              RdEv.r r :: List.filter (fun e => decide (e.id = r.id)) t := by simp [RdEv.id]
            rw [ef] at this
            exact absurd this.1 hl

/-- **The checker reports reads iff they break the rules**: for every trace with at most `depth` bursts
outstanding, no error is reported iff what each identifier sees is legal. -/
theorem reads_checked (c : RdCfg) (h1 : c.respCheck = true) (h2 : c.orderCheck = true)
    (tr : List RdCycle) (hr : RdCycle.reset ∉ tr) (hd : Within c.depth (events tr)) :
    (rdRun c [] tr).2 = [] ↔ ∀ id, Legal [] ((events tr).filter (fun e => e.id = id)) := by
  rw [rdRun_events _ _ _ hr]
  exact evRun_iff c h1 h2 _ _ (fun _ => []) (fun id => ⟨rfl, nofun⟩)
    (fun pre hp => by have := hd pre hp; simpa using this)

/-- After a reset the checker starts afresh. -/
theorem reads_reset (c : RdCfg) (l : List RTx) (tr : List RdCycle) :
    (rdRun c l (.reset :: tr)).2 = (rdRun c [] tr).2 := by
  simp [rdRun, rdStep]

/-- **Beyond the configured depth a correct slave is reported**: the address is dropped without a
message, and its answer is called unexpected. -/
theorem too_many_reads_false_alarm :
    (rdRun { depth := 1 } [] [.clk (some ⟨1, 0, false⟩) none, .clk (some ⟨2, 0, false⟩) none,
      .clk none (some ⟨1, 0, true⟩), .clk none (some ⟨2, 0, true⟩)]).2 = [.unknownId] := by decide

/-- **An answer in the same cycle as its address is accepted**, although a slave must wait for the
address before it asserts `RVALID`. -/
theorem same_cycle_answer_accepted :
    (rdRun {} [] [.clk (some ⟨1, 0, false⟩) (some ⟨1, 0, true⟩)]).2 = [] := by decide

/-- Interleaved bursts of two identifiers, one exclusive. -/
example : let tr : List RdCycle := [.clk (some ⟨1, 1, false⟩) none, .clk (some ⟨2, 0, true⟩) (some ⟨1, 0, false⟩),
      .clk none (some ⟨2, 1, true⟩), .clk none (some ⟨1, 0, true⟩)]
    (rdRun {} [] tr).2 = [] ∧ Legal [] ((events tr).filter (fun e => e.id = 1)) ∧
      Legal [] ((events tr).filter (fun e => e.id = 2)) := by
  refine ⟨by decide, ?_, ?_⟩ <;> simp [events, RdEv.id, Legal]

/-- Missing and early `RLAST`, wrong identifier, error response. -/
example : (rdRun {} [] [.clk (some ⟨1, 1, false⟩) none, .clk none (some ⟨1, 2, true⟩), .clk none (some ⟨1, 0, true⟩)]).2
    = [.resp, .burst, .unknownId] := by decide

end Verif.PcAxi
