import Verif.XdmaIrq.Spec

/-!
# User interrupts of the XDMA: lemmas
-/

namespace Verif.XdmaIrq

theorem differ_any : ∀ (a b : Vec), a.length = b.length → ((differ a b).any id = false ↔ b = a)
  | [], [], _ => by simp [differ]
  | x :: a, y :: b, h => by
    have ih := differ_any a b (by simpa using h)
    simp only [differ, List.zipWith_cons_cons, List.any_cons, Bool.or_eq_false_iff, List.cons.injEq, id] at *
    rw [ih]
    cases x <;> cases y <;> simp
  | [], _ :: _, h => by cases h
  | _ :: _, [], h => by cases h

theorem differ_len (a b : Vec) (h : a.length = b.length) : (differ a b).length = a.length := by
  simp [differ, h]

theorem low_any (n : Nat) : (List.replicate n false).any id = false := by
  simp [List.any_replicate]

theorem and_low : ∀ (n : Vec) (k : Nat), (List.zipWith (fun x y => x && y) n (List.replicate k false)).any id = false
  | [], _ => by simp
  | _ :: _, 0 => by simp
  | x :: n, k + 1 => by
    rw [List.replicate_succ, List.zipWith_cons_cons, List.any_cons, and_low n k]
    cases x <;> rfl

theorem changes_snoc : ∀ (l : List Vec) (a b : Vec), l.getLast? = some a → changes (l ++ [b]) = changes l ++ [differ a b]
  | [], _, _, h => by cases h
  | [x], a, b, h => by
    simp only [List.getLast?_singleton, Option.some.injEq] at h
    subst h; rfl
  | x :: y :: t, a, b, h => by
    have ih := changes_snoc (y :: t) a b (by simpa using h)
    simp only [List.cons_append, changes] at *
    rw [ih]

/-- What is being acknowledged and not yet seen by the user logic. -/
def pending : Pc → List Vec
  | .ack1 n => [n]
  | _ => []

structure Inv (n : Nat) (w : World) : Prop where
  lr : w.s.req.length = n
  ls : w.s.sig.length = n
  la : w.s.ack.length = n
  lastR : w.reqs.getLast? = some w.s.req
  lastS : w.sigs.getLast? = some w.s.sig
  sub : (w.s.sig = w.s.req ∧ w.sigs.Sublist w.reqs) ∨ ∃ l, w.sigs.Sublist l ∧ w.reqs = l ++ [w.s.req]
  acked : w.acks ++ pending w.s.pc = changes w.sigs
  low : w.s.pc ≠ .ack2 → w.s.ack = List.replicate n false
  high : w.s.pc = .ack2 → w.s.ack.any id = true
  some : ∀ v, w.s.pc = .ack1 v → v.any id = true ∧ v.length = n
  irq : w.s.relay = false → w.s.irq = w.s.sig
  ok : w.s.error = false

theorem inv_start (n : Nat) : Inv n (World.start n) := by
  refine ⟨?_, ?_, ?_, ?_, ?_, ?_, ?_, ?_, ?_, ?_, ?_, ?_⟩ <;> simp [World.start, start, pending, changes]

theorem inv_next {n : Nat} {w : World} (h : Inv n w) (e : Ev) (he : Sized n e) : Inv n (w.next e) := by
  obtain ⟨lr, ls, la, lastR, lastS, sub, acked, low, high, som, irq, ok⟩ := h
  have hsub : w.sigs.Sublist w.reqs := by
    rcases sub with ⟨_, h⟩ | ⟨l, h, h1⟩
    · exact h
    · rw [h1]; exact h.trans (List.sublist_append_left _ _)
  cases e with
  | write v =>
    by_cases hv : v = w.s.req
    · have e1 : w.next (.write v) = w := by
        simp only [World.next, step, write, hv, if_true, note, pulse]
        have : ¬(w.s.ack.any id = true ∧ ¬w.s.ack.any id = true) := fun h => h.2 h.1
        rw [if_neg this]
      rw [e1]; exact ⟨lr, ls, la, lastR, lastS, sub, acked, low, high, som, irq, ok⟩
    · have hp : ∀ a : Vec, ¬(a.any id = true ∧ ¬a.any id = true) := fun _ h => h.2 h.1
      have e1 : w.next (.write v) = { w with s := { w.s with req := v, pc := if w.s.pc = .idle then .woken else w.s.pc }, reqs := w.reqs ++ [v] } := by
        simp only [World.next, step, write, hv, if_false, note, pulse, if_true, if_neg (hp _)]
      rw [e1]
      refine ⟨he, ls, la, by simp, lastS, Or.inr ⟨w.reqs, hsub, rfl⟩, ?_, ?_, ?_, ?_, irq, ok⟩
      · dsimp only
        by_cases hi : w.s.pc = .idle
        · rw [if_pos hi]; rw [hi] at acked; exact acked
        · rw [if_neg hi]; exact acked
      · dsimp only; intro h2
        by_cases hi : w.s.pc = .idle
        · exact low (by rw [hi]; decide)
        · rw [if_neg hi] at h2; exact low h2
      · dsimp only; intro h2
        by_cases hi : w.s.pc = .idle
        · rw [if_pos hi] at h2; cases h2
        · rw [if_neg hi] at h2; exact high h2
      · dsimp only; intro u h2
        by_cases hi : w.s.pc = .idle
        · rw [if_pos hi] at h2; cases h2
        · rw [if_neg hi] at h2; exact som u h2
  | run =>
    have hp : ∀ a : Vec, ¬(a.any id = true ∧ ¬a.any id = true) := fun _ h => h.2 h.1
    cases hpc : w.s.pc with
    | woken =>
      have hlow := low (by rw [hpc]; decide)
      by_cases hd : w.s.req = w.s.sig
      · have hn := (differ_any w.s.sig w.s.req (by rw [ls, lr])).mpr hd
        have e1 : w.next .run = { w with s := { w.s with pc := .idle } } := by
          rw [hd] at hn
          simp only [World.next, step, runIrq, hpc, hn, note, pulse, if_true, if_neg (hp _), hd, Bool.or_false, hlow, and_low]
          simp
        rw [e1]
        exact ⟨lr, ls, la, lastR, lastS, sub, by rw [hpc] at acked; exact acked, fun _ => hlow, (fun h => nomatch h), (fun _ h => nomatch h), irq, ok⟩
      · have hn : (differ w.s.sig w.s.req).any id = true := by
          cases hb : (differ w.s.sig w.s.req).any id
          · exact absurd ((differ_any w.s.sig w.s.req (by rw [ls, lr])).mp hb) hd
          · rfl
        have e1 : w.next .run = { w with s := { w.s with sig := w.s.req, relay := true, pc := .ack1 (differ w.s.sig w.s.req) }, sigs := w.sigs ++ [w.s.req] } := by
          simp only [World.next, step, runIrq, hpc, hn, note, pulse, if_true, if_neg (hp _), hd, if_false, Bool.or_true, hlow, and_low, Bool.or_false]
        rw [e1]
        refine ⟨lr, lr, la, lastR, by simp, ?_, ?_, fun _ => hlow, ?_, ?_, ?_, ok⟩
        · rcases sub with ⟨h, _⟩ | ⟨l, h, h1⟩
          · exact absurd h.symm hd
          · refine Or.inl ⟨rfl, ?_⟩
            show (w.sigs ++ [w.s.req]).Sublist w.reqs
            rw [h1]; exact h.append (List.Sublist.refl _)
        · rw [hpc] at acked
          simp only [pending, List.append_nil] at *
          rw [changes_snoc _ _ _ lastS, acked]
        · intro h; cases h
        · intro v h; cases h
          exact ⟨hn, by rw [differ_len _ _ (by rw [ls, lr]), ls]⟩
        · intro h; cases h
    | _ =>
      have e1 : w.next .run = w := by
        simp only [World.next, step, runIrq, hpc, note, pulse, if_true, if_neg (hp _)]
      rw [e1]; exact ⟨lr, ls, la, lastR, lastS, sub, acked, low, high, som, irq, ok⟩
  | copy =>
    have hp : ∀ a : Vec, ¬(a.any id = true ∧ ¬a.any id = true) := fun _ h => h.2 h.1
    by_cases hr : w.s.relay = true
    · have e1 : w.next .copy = { w with s := { w.s with irq := w.s.sig, relay := false } } := by
        simp only [World.next, step, copy, hr, note, pulse, if_true, if_neg (hp _)]
      rw [e1]; exact ⟨lr, ls, la, lastR, lastS, sub, acked, low, high, som, fun _ => rfl, ok⟩
    · have e1 : w.next .copy = w := by
        simp only [World.next, step, copy, hr, note, pulse, if_true, if_neg (hp _)]; simp
      rw [e1]; exact ⟨lr, ls, la, lastR, lastS, sub, acked, low, high, som, irq, ok⟩
  | clk =>
    have hp : ∀ a : Vec, ¬(a.any id = true ∧ ¬a.any id = true) := fun _ h => h.2 h.1
    cases hpc : w.s.pc with
    | ack1 v =>
      have hlow := low (by rw [hpc]; intro h; cases h)
      have hl : w.s.ack.any id = false := by rw [hlow]; exact low_any n
      have hv := som v hpc
      have e1 : w.next .clk = { w with s := { w.s with ack := v, pc := .ack2 }, acks := w.acks ++ [v] } := by
        simp only [World.next, step, clk, hpc, note, pulse, if_true, hv.1, hl]; simp
      rw [e1]
      refine ⟨lr, ls, hv.2, lastR, lastS, sub, ?_, fun h => absurd rfl h, fun _ => hv.1, (fun _ h => nomatch h), irq, ok⟩
      rw [hpc] at acked
      simpa [pending] using acked
    | ack2 =>
      have e1 : w.next .clk = { w with s := { w.s with ack := List.replicate n false, pc := .idle } } := by
        simp only [World.next, step, clk, hpc, note, pulse, if_true, la, low_any]; simp
      rw [e1]
      refine ⟨lr, ls, by simp, lastR, lastS, sub, ?_, fun _ => rfl, (fun h => nomatch h), (fun _ h => nomatch h), irq, ok⟩
      rw [hpc] at acked; exact acked
    | _ =>
      have e1 : w.next .clk = w := by
        simp only [World.next, step, clk, hpc, note, pulse, if_true, if_neg (hp _)]
      rw [e1]; exact ⟨lr, ls, la, lastR, lastS, sub, acked, low, high, som, irq, ok⟩

theorem inv_run {n : Nat} {w : World} (h : Inv n w) (evs : List Ev) (he : ∀ e ∈ evs, Sized n e) : Inv n (w.run evs) := by
  induction evs generalizing w with
  | nil => exact h
  | cons e t ih => exact ih (inv_next h e (he e List.mem_cons_self)) fun x hx => he x (List.mem_cons_of_mem _ hx)

/-- In a calm history nothing is skipped. -/
structure CalmInv (w : World) : Prop where
  same : w.s.pc ≠ .woken → w.sigs = w.reqs ∧ w.s.sig = w.s.req
  one : w.s.pc = .woken → w.reqs = w.sigs ++ [w.s.req] ∧ w.s.req ≠ w.s.sig

theorem calm_next {n : Nat} {w : World} (h : Inv n w) (c : CalmInv w) (e : Ev) (hc : Calm w.s e) : CalmInv (w.next e) := by
  obtain ⟨same, one⟩ := c
  cases e with
  | write v =>
    have hi : w.s.pc = .idle := hc
    obtain ⟨h1, h2⟩ := same (by rw [hi]; decide)
    by_cases hv : v = w.s.req
    · constructor
      · intro _
        simp only [World.next, step, write, hv, if_true, note]
        exact ⟨h1, h2⟩
      · intro h; simp only [World.next, step, write, hv, if_true, hi] at h; cases h
    · constructor
      · intro h; simp only [World.next, step, write, hv, if_false, hi, if_true] at h; exact absurd rfl h
      · intro _
        simp only [World.next, step, write, hv, if_false, note, if_true]
        exact ⟨by rw [h1], by rw [h2]; exact hv⟩
  | run =>
    cases hpc : w.s.pc with
    | woken =>
      obtain ⟨h1, h2⟩ := one hpc
      constructor
      · intro _
        simp only [World.next, step, runIrq, hpc, note, h2, if_true, if_false]
        exact ⟨h1.symm, trivial⟩
      · intro h; simp only [World.next, step, runIrq, hpc] at h
        split at h <;> cases h
    | _ =>
      have := same (by rw [hpc]; intro h; cases h)
      constructor
      · intro _
        simp only [World.next, step, runIrq, hpc, note, if_true]
        exact this
      · intro h; simp only [World.next, step, runIrq, hpc] at h; cases h
  | copy =>
    have e1 : (w.next .copy).s.pc = w.s.pc ∧ (w.next .copy).s.req = w.s.req ∧ (w.next .copy).s.sig = w.s.sig := by
      simp only [World.next, step, copy]; split <;> exact ⟨rfl, rfl, rfl⟩
    have e2 : (w.next .copy).reqs = w.reqs := by
      show note w.reqs w.s.req (w.next .copy).s.req = _
      rw [e1.2.1]; simp [note]
    have e3 : (w.next .copy).sigs = w.sigs := by
      show note w.sigs w.s.sig (w.next .copy).s.sig = _
      rw [e1.2.2]; simp [note]
    constructor
    · rw [e1.1, e2, e3, e1.2.1, e1.2.2]; exact same
    · rw [e1.1, e2, e3, e1.2.1, e1.2.2]; exact one
  | clk =>
    cases hpc : w.s.pc with
    | woken =>
      have := one hpc
      constructor
      · intro h; simp only [World.next, step, clk, hpc] at h; exact absurd rfl h
      · intro _
        simp only [World.next, step, clk, hpc, note, if_true]
        exact this
    | _ =>
      have := same (by rw [hpc]; intro h; cases h)
      constructor
      · intro _
        simp only [World.next, step, clk, hpc, note, if_true]
        exact this
      · intro h; simp only [World.next, step, clk, hpc] at h; cases h

theorem calm_run {n : Nat} {w : World} (h : Inv n w) (c : CalmInv w) (evs : List Ev) (he : ∀ e ∈ evs, Sized n e) (hc : CalmAll w.s evs) : CalmInv (w.run evs) := by
  induction evs generalizing w with
  | nil => exact c
  | cons e t ih => exact ih (inv_next h e (he e List.mem_cons_self)) (calm_next h c e hc.1) (fun x hx => he x (List.mem_cons_of_mem _ hx)) hc.2

theorem calm_start (n : Nat) : CalmInv (World.start n) :=
  ⟨fun _ => ⟨rfl, rfl⟩, fun h => by cases h⟩

end Verif.XdmaIrq
