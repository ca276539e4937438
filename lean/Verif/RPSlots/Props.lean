import Verif.RPSlots.Lemmas

/-! # C06: remote-port responses reach the request that is waiting for them -/

namespace Verif.RPSlots
open Verif

/-- **C06.** For every interleaving of requests, response arrivals and waiter
wake-ups (up to 2^32 operations, so that the 32-bit id counter does not come
round to an id that may still be outstanding), the slot table behaves exactly
like the map of `Spec`: same ids, same answers to the same waiters, and it
fails exactly when the specification does (more than 256 outstanding, or a
response nobody waits for).  In particular no slot leaks: capacity is exactly
256 concurrently outstanding requests, for ever. -/
theorem slots_refine_map (c0 : BitVec 32) (ops : List Op) (hlen : ops.length ≤ 2 ^ 32) :
    run (init c0) ops = Spec.run (Spec.init c0) ops := by
  have gen : ∀ (ops : List Op) (k : Nat) (s : State) (a : Spec.State), Rel c0 k s a →
      k + ops.length ≤ 2 ^ 32 → run s ops = Spec.run a ops := by
    intro ops
    induction ops with
    | nil => intros; rfl
    | cons o ops ih =>
      intro k s a h hk
      simp only [List.length_cons] at hk
      rcases rel_step h (by omega) o with ⟨h1, h2⟩ | ⟨s', a', out, k', h1, h2, h3, h4⟩
      · simp only [run, Spec.run, h1, h2]
      · simp only [run, Spec.run, h1, h2]
        rw [ih k' s' a' h3 (by omega)]
  exact gen ops 0 _ _ (rel_init c0) (by omega)

/-- Two requests answered in the opposite order, each by its own response. -/
example : run (init 0xffffffff) [.issue, .issue, .arrive false ⟨0, [7]⟩, .poll 0xffffffff, .poll 0,
      .arrive false ⟨0xffffffff, [9]⟩, .poll 0xffffffff] =
    some [.issued 0xffffffff, .issued 0, .nothing, .nothing, .got ⟨0, [7]⟩, .nothing,
      .got ⟨0xffffffff, [9]⟩] := by decide +kernel

/-- A response nobody waits for stops the simulation. -/
example : run (init 5) [.issue, .arrive false ⟨6, []⟩] = none := by decide +kernel

/-- Consequence read off the specification: a waiter is given a packet only if
that packet carries its own id and arrived (unposted) while it was waiting. -/
theorem got_only_own_response (c0 : BitVec 32) (ops : List Op) (hlen : ops.length ≤ 2 ^ 32)
    (outs : List Out) (hrun : run (init c0) ops = some outs) :
    ∀ (n : Nat) (p : Resp), outs[n]? = some (.got p) →
      ops[n]? = some (.poll p.id) ∧ ∃ m, m < n ∧ ops[m]? = some (.arrive false p) := by
  rw [slots_refine_map c0 ops hlen] at hrun
  have gen : ∀ (ops : List Op) (a : Spec.State) (outs : List Out),
      (∀ id p, a.out id = some (some p) → p.id = id) →
      Spec.run a ops = some outs → ∀ (n : Nat) (p : Resp), outs[n]? = some (.got p) →
      ops[n]? = some (.poll p.id) ∧ (a.out p.id = some (some p) ∨ ∃ m, m < n ∧ ops[m]? = some (.arrive false p)) := by
    intro ops
    induction ops with
    | nil => intro a outs _ h n p hp; simp [Spec.run] at h; subst h; simp at hp
    | cons o ops ih =>
      intro a outs hinv h n p hp
      simp only [Spec.run] at h
      cases hs : Spec.step a o with
      | none => rw [hs] at h; cases h
      | some r =>
        obtain ⟨a', out⟩ := r
        rw [hs] at h
        simp only [Option.map_eq_some_iff] at h
        obtain ⟨outs', h', rfl⟩ := h
        cases o with
        | issue =>
          simp only [Spec.step] at hs
          split at hs
          · injection hs with hs; injection hs with e1 e2; subst e1 e2
            have hinv' : ∀ id p, (upd a.out a.next (some none)) id = some (some p) → p.id = id := by
              intro id p hh
              by_cases e : id = a.next
              · subst e; simp [upd_same] at hh
              · rw [upd_ne _ _ e] at hh; exact hinv id p hh
            cases n with
            | zero => simp at hp
            | succ n =>
              obtain ⟨g1, g2⟩ := ih _ _ hinv' h' n p (by simpa using hp)
              refine ⟨by simpa using g1, ?_⟩
              rcases g2 with g2 | ⟨m, hm, g2⟩
              · left
                by_cases e : p.id = a.next
                · rw [e] at g2; simp [upd_same] at g2
                · simpa only [upd_ne _ _ e] using g2
              · exact Or.inr ⟨m + 1, by omega, by simpa using g2⟩
          · cases hs
        | arrive posted q =>
          cases posted with
          | true =>
            simp only [Spec.step] at hs
            injection hs with hs; injection hs with e1 e2; subst e1 e2
            cases n with
            | zero => simp at hp
            | succ n =>
              obtain ⟨g1, g2⟩ := ih _ _ hinv h' n p (by simpa using hp)
              refine ⟨by simpa using g1, ?_⟩
              rcases g2 with g2 | ⟨m, hm, g2⟩
              · exact Or.inl g2
              · exact Or.inr ⟨m + 1, by omega, by simpa using g2⟩
          | false =>
            simp only [Spec.step] at hs
            cases hq : a.out q.id with
            | none => rw [hq] at hs; cases hs
            | some r0 =>
              rw [hq] at hs
              injection hs with hs; injection hs with e1 e2; subst e1 e2
              have hinv' : ∀ id p, (upd a.out q.id (some (some q))) id = some (some p) → p.id = id := by
                intro id p hh
                by_cases e : id = q.id
                · subst e; simp [upd_same] at hh; rw [hh]
                · rw [upd_ne _ _ e] at hh; exact hinv id p hh
              cases n with
              | zero => simp at hp
              | succ n =>
                obtain ⟨g1, g2⟩ := ih _ _ hinv' h' n p (by simpa using hp)
                refine ⟨by simpa using g1, ?_⟩
                rcases g2 with g2 | ⟨m, hm, g2⟩
                · by_cases e : p.id = q.id
                  · rw [e] at g2
                    simp only [upd_same] at g2
                    injection g2 with g2; injection g2 with g2
                    exact Or.inr ⟨0, by omega, by simp [g2]⟩
                  · left; simpa only [upd_ne _ _ e] using g2
                · exact Or.inr ⟨m + 1, by omega, by simpa using g2⟩
        | poll id =>
          simp only [Spec.step] at hs
          have hnext : ∀ a'', (∀ id p, a''.out id = some (some p) → a.out id = some (some p)) →
              a' = a'' → ∀ n, outs'[n]? = some (.got p) →
              (Op.poll id :: ops)[n + 1]? = some (.poll p.id) ∧ (a.out p.id = some (some p) ∨
                ∃ m, m < n + 1 ∧ (Op.poll id :: ops)[m]? = some (.arrive false p)) := by
            intro a'' hsub e n hp
            subst e
            obtain ⟨g1, g2⟩ := ih _ _ (fun i p hh => hinv i p (hsub i p hh)) h' n p hp
            refine ⟨by simpa using g1, ?_⟩
            rcases g2 with g2 | ⟨m, hm, g2⟩
            · exact Or.inl (hsub _ _ g2)
            · exact Or.inr ⟨m + 1, by omega, by simpa using g2⟩
          cases hq : a.out id with
          | none =>
            rw [hq] at hs
            injection hs with hs; injection hs with e1 e2; subst e1 e2
            cases n with
            | zero => simp at hp
            | succ n => exact hnext _ (fun _ _ x => x) rfl n (by simpa using hp)
          | some r =>
            cases r with
            | none =>
              rw [hq] at hs
              injection hs with hs; injection hs with e1 e2; subst e1 e2
              cases n with
              | zero => simp at hp
              | succ n => exact hnext _ (fun _ _ x => x) rfl n (by simpa using hp)
            | some q =>
              rw [hq] at hs
              injection hs with hs; injection hs with e1 e2; subst e1 e2
              cases n with
              | zero =>
                simp at hp
                subst hp
                have := hinv id q hq
                rw [← this] at hq
                exact ⟨by simp [this], Or.inl hq⟩
              | succ n =>
                refine hnext _ (fun i p hh => ?_) rfl n (by simpa using hp)
                by_cases e : i = id
                · subst e; simp [upd_same] at hh
                · simpa only [upd_ne _ _ e] using hh
  intro n p hp
  obtain ⟨g1, g2⟩ := gen ops _ outs (by simp [Spec.init]) hrun n p hp
  refine ⟨g1, ?_⟩
  rcases g2 with g2 | g2
  · simp [Spec.init] at g2
  · exact g2

end Verif.RPSlots
