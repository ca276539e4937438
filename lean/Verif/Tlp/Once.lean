import Verif.Tlp.Sys

/-! # C48: each call sends its packet once -/

namespace Verif.Tlp
open Verif

/-- The calls whose request went out, in order. -/
def reqIds : List Ev → List Nat
  | [] => []
  | .req c :: t => c.id :: reqIds t
  | _ :: t => reqIds t

/-- The calls made. -/
def callIds : List Act → List Nat
  | [] => []
  | .call id _ _ :: t => id :: callIds t
  | _ :: t => callIds t

theorem reqIds_append (a b : List Ev) : reqIds (a ++ b) = reqIds a ++ reqIds b := by
  induction a with
  | nil => rfl
  | cons e t ih => cases e <;> simp only [List.cons_append, reqIds, ih]

theorem reqIds_quiet (l : List Ev) (h : ∀ e ∈ l, ∀ c, e ≠ .req c) : reqIds l = [] := by
  induction l with
  | nil => rfl
  | cons e t ih =>
    cases e <;> first
      | exact absurd rfl (h _ (List.mem_cons_self ..) _)
      | exact ih fun e he => h e (List.mem_cons_of_mem _ he)

theorem count_eraseIdx (w : List Call) : ∀ (k : Nat) (c : Call), w[k]? = some c → ∀ i,
    (w.map (·.id)).count i = [c.id].count i + ((w.eraseIdx k).map (·.id)).count i := by
  induction w with
  | nil => intro k c h; cases h
  | cons x w ih =>
    intro k c h i
    cases k with
    | zero =>
      simp only [List.getElem?_cons_zero, Option.some.injEq] at h
      subst h
      simp only [List.map_cons, List.eraseIdx_cons_zero, List.count_cons, List.count_nil]
      omega
    | succ k =>
      simp only [List.getElem?_cons_succ] at h
      have := ih k c h i
      simp only [List.map_cons, List.eraseIdx_cons_succ, List.count_cons, List.count_nil] at this ⊢
      omega

theorem once_step (keep : List Nat → List Nat) (s s' : Sys) (a : Act) (hs : step keep s a = some s') (i : Nat) :
    (reqIds s'.log).count i + (s'.waiting.map (·.id)).count i =
      (reqIds s.log).count i + (s.waiting.map (·.id)).count i + (callIds [a]).count i := by
  have quiet : ∀ (t : List Ev), (∀ e ∈ t, ∀ c, e ≠ .req c) →
      reqIds (s.log ++ t) = reqIds s.log := by
    intro t ht
    rw [reqIds_append, reqIds_quiet t ht, List.append_nil]
  cases a with
  | call id cfg r =>
    simp only [step, doCall, Option.map_eq_some_iff] at hs
    obtain ⟨hd, _, rfl⟩ := hs
    simp only [List.map_append, List.count_append, List.map_cons, List.map_nil, callIds]
    omega
  | send k =>
    simp only [step, doSend, Option.some.injEq] at hs
    subst hs
    split
    · rename_i c ho hw
      have := count_eraseIdx s.waiting k c hw i
      simp only [reqIds_append, List.count_append, reqIds, callIds, List.count_nil]
      omega
    · simp [callIds]
  | ret =>
    simp only [step, doRet, Option.some.injEq] at hs
    subst hs
    cases ho : s.out with
    | none => simp [callIds]
    | some o =>
      dsimp only
      split
      · simp only [callIds, List.count_nil]
        rw [quiet _ (by intro e he c; rw [List.mem_singleton] at he; rw [he]; exact fun x => by cases x)]
        rfl
      · simp [callIds]
  | dma =>
    simp only [step, doDma] at hs
    cases hq : s.queue with
    | nil => rw [hq] at hs; cases hs; simp [callIds]
    | cons t q =>
      rw [hq] at hs
      simp only [Option.map_eq_some_iff] at hs
      obtain ⟨⟨m', c⟩, _, rfl⟩ := hs
      simp only [callIds, List.count_nil]
      rw [quiet _ (by
        intro e he c'
        rcases List.mem_cons.1 he with he | he
        · rw [he]; exact fun x => by cases x
        · obtain ⟨y, _, hy⟩ := List.mem_map.1 he
          rw [← hy]; exact fun x => by cases x)]
      rfl
  | rx l =>
    simp only [step, doRx] at hs
    have q2 : reqIds (s.log ++ [Ev.got l, Ev.err l]) = reqIds s.log := quiet _ (by
      intro e he c
      rcases List.mem_cons.1 he with he | he
      · rw [he]; exact fun x => by cases x
      · rw [List.mem_singleton] at he; rw [he]; exact fun x => by cases x)
    have q1 : reqIds (s.log ++ [Ev.got l]) = reqIds s.log := quiet _ (by
      intro e he c
      rw [List.mem_singleton] at he; rw [he]; exact fun x => by cases x)
    simp only [callIds, List.count_nil, Nat.add_zero]
    by_cases c1 : (l.getD 0 0).toNat % 32 = 10
    · rw [if_pos c1] at hs
      simp only [doCpl, Option.bind_eq_some_iff] at hs
      obtain ⟨cs, hcs, hs⟩ := hs
      cases ho : s.out with
      | none => rw [ho] at hs; cases hs; simp only [q2]
      | some o =>
        rw [ho] at hs
        dsimp only at hs
        by_cases c2 : reqTx (keep o.call.hdr) = cplTx cs
        · rw [if_pos c2, Option.map_eq_some_iff] at hs
          obtain ⟨⟨st, d⟩, hc, rfl⟩ := hs
          simp only [q1]
        · rw [if_neg c2] at hs; cases hs; simp only [q2]
    · rw [if_neg c1] at hs
      by_cases c2 : (l.getD 0 0).toNat % 32 = 0
      · rw [if_pos c2, Option.map_eq_some_iff] at hs
        obtain ⟨t, _, rfl⟩ := hs
        simp only [q1]
      · rw [if_neg c2] at hs; cases hs; simp only [q2]

/-- **No request is lost, none is sent twice**: in every schedule, each call made has either put its one
request on the link or is still waiting to. -/
theorem each_call_sent_once (keep : List Nat → List Nat) (m : Mem) (as : List Act) (s : Sys)
    (h : run keep m as = some s) (i : Nat) :
    (reqIds s.log).count i + (s.waiting.map (·.id)).count i = (callIds as).count i := by
  have : ∀ (as : List Act) (s0 : Sys), as.foldlM (step keep) s0 = some s →
      (reqIds s.log).count i + (s.waiting.map (·.id)).count i =
        (reqIds s0.log).count i + (s0.waiting.map (·.id)).count i + (callIds as).count i := by
    intro as
    induction as with
    | nil => intro s0 he; cases he; simp [callIds]
    | cons a as ih =>
      intro s0 he
      rw [List.foldlM_cons] at he
      obtain ⟨s1, e1, e2⟩ := Option.bind_eq_some_iff.mp he
      rw [ih s1 e2, once_step keep s0 s1 a e1 i]
      have : callIds (a :: as) = callIds [a] ++ callIds as := by cases a <;> rfl
      rw [this, List.count_append]
      omega
  have := this as { m := m } h
  simpa [reqIds] using this

/-- Two calls, one sent, one still waiting. -/
example : ∃ s, run id (fun _ => 0#8) [.call 7 false ⟨⟨.read, 0x1000, [0, 0, 0, 0], [], 4⟩, 0, 0⟩,
    .call 8 false ⟨⟨.read, 0x2000, [0, 0, 0, 0], [], 4⟩, 0, 0⟩, .send 1] = some s ∧
    reqIds s.log = [8] ∧ s.waiting.map (·.id) = [7] := by
  refine ⟨_, rfl, ?_, ?_⟩ <;> decide +kernel

end Verif.Tlp
