import Verif.SafeIO.Model

/-! # C04: the blocking I/O helpers transfer everything exactly once -/

namespace Verif.SafeIO
open Verif

theorem readStep_le (n want avail : Nat) : readStep n want avail ≤ want ∧ readStep n want avail ≤ avail := by
  unfold readStep; omega

/-- General form used by the theorems below (any starting point). -/
theorem safeRead_aux (count : Nat) (ks : List K) (got src : List Byte) (hg : got.length ≤ count) :
    let r := safeRead count ks got src
    r.2.1 ++ r.2.2 = got ++ src ∧ r.2.1.length ≤ count ∧
    (∀ n, r.1 = .ret n → n = r.2.1.length ∧ (n = count ∨ r.2.2 = [])) ∧
    (r.1 = .fail → K.err ∈ ks ∨ K.eagain ∈ ks) := by
  induction ks generalizing got src with
  | nil => simp [safeRead, hg]
  | cons k ks ih =>
    cases k with
    | eintr =>
      simp only [safeRead]
      split
      · have := ih got src hg
        refine ⟨this.1, this.2.1, this.2.2.1, fun h => ?_⟩
        rcases this.2.2.2 h with e | e <;> simp [e]
      · refine ⟨rfl, hg, fun n hn => ?_, by simp⟩
        injection hn with hn
        exact ⟨hn.symm, Or.inl (by omega)⟩
    | eagain => simp [safeRead, hg]
    | err => simp [safeRead, hg]
    | data n =>
      have hr := readStep_le n (count - got.length) src.length
      have hlen : (got ++ src.take (readStep n (count - got.length) src.length)).length
          = got.length + readStep n (count - got.length) src.length := by
        rw [List.length_append, List.length_take]; omega
      have hcat : (got ++ src.take (readStep n (count - got.length) src.length)) ++
          src.drop (readStep n (count - got.length) src.length) = got ++ src := by
        rw [List.append_assoc, List.take_append_drop]
      simp only [safeRead]
      split
      · have := ih _ (src.drop (readStep n (count - got.length) src.length))
          (show (got ++ src.take (readStep n (count - got.length) src.length)).length ≤ count by
            rw [hlen]; omega)
        refine ⟨this.1.trans hcat, this.2.1, this.2.2.1, fun h => ?_⟩
        rcases this.2.2.2 h with e | e <;> simp [e]
      · next hc =>
        refine ⟨hcat, by rw [hlen]; omega, fun m hm => ?_, by simp⟩
        injection hm with hm
        refine ⟨hm.symm, ?_⟩
        rw [hlen] at hc hm
        by_cases hz : readStep n (count - got.length) src.length = 0
        · by_cases hs : src = []
          · right; simp [hs]
          · left
            have hp : 0 < src.length := List.length_pos_iff.mpr hs
            unfold readStep at hz
            omega
        · left; omega

/-- **C04 (read).** Whatever the kernel does: what ends up in the buffer
followed by what is still unread is exactly the incoming stream (nothing lost,
duplicated or reordered); at most `count` bytes are taken; the return value is
the number of bytes delivered; it is short only at end of file; and `-1` is
returned only on a hard error (`EAGAIN` counts as one for reads). -/
theorem safe_read_exact (count : Nat) (ks : List K) (src : List Byte) :
    let r := safeRead count ks [] src
    r.2.1 ++ r.2.2 = src ∧ r.2.1.length ≤ count ∧
    (∀ n, r.1 = .ret n → n = r.2.1.length ∧ (n = count ∨ r.2.2 = [])) ∧
    (r.1 = .fail → K.err ∈ ks ∨ K.eagain ∈ ks) := by
  simpa using safeRead_aux count ks [] src (Nat.zero_le _)

/-- **C04 (write).** Whatever the kernel does: what the kernel accepted followed
by what is left is exactly the buffer; the return value is the number accepted;
it is short only after `EAGAIN`; `-1` only on a hard error. -/
theorem safe_write_exact (ks : List K) (buf : List Byte) :
    let r := safeWrite ks buf []
    r.2.2 ++ r.2.1 = buf ∧
    (∀ n, r.1 = .ret n → n = r.2.2.length ∧ (n = buf.length ∨ K.eagain ∈ ks)) ∧
    (r.1 = .fail → K.err ∈ ks) := by
  have aux : ∀ (ks : List K) (buf out : List Byte),
      let r := safeWrite ks buf out
      r.2.2 ++ r.2.1 = out ++ buf ∧
      (∀ n, r.1 = .ret n → n = r.2.2.length ∧ (n = out.length + buf.length ∨ K.eagain ∈ ks)) ∧
      (r.1 = .fail → K.err ∈ ks) := by
    intro ks
    induction ks with
    | nil => intro buf out; simp [safeWrite]
    | cons k ks ih =>
      intro buf out
      cases k with
      | eintr =>
        simp only [safeWrite]
        split
        · have := ih buf out
          refine ⟨this.1, fun n hn => ?_, fun h => by simp [this.2.2 h]⟩
          obtain ⟨h1, h2⟩ := this.2.1 n hn
          refine ⟨h1, ?_⟩
          rcases h2 with e | e <;> simp [e]
        · next hb =>
          have hb : buf = [] := by simpa using hb
          subst hb
          refine ⟨rfl, fun n hn => ?_, by simp⟩
          injection hn with hn
          simp [hn]
      | eagain =>
        refine ⟨by simp [safeWrite], fun n hn => ?_, by simp [safeWrite]⟩
        simp only [safeWrite] at hn ⊢
        injection hn with hn
        simp [hn]
      | err => simp [safeWrite]
      | data n =>
        have hcat : (out ++ buf.take (writeStep n buf.length)) ++ buf.drop (writeStep n buf.length)
            = out ++ buf := by rw [List.append_assoc, List.take_append_drop]
        have hlen : (out ++ buf.take (writeStep n buf.length)).length +
            (buf.drop (writeStep n buf.length)).length = out.length + buf.length := by
          have := congrArg List.length hcat
          simpa only [List.length_append] using this
        simp only [safeWrite]
        split
        · have := ih (buf.drop (writeStep n buf.length)) (out ++ buf.take (writeStep n buf.length))
          refine ⟨this.1.trans hcat, fun m hm => ?_, fun h => by simp [this.2.2 h]⟩
          obtain ⟨h1, h2⟩ := this.2.1 m hm
          refine ⟨h1, ?_⟩
          rcases h2 with e | e
          · left; omega
          · right; simp [e]
        · next hb =>
          have hb : buf.drop (writeStep n buf.length) = [] := by simpa using hb
          refine ⟨hcat, fun m hm => ?_, by simp⟩
          injection hm with hm
          refine ⟨hm.symm, Or.inl ?_⟩
          rw [hb] at hlen
          simp only [List.length_nil] at hlen
          omega
  simpa using aux ks buf []

/-- **C04 (read progress).** Interruptions alone cannot starve a read: `count`
successful calls, interleaved with any number of `EINTR`s, always suffice to
return, and with enough incoming bytes the return value is `count`. -/
theorem safe_read_progress (count : Nat) (ks : List K) (src : List Byte)
    (hk : ∀ k ∈ ks, k = .eintr ∨ ∃ n, k = .data n)
    (hn : count < (ks.filter (· != K.eintr)).length) :
    ∃ n, (safeRead count ks [] src).1 = .ret n ∧ (count ≤ src.length → n = count) := by
  have aux : ∀ (ks : List K) (got src : List Byte), got.length ≤ count →
      (∀ k ∈ ks, k = .eintr ∨ ∃ n, k = .data n) →
      count - got.length < (ks.filter (· != K.eintr)).length →
      ∃ n, (safeRead count ks got src).1 = .ret n := by
    intro ks
    induction ks with
    | nil => intro got src _ _ h; simp at h
    | cons k ks ih =>
      intro got src hg hk hn
      have hk' : ∀ k ∈ ks, k = .eintr ∨ ∃ n, k = .data n := fun x hx => hk x (by simp [hx])
      rcases hk k (by simp) with e | ⟨n, e⟩ <;> subst e
      · simp only [safeRead]
        split
        · exact ih got src hg hk' (by simpa using hn)
        · exact ⟨_, rfl⟩
      · have hr := readStep_le n (count - got.length) src.length
        have hlen : (got ++ src.take (readStep n (count - got.length) src.length)).length
            = got.length + readStep n (count - got.length) src.length := by
          rw [List.length_append, List.length_take]; omega
        simp only [safeRead]
        split
        · next hc =>
          refine ih _ _ (by rw [hlen]; omega) hk' ?_
          have hn' : count - got.length < (ks.filter (· != K.eintr)).length + 1 := by
            simpa using hn
          rw [hlen]
          have := hc.2
          omega
        · exact ⟨_, rfl⟩
  obtain ⟨n, hret⟩ := aux ks [] src (Nat.zero_le _) hk (by simpa using hn)
  refine ⟨n, hret, fun hs => ?_⟩
  have := safe_read_exact count ks src
  obtain ⟨h1, h2⟩ := this.2.2.1 n hret
  rcases h2 with e | e
  · exact e
  · have hl := congrArg List.length this.1
    rw [e] at hl
    simp only [List.append_nil] at hl
    have := this.2.1
    omega

/-- A read of 4 bytes against a kernel that interrupts twice and delivers in
pieces; the write likewise; a short write after `EAGAIN`. -/
example : safeRead 4 [.eintr, .data 1, .eintr, .data 9] [] [1, 2, 3, 4, 5] = (.ret 4, [1, 2, 3, 4], [5]) := by
  decide
example : safeWrite [.data 2, .eintr, .data 0, .data 1] [1, 2, 3] [] = (.ret 3, [], [1, 2, 3]) := by decide
example : safeWrite [.data 2, .eagain] [1, 2, 3] [] = (.ret 2, [3], [1, 2]) := by decide
example : (∀ k ∈ [K.eintr, .data 1, .eintr, .data 0, .data 3, .data 1, .data 1], k = .eintr ∨ ∃ n, k = .data n) ∧
    4 < ([K.eintr, .data 1, .eintr, .data 0, .data 3, .data 1, .data 1].filter (· != K.eintr)).length := by
  simp

end Verif.SafeIO
