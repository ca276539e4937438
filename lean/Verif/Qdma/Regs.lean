import Verif.Qdma.HistRing

/-! # C49: registers, contexts and strobes -/

namespace Verif.Qdma

/-- A whole-word register write and read. -/
def wr (w : Nat) (x : BitVec 32) : Gp := ⟨.write, 4 * w, leEnc 4 x.toNat, [], 4⟩
def rd (w : Nat) : Gp := ⟨.read, 4 * w, [0, 0, 0, 0], [], 4⟩

/-- The registers without a function of their own: not the identification and
version words, not the interrupt configuration word, not the context command, not
the queue indices. -/
def Plain (v : Ver) (w : Nat) : Prop :=
  w < 0x18000 ∧ w ≠ 0 ∧ w ≠ 0x4D ∧ w ≠ 0xB1 ∧ w ≠ cmdReg v ∧
    ¬ (dmap v / 4 ≤ w ∧ w ≤ dmap v / 4 + 11)

/-- The context command a driver writes: queue, selector, operation. -/
def ctxOp (v : Ver) (q sel c : Nat) : Gp := wr (cmdReg v) (BitVec.ofNat 32 (128 * q + 32 * c + 2 * sel))

/-! ### Helpers -/

theorem wordOf_leEnc' (x : BitVec 32) : wordOf (leEnc 4 x.toNat) = x := by
  apply BitVec.eq_of_toNat_eq
  rw [wordOf_leEnc]
  exact Nat.mod_eq_of_lt x.isLt

theorem wr_refused (w : Nat) (x : BitVec 32) : refused (wr w x) = false := by
  simp [refused, wr, Gp.len]

theorem rd_refused (w : Nat) : refused (rd w) = false := by
  simp [refused, rd, Gp.len]

theorem cfg_wr (v : Ver) (env : Env) (w : Nat) (x : BitVec 32) (s : S) :
    cfg v env (wr w x) s = match cfgWrite v env (4 * w) x s with
      | .ok s => .ok (s, .ok, leEnc 4 x.toNat)
      | .error e => .error e := by
  unfold cfg
  rw [wr_refused]
  simp only [Bool.false_eq_true, if_false, wr, wordOf_leEnc']
  cases cfgWrite v env (4 * w) x s <;> rfl

theorem leEnc_length' (n x : Nat) : (leEnc n x).length = n := by simp

theorem cfgRead_eq (v : Ver) (w : Nat) (s : S) (h : w < nRegs) :
    cfgRead v (4 * w) s = .ok (if w = 0x4D then version v else s.regs w) := by
  unfold cfgRead
  have e : 4 * w / 4 = w := by omega
  rw [e]
  by_cases c : w = 0x134 / 4
  · rw [if_pos c, if_pos c]
  · rw [if_neg c, if_pos h, if_neg c]

theorem cfg_rd (v : Ver) (env : Env) (w : Nat) (s : S) (h : w < nRegs) :
    cfg v env (rd w) s = .ok (s, .ok, leEnc 4 (if w = 0x4D then version v else s.regs w).toNat) := by
  unfold cfg
  rw [rd_refused]
  simp only [Bool.false_eq_true, if_false, rd]
  rw [cfgRead_eq v w s h]
  simp only
  rw [List.take_of_length_le (by rw [leEnc_length']; simp [Gp.len])]

theorem cfgWrite_plain (v : Ver) (env : Env) (w : Nat) (x : BitVec 32) (s : S) (h : Plain v w) :
    cfgWrite v env (4 * w) x s = .ok (s.setReg w x) := by
  obtain ⟨h1, h2, h3, h4, h5, h6⟩ := h
  have hd : dmap v % 16 = 0 := by cases v <;> rfl
  unfold cfgWrite
  simp only
  rw [show 4 * w / 4 = w by omega, if_neg (by unfold queueCount; omega), if_neg h5, if_neg (by omega),
    if_neg (by omega), if_pos (by unfold nRegs; exact h1)]

theorem ctxWord (q sel c : Nat) (hq : q < 2 ^ 13) (hc : c < 4) (hs : sel < 16) :
    getF (BitVec.ofNat 32 (128 * q + 32 * c + 2 * sel)) 7 13 = q ∧
    getF (BitVec.ofNat 32 (128 * q + 32 * c + 2 * sel)) 5 2 = c ∧
    getF (BitVec.ofNat 32 (128 * q + 32 * c + 2 * sel)) 1 4 = sel := by
  simp only [getF_eq, BitVec.toNat_ofNat]
  refine ⟨?_, ?_, ?_⟩ <;> omega

theorem cfg_ctxOp (v : Ver) (env : Env) (q sel c : Nat) (s : S) :
    cfg v env (ctxOp v q sel c) s =
      match ctxCmd (BitVec.ofNat 32 (128 * q + 32 * c + 2 * sel)) s with
      | .ok s1 => .ok (s1.setReg (cmdReg v)
          (BitVec.ofNat 32 (128 * q + 32 * c + 2 * sel) &&& 0xFFFFFFFE#32), .ok,
          leEnc 4 (BitVec.ofNat 32 (128 * q + 32 * c + 2 * sel)).toNat)
      | .error e => .error e := by
  unfold ctxOp
  rw [cfg_wr]
  generalize BitVec.ofNat 32 (128 * q + 32 * c + 2 * sel) = x
  have hcr : cmdReg v < dmap v / 4 := by cases v <;> decide
  unfold cfgWrite
  simp only
  rw [show 4 * cmdReg v / 4 = cmdReg v by omega, if_neg (by omega), if_pos rfl]
  cases ctxCmd x s <;> rfl

/-! ### Registers -/

/-- **Registers keep what is written.**  A plain register reads back the word last
written to it, and a write to it changes nothing else in the device. -/
theorem register_roundtrip (v : Ver) (env env' : Env) (w : Nat) (x : BitVec 32) (s : S) (h : Plain v w) :
    ∃ s', cfg v env (wr w x) s = .ok (s', .ok, leEnc 4 x.toNat) ∧
      cfg v env' (rd w) s' = .ok (s', .ok, leEnc 4 x.toNat) ∧
      (∀ u, u ≠ w → s'.regs u = s.regs u) ∧
      s' = { s with regs := s'.regs } := by
  refine ⟨s.setReg w x, ?_, ?_, ?_, rfl⟩
  · rw [cfg_wr, cfgWrite_plain v env w x s h]
  · rw [cfg_rd _ _ _ _ h.1, if_neg h.2.2.1, setReg_same]
  · intro u hu; exact if_neg hu

/-- `register_roundtrip` covers a general-purpose register. -/
example : Plain .cpm5 0x201 ∧ Plain .cpm4 0x100 := ⟨by unfold Plain; decide, by unfold Plain; decide⟩

/-- **Identification and version.**  After a reset the identification word reads
`0x1FD30001`, and the version word that of the generation, whatever is done to the
device afterwards: nothing can overwrite them. -/
theorem ident_constant (v : Ver) (env : Env) (s s' : S) (os : List Op)
    (h : hist v s (.reset :: os) = .ok s') :
    cfg v env (rd 0) s' = .ok (s', .ok, [0x01, 0x00, 0xD3, 0x1F]) ∧
    cfg v env (rd 0x4D) s' = .ok (s', .ok, leEnc 4 (version v).toNat) := by
  refine ⟨?_, by rw [cfg_rd _ _ _ _ (by decide)]; rfl⟩
  rw [cfg_rd _ _ _ _ (by decide)]
  have key : ∀ (os : List Op) (s s' : S), s.regs 0 = 0x1FD30001#32 → hist v s os = .ok s' →
      s'.regs 0 = 0x1FD30001#32 := by
    intro os
    induction os with
    | nil => intro s s' h0 h; injection h with h; rw [← h]; exact h0
    | cons o os ih =>
      intro s s' h0 h
      simp only [hist] at h
      cases h1 : step v s o with
      | error e => rw [h1] at h; cases h
      | ok s1 =>
        rw [h1] at h
        refine ih s1 s' ?_ h
        cases o with
        | host m => injection h1 with h1; rw [← h1]; exact h0
        | card m => injection h1 with h1; rw [← h1]; exact h0
        | reset => injection h1 with h1; rw [← h1]; rfl
        | user g =>
          simp only [step, user] at h1
          split at h1
          · cases h1; exact h0
          · split at h1
            · split at h1
              · cases h1; exact h0
              · cases h1
            · split at h1
              · cases h1; exact h0
              · cases h1
            · cases h1; exact h0
        | cfg env g =>
          cases cfg_cases v env g s s1 h1 with
          | quiet k =>
            rcases k with k | ⟨w, x, hw, k⟩
            · rw [k]; exact h0
            · rw [k]
              show (if 0 = w then x else s.regs 0) = _
              rw [if_neg (Ne.symm hw)]; exact h0
          | bell q' h' p hb' hc ho hp hr =>
            rw [(run_frame _ _ _ _ _ _ hr).1]
            show (if 0 = pidxReg v h' q' then _ else s.regs 0) = _
            rw [if_neg (by
              unfold pidxReg
              have : 16 ≤ dmap v := by cases v <;> decide
              omega)]
            exact h0
          | ctx s2 hb' hc k1 hs =>
            rw [hs]
            show (if 0 = cmdReg v then _ else s2.regs 0) = _
            rw [if_neg (by cases v <;> decide)]
            have : s2.regs 0 = s.regs 0 := by
              unfold ctxCmd irqCtxCmd at k1
              simp only at k1
              have pd : ∀ c, putData s.regs c 0 = s.regs 0 := fun c => if_neg (by omega)
              repeat' split at k1
              all_goals first
                | cases k1; done
                | (injection k1 with k1; rw [← k1]; first | done | rfl | exact pd _)
            rw [this]; exact h0
  have := key os (reset s) s' rfl h
  simp only [Nat.reduceEqDiff, if_false, this]
  rfl

/-- The writes of the code's own test are among the histories covered. -/
example (s : S) (env : Env) : ∃ s', hist .cpm5 s
    [.reset, .cfg env (wr 0 0xEFBEADDE), .cfg env (wr 0x4D 0xEFBEADDE)] = .ok s' :=
  ⟨_, by simp only [hist, step, cfg_wr]; rfl⟩

/-! ### Contexts -/

/-- **A context command does exactly what it says.**  For the two queues and the
known selectors, the command is accepted and: clear zeroes the context, write takes
the data registers, read puts the context there, and no other context, no memory and
nothing in the log changes. -/
theorem context_command (v : Ver) (env : Env) (q sel c : Nat) (s : S) (hq : q < 2) (hc : c < 3)
    (hsel : sel < 8 ∨ sel = 8 ∨ sel = 12) :
    ∃ s', cfg v env (ctxOp v q sel c) s = .ok (s', .ok, leEnc 4 (128 * q + 32 * c + 2 * sel)) ∧
      (c = 0 → s'.ctx q sel = 0) ∧ (c = 1 → s'.ctx q sel = dataCtx s.regs) ∧
      (c = 2 → s'.ctx = s.ctx ∧ s'.slot = s.slot ∧
        ∀ i, i < 8 → s'.regs (0x201 + i) = (s.ctx q sel).extractLsb' (32 * i) 32) ∧
      (∀ a b, ¬ (a = q ∧ b = sel) → s'.ctx a b = s.ctx a b) ∧
      s'.host = s.host ∧ s'.card = s.card ∧ s'.log = s.log := by
  obtain ⟨f1, f2, f3⟩ := ctxWord q sel c (by omega) (by omega) (by omega)
  have hlen : (BitVec.ofNat 32 (128 * q + 32 * c + 2 * sel)).toNat = 128 * q + 32 * c + 2 * sel := by
    rw [BitVec.toNat_ofNat]; omega
  rw [cfg_ctxOp, hlen]
  have hok : ∃ s1, ctxCmd (BitVec.ofNat 32 (128 * q + 32 * c + 2 * sel)) s = .ok s1 ∧
      (c = 0 → s1.ctx q sel = 0) ∧ (c = 1 → s1.ctx q sel = dataCtx s.regs) ∧
      (c = 2 → s1 = { s with regs := putData s.regs (s.ctx q sel) }) := by
    unfold ctxCmd
    simp only [f1, f2, f3]
    have hso : sel ≠ intSel → selOk sel = true := by
      intro h
      unfold selOk intSel at *
      rcases hsel with h' | h' | h'
      · simp [h']
      · exact absurd h' h
      · simp [h']
    by_cases c1 : sel = intSel
    · rw [if_pos c1]
      unfold irqCtxCmd
      rw [if_neg (by unfold queueCount; omega)]
      match c, hc with
      | 0, _ => exact ⟨_, rfl, fun _ => by rw [c1, setCtx_same], nofun, nofun⟩
      | 1, _ =>
        simp only
        split
        · refine ⟨_, rfl, nofun, fun _ => ?_, nofun⟩
          rw [c1]; exact setCtx_same _ _ _ _
        · exact ⟨_, rfl, nofun, fun _ => by rw [c1, setCtx_same], nofun⟩
      | 2, _ => exact ⟨_, rfl, nofun, nofun, fun _ => by rw [c1]⟩
      | k + 3, h => omega
    · rw [if_neg c1, if_neg (by unfold queueCount; omega), hso c1]
      simp only [Bool.not_true, Bool.false_eq_true, if_false]
      match c, hc with
      | 0, _ => exact ⟨_, rfl, fun _ => setCtx_same _ _ _ _, nofun, nofun⟩
      | 1, _ => exact ⟨_, rfl, nofun, fun _ => setCtx_same _ _ _ _, nofun⟩
      | 2, _ => exact ⟨_, rfl, nofun, nofun, fun _ => rfl⟩
      | k + 3, h => omega
  obtain ⟨s1, hs1, k0, k1, k2⟩ := hok
  obtain ⟨g1, g2, g3, g4, g5, g6⟩ := ctxCmd_frame _ _ _ hs1
  rw [hs1]
  refine ⟨_, rfl, k0, k1, ?_, ?_, g1, g2, g4⟩
  · intro h
    have hk := k2 h
    subst hk
    refine ⟨rfl, rfl, fun i hi => ?_⟩
    show (if 0x201 + i = cmdReg v then _ else putData s.regs (s.ctx q sel) (0x201 + i)) = _
    rw [if_neg (by
      have : 0x209 ≤ cmdReg v := by cases v <;> decide
      omega)]
    unfold putData
    rw [if_pos (by omega), show 0x201 + i - 0x201 = i by omega]
  · intro a b hab
    refine g5 a b ?_
    rw [f1, f3]
    exact fun x => hab ⟨x.1, x.2.1⟩

/-- An operation that leaves one context alone: no command on it, no doorbell. -/
theorem step_ctx (v : Ver) (s s' : S) (q sel : Nat) (o : Op) (h : step v s o = .ok s')
    (ht : ¬ Touches v q sel o) (hb : ∀ q h2c, bellOf v q h2c o = none) : s'.ctx q sel = s.ctx q sel := by
  cases o with
  | host m => injection h with h; rw [← h]
  | card m => injection h with h; rw [← h]
  | reset => injection h with h; rw [← h]; rfl
  | user g =>
    simp only [step, user] at h
    split at h
    · cases h; rfl
    · split at h
      · split at h
        · cases h; rfl
        · cases h
      · split at h
        · cases h; rfl
        · cases h
      · cases h; rfl
  | cfg env g =>
    cases cfg_cases v env g s s' h with
    | quiet h =>
      rcases h with h | ⟨w, x, _, h⟩
      · rw [h]
      · rw [h]; rfl
    | bell q' h' p hb' hc ho hp hr => rw [hb] at hb'; cases hb'
    | ctx s1 hb' hc h1 hs =>
      obtain ⟨_, _, _, k4, k5, k6⟩ := ctxCmd_frame _ _ _ h1
      rw [hs]
      refine k5 _ _ ?_
      rintro ⟨e1, e2, e3⟩
      exact ht ⟨_, e3, by rw [hc, ← e1, ← e2]⟩

theorem hist_append (v : Ver) (a b : List Op) : ∀ s, hist v s (a ++ b) =
    match hist v s a with
    | .ok s => hist v s b
    | .error e => .error e := by
  induction a with
  | nil => intro s; rfl
  | cons o a ih =>
    intro s
    simp only [List.cons_append, hist]
    cases step v s o with
    | error e => rfl
    | ok s1 => exact ih s1

/-- **Contexts keep what is written.**  Write a context, do anything that is neither
a doorbell nor a command changing that same context, read it back: the eight data
registers hold the words they held at the write. -/
theorem context_roundtrip (v : Ver) (env env' : Env) (q sel : Nat) (s s' : S) (os : List Op) (hq : q < 2)
    (hsel : sel < 8 ∨ sel = 8 ∨ sel = 12)
    (ho : ∀ o ∈ os, ¬ Touches v q sel o ∧ ∀ q h2c, bellOf v q h2c o = none)
    (h : hist v s ([.cfg env (ctxOp v q sel 1)] ++ os ++ [.cfg env' (ctxOp v q sel 2)]) = .ok s') :
    ∀ i, i < 8 → s'.regs (0x201 + i) = s.regs (0x201 + i) := by
  intro i hi
  obtain ⟨s1, a1, _, a2, _⟩ := context_command v env q sel 1 s hq (by decide) hsel
  rw [List.append_assoc, hist_append] at h
  simp only [hist, step] at h
  rw [a1] at h
  simp only [Except.map] at h
  rw [hist_append] at h
  cases h2 : hist v s1 os with
  | error e => rw [h2] at h; cases h
  | ok s2 =>
    rw [h2] at h
    simp only at h
    obtain ⟨s3, b1, _, _, b3, _⟩ := context_command v env' q sel 2 s2 hq (by decide) hsel
    simp only [hist, step] at h
    rw [b1] at h
    simp only [Except.map] at h
    injection h with h
    subst h
    rw [(b3 rfl).2.2 i hi]
    have key : ∀ (os : List Op), (∀ o ∈ os, ¬ Touches v q sel o ∧ ∀ q h2c, bellOf v q h2c o = none) →
        ∀ (s s' : S), hist v s os = .ok s' → s'.ctx q sel = s.ctx q sel := by
      intro os
      induction os with
      | nil => intro _ s s' h; injection h with h; rw [← h]
      | cons o os ih =>
        intro ho s s' h
        simp only [hist] at h
        cases hs : step v s o with
        | error e => rw [hs] at h; cases h
        | ok t =>
          rw [hs] at h
          obtain ⟨o1, o2⟩ := ho o (List.mem_cons_self ..)
          rw [ih (fun o ho' => ho o (List.mem_cons_of_mem _ ho')) t s' h, step_ctx v s t q sel o hs o1 o2]
    rw [key os ho s1 s2 h2, a2 rfl]
    have := putData_dataCtx s.regs s.regs (0x201 + i) (by omega)
    unfold putData at this
    rw [if_pos (by omega), show 0x201 + i - 0x201 = i by omega] at this
    exact this

/-- Other contexts may be written in between. -/
example (s : S) (env : Env) : ∃ s', hist .cpm5 s ([.cfg env (ctxOp .cpm5 1 0 1)] ++
    [.cfg env (wr 0x201 7), .cfg env (ctxOp .cpm5 0 0 1)] ++ [.cfg env (ctxOp .cpm5 1 0 2)]) = .ok s' := by
  obtain ⟨s1, a1, _⟩ := context_command .cpm5 env 1 0 1 s (by decide) (by decide) (by decide)
  obtain ⟨s2, a2, _⟩ := register_roundtrip .cpm5 env env 0x201 7 s1 (by unfold Plain; decide)
  obtain ⟨s3, a3, _⟩ := context_command .cpm5 env 0 0 1 s2 (by decide) (by decide) (by decide)
  obtain ⟨s4, a4, _⟩ := context_command .cpm5 env 1 0 2 s3 (by decide) (by decide) (by decide)
  refine ⟨s4, ?_⟩
  simp only [hist, step, List.cons_append, List.nil_append, a1, a2, a3, a4, Except.map]

/-- **An interrupt ring starts at its beginning.**  Writing a valid interrupt context
over an invalid one puts the next entry into slot 0. -/
theorem irq_context_starts (v : Ver) (env : Env) (r : Nat) (s s' : S) (st : Status) (d : List Byte) (hr : r < 2)
    (h0 : icValid (s.ctx r intSel) = false) (h1 : icValid (dataCtx s.regs) = true)
    (h : cfg v env (ctxOp v r intSel 1) s = .ok (s', st, d)) : s'.slot r = 0 := by
  obtain ⟨f1, f2, f3⟩ := ctxWord r intSel 1 (by omega) (by decide) (by decide)
  rw [cfg_ctxOp] at h
  unfold ctxCmd irqCtxCmd at h
  simp only [f1, f2, f3] at h
  rw [if_pos trivial, if_neg (by unfold queueCount; omega)] at h
  simp only [h0, h1, Bool.not_false, Bool.and_self, if_true] at h
  injection h with h
  obtain ⟨e1, _⟩ := Prod.mk.inj h
  rw [← e1]
  show (if r = r then 0 else s.slot r) = 0
  rw [if_pos rfl]

/-! ### Strobes -/

/-- **Strobes.**  For every series of interrupt requests on a vector: each strobe
answers a request made at that very time, strobes are at least 10 ns apart (so they
never overlap), and each request falls into the 10 ns of some strobe.  Partial: a
request that falls into a strobe already under way has no strobe of its own
(`strobe_merged`). -/
theorem strobe_covers_partial (tie : Nat → Bool) (ts : List Nat) (h : ts.Pairwise (· ≤ ·)) :
    (strobe tie 0 ts).Sublist ts ∧ (strobe tie 0 ts).Pairwise (fun a b => a + 10 ≤ b) ∧
    ∀ t ∈ ts, ∃ r ∈ strobe tie 0 ts, r ≤ t ∧ t ≤ r + 10 := by
  have key : ∀ (ts : List Nat) (b : Nat), ts.Pairwise (· ≤ ·) →
      (strobe tie b ts).Sublist ts ∧ (strobe tie b ts).Pairwise (fun a b => a + 10 ≤ b) ∧
      (∀ r ∈ strobe tie b ts, b ≤ r) ∧
      ∀ t ∈ ts, t ≤ b ∧ b ≠ 0 ∨ ∃ r ∈ strobe tie b ts, r ≤ t ∧ t ≤ r + 10 := by
    intro ts
    induction ts with
    | nil => intro b _; exact ⟨.slnil, .nil, nofun, nofun⟩
    | cons t ts ih =>
      intro b hp
      rw [List.pairwise_cons] at hp
      simp only [strobe]
      by_cases c : t < b ∨ (t = b ∧ b ≠ 0 ∧ tie t = false)
      · rw [if_pos c]
        obtain ⟨i1, i2, i3, i4⟩ := ih b hp.2
        refine ⟨.cons _ i1, i2, i3, ?_⟩
        intro x hx
        rcases List.mem_cons.1 hx with rfl | hx
        · left; omega
        · exact i4 x hx
      · rw [if_neg c]
        obtain ⟨i1, i2, i3, i4⟩ := ih (t + 10) hp.2
        refine ⟨.cons_cons _ i1, List.pairwise_cons.2 ⟨i3, i2⟩, ?_, ?_⟩
        · intro r hr
          rcases List.mem_cons.1 hr with rfl | hr
          · omega
          · have := i3 r hr; omega
        · intro x hx
          right
          rcases List.mem_cons.1 hx with rfl | hx
          · exact ⟨_, List.mem_cons_self .., by omega, by omega⟩
          · rcases i4 x hx with k | ⟨r, hr, k⟩
            · exact ⟨t, List.mem_cons_self .., hp.1 x hx, k.1⟩
            · exact ⟨r, List.mem_cons_of_mem _ hr, k⟩
  obtain ⟨k1, k2, _, k4⟩ := key ts 0 h
  exact ⟨k1, k2, fun t ht => (k4 t ht).resolve_left fun x => x.2 rfl⟩

/-- Three requests, two strobes. -/
example : strobe (fun _ => true) 0 [5, 12, 40] = [5, 40] := by decide

end Verif.Qdma
