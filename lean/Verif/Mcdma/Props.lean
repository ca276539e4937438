import Verif.Mcdma.Lemmas
/-!
C35: the MCDMA transmits every descriptor once and in order.

`Program` is what software sets up: for every channel a list of descriptors in
memory, from the current one to the tail.
-/
namespace Verif.Mcdma
open Verif

/-- A descriptor as software sees it. -/
structure Desc where
  addr : Nat
  next : Nat
  buf : Nat
  len : Nat
  eof : Bool
  stat : Nat
  bytes : List Byte

/-- The descriptor is in memory, not completed, and its buffer holds `bytes`. -/
structure Holds (m : Mem) (d : Desc) : Prop where
  next : leDec (m.range d.addr 8) = d.next
  buf : leDec (m.range (d.addr + 8) 8) = d.buf
  len : leDec (m.range (d.addr + 20) 4) % 2 ^ 26 = d.len
  eof : (leDec (m.range (d.addr + 20) 4)).testBit 30 = d.eof
  stat : leDec (m.range (d.addr + 28) 4) = d.stat
  open_ : d.stat.testBit 31 = false
  bytes : m.range d.buf d.len = d.bytes

/-- Globally running, enabled, channel running. -/
def enabled (s : St) (c : Nat) : Bool :=
  s.ccr.getLsbD 0 && s.chen.getLsbD c && (s.ch c).cr.getLsbD 0

structure Program (s : St) (cs : Nat → List Desc) (n : Nat) : Prop where
  off : ∀ c, c < n → enabled s c = false → cs c = []
  idle : ∀ c, c < n → enabled s c = true → cs c = [] → (s.ch c).sr.getLsbD 0 = true
  run : ∀ c, c < n → cs c ≠ [] → (s.ch c).sr.getLsbD 0 = false
  first : ∀ c, c < n → ∀ d, (cs c)[0]? = some d → (s.ch c).cur = d.addr
  link : ∀ c, c < n → ∀ (i : Nat) d e, (cs c)[i]? = some d → (cs c)[i + 1]? = some e →
    d.next = e.addr ∧ d.addr ≠ (s.ch c).tail
  last : ∀ c, c < n → ∀ (i : Nat) d, (cs c)[i]? = some d → (cs c)[i + 1]? = none → d.addr = (s.ch c).tail
  holds : ∀ c, c < n → ∀ d ∈ cs c, Holds s.mem d
  fit : ∀ c, c < n → ∀ d ∈ cs c, d.len ≤ 128 * 1024
  sepBuf : ∀ c, c < n → ∀ d ∈ cs c, ∀ c', c' < n → ∀ d' ∈ cs c',
    d.addr + 32 ≤ d'.buf ∨ d'.buf + d'.len ≤ d.addr + 28
  sepDesc : ∀ c, c < n → ∀ (i : Nat) d, (cs c)[i]? = some d → ∀ c', c' < n → ∀ (i' : Nat) d', (cs c')[i']? = some d' →
    (c = c' ∧ i = i') ∨ d.addr + 52 ≤ d'.addr ∨ d'.addr + 52 ≤ d.addr

def push (c : Nat) (d : Desc) : Push := ⟨c, d.bytes, d.eof⟩

/-- What has been done after `k c` descriptors of every channel `c`. -/
structure Progress (s0 : St) (cs : Nat → List Desc) (n : Nat) (k : Nat → Nat) (s : St) : Prop where
  ccr : s.ccr = s0.ccr
  chen : s.chen = s0.chen
  cr : ∀ c, (s.ch c).cr = (s0.ch c).cr
  tail : ∀ c, (s.ch c).tail = (s0.ch c).tail
  le : ∀ c, c < n → k c ≤ (cs c).length
  out : ∀ c, c < n → s.out.filter (fun p => decide (p.ch = c)) =
    s0.out.filter (fun p => decide (p.ch = c)) ++ ((cs c).take (k c)).map (push c)
  outOther : ∀ c, n ≤ c → s.out.filter (fun p => decide (p.ch = c)) = s0.out.filter (fun p => decide (p.ch = c))
  mem : ∀ x, (∀ c, c < n → ∀ d ∈ (cs c).take (k c), ¬ (d.addr + 28 ≤ x ∧ x < d.addr + 32)) → s.mem x = s0.mem x
  stat : ∀ c, c < n → ∀ d ∈ (cs c).take (k c), s.mem.range (d.addr + 28) 4 = leEnc 4 (d.stat ||| 2 ^ 31 ||| d.len)
  idle : ∀ c, c < n → enabled s0 c = true → (s.ch c).sr.getLsbD 0 = decide (k c = (cs c).length)
  ioc : ∀ c, c < n → 0 < k c → (s.ch c).sr.getLsbD 5 = true
  cur : ∀ c, c < n → ∀ d, (cs c)[k c]? = some d → (s.ch c).cur = d.addr

theorem holds_of_eq {m m' : Mem} {d : Desc} (h : Holds m d) (hd : ∀ x, d.addr ≤ x → x < d.addr + 52 → m' x = m x)
    (hb : ∀ x, d.buf ≤ x → x < d.buf + d.len → m' x = m x) : Holds m' d := by
  have r : ∀ off k, off + k ≤ 52 → m'.range (d.addr + off) k = m.range (d.addr + off) k := by
    intro off k hk
    apply List.map_congr_left
    intro i hi
    have := List.mem_range.1 hi
    exact hd _ (by omega) (by omega)
  have r0 := r 0 8 (by omega)
  rw [Nat.add_zero] at r0
  have rb : m'.range d.buf d.len = m.range d.buf d.len := by
    apply List.map_congr_left
    intro i hi
    have := List.mem_range.1 hi
    exact hb _ (by omega) (by omega)
  refine ⟨?_, ?_, ?_, ?_, ?_, h.open_, ?_⟩
  · rw [r0]; exact h.next
  · rw [r _ _ (by omega)]; exact h.buf
  · rw [r _ _ (by omega)]; exact h.len
  · rw [r _ _ (by omega)]; exact h.eof
  · rw [r _ _ (by omega)]; exact h.stat
  · rw [rb]; exact h.bytes

/-- Processing a descriptor that is in memory. -/
theorem process_eq {s : St} {c : Nat} {d : Desc} (h : Holds s.mem d) (hc : (s.ch c).cur = d.addr)
    (hf : d.len ≤ 128 * 1024) :
    ∃ x : Ch, process s c = some ({ s.setCh c x with
        mem := s.mem.store (d.addr + 28) (leEnc 4 (d.stat ||| 2 ^ 31 ||| d.len)), out := s.out ++ [push c d] }, true) ∧
      x.cr = (s.ch c).cr ∧ x.tail = (s.ch c).tail ∧ x.cur = d.next ∧ x.sr.getLsbD 5 = true ∧
      x.sr.getLsbD 0 = (decide (d.addr = (s.ch c).tail) || (s.ch c).sr.getLsbD 0) := by
  have f := range_field s.mem d.addr 52
  have f0 := f 0 8 (by omega)
  rw [Nat.add_zero, h.next] at f0
  have f8 := f 8 8 (by omega)
  rw [h.buf] at f8
  have f20 := f 20 4 (by omega)
  have f28 := f 28 4 (by omega)
  rw [h.stat] at f28
  have hlt : d.next < 2 ^ 64 := by
    have := leDec_lt (s.mem.range d.addr 8)
    rw [h.next, Mem.range_length] at this
    have e : (256 : Nat) ^ 8 = 2 ^ 64 := by decide
    omega
  unfold process
  try dsimp only
  rw [hc, f28, f20, f8, f0, h.len, h.eof, h.open_, h.bytes]
  rw [if_neg (by simp), if_neg (by unfold bufSize; omega)]
  rw [store_back s.mem s.mem d.addr 28 _ (by simp) (by omega) (fun _ _ => rfl)]
  refine ⟨_, rfl, ?_, ?_, ?_, irq_ioc _, ?_⟩
  · rw [(irq_rest _).2.1, (goto_rest _ _).2.1]; split
    · exact (setIdle_rest _ _).2.1
    · rfl
  · rw [(irq_rest _).2.2, (goto_rest _ _).2.2]; split
    · exact (setIdle_rest _ _).2.2
    · rfl
  · rw [(irq_rest _).1, goto_cur _ _ hlt]
  · rw [irq_idle, (goto_rest _ _).1]
    split
    · next ht => rw [setIdle_idle]; simp [ht]
    · next ht => simp [ht]

/-- One channel of a round: it advances by one descriptor, if it has one left. -/
theorem serve_ok {s0 : St} {cs : Nat → List Desc} {n : Nat} (hp : Program s0 cs n) {k : Nat → Nat} {s : St}
    (h : Progress s0 cs n k s) {c : Nat} (hc : c < n) :
    ∃ s', serve s c = some (s', decide (k c < (cs c).length)) ∧
      Progress s0 cs n (fun i => if i = c then min (k c + 1) (cs c).length else k i) s' := by
  have hle := h.le c hc
  have act : active s c = (enabled s0 c && !(s.ch c).sr.getLsbD 0) := by
    unfold active enabled
    rw [h.ccr, h.chen, h.cr]
  by_cases hk : k c < (cs c).length
  · -- a descriptor is left
    have hne : cs c ≠ [] := fun e => by rw [e] at hk; simp at hk
    have hen : enabled s0 c = true := by
      cases he : enabled s0 c with
      | true => rfl
      | false => exact absurd (hp.off c hc he) hne
    have hidle := h.idle c hc hen
    have hidle' : (s.ch c).sr.getLsbD 0 = false := by rw [hidle]; simp; omega
    have hget : (cs c)[k c]? = some (cs c)[k c] := List.getElem?_eq_getElem hk
    generalize hd : (cs c)[k c] = d at hget
    have hmem : d ∈ cs c := hd ▸ List.getElem_mem hk
    -- nothing done so far touches d
    have hholds : Holds s.mem d := by
      refine holds_of_eq (hp.holds c hc d hmem) ?_ ?_
      · intro x h1 h2
        refine h.mem x ?_
        intro c' hc' d' hd'
        obtain ⟨i', hi', e'⟩ := List.mem_take_iff_getElem.1 hd'
        have hi2 : (cs c')[i']? = some d' := by rw [List.getElem?_eq_getElem (by omega), e']
        rcases hp.sepDesc c hc (k c) d hget c' hc' i' d' hi2 with ⟨e1, e2⟩ | e | e
        · subst e1; omega
        · omega
        · omega
      · intro x h1 h2
        refine h.mem x ?_
        intro c' hc' d' hd'
        have := hp.sepBuf c' hc' d' (List.mem_of_mem_take hd') c hc d hmem
        omega
    obtain ⟨x, e, x1, x2, x3, x5, x4⟩ := process_eq hholds (h.cur c hc d hget) (hp.fit c hc d hmem)
    have hmin : min (k c + 1) (cs c).length = k c + 1 := by omega
    have htk : (cs c).take (k c + 1) = (cs c).take (k c) ++ [d] := by
      rw [List.take_succ_eq_append_getElem hk, hd]
    refine ⟨_, by unfold serve; rw [act, hen, hidle', if_pos (by rfl), e, decide_eq_true hk], ?_⟩
    rw [hmin]
    have chne : ∀ i, i ≠ c → (s.setCh c x).ch i = s.ch i := fun i hi => if_neg hi
    have cheq : (s.setCh c x).ch c = x := if_pos rfl
    constructor
    · exact h.ccr
    · exact h.chen
    · intro i
      by_cases hi : i = c
      · subst hi; show ((s.setCh i x).ch i).cr = _; rw [cheq, x1, h.cr]
      · show ((s.setCh c x).ch i).cr = _; rw [chne i hi, h.cr]
    · intro i
      by_cases hi : i = c
      · subst hi; show ((s.setCh i x).ch i).tail = _; rw [cheq, x2, h.tail]
      · show ((s.setCh c x).ch i).tail = _; rw [chne i hi, h.tail]
    · intro i hi
      try dsimp only
      split
      · next e => subst e; omega
      · exact h.le i hi
    · intro i hi
      try dsimp only
      rw [List.filter_append, h.out i hi]
      by_cases hic : i = c
      · subst hic
        rw [if_pos rfl, htk, List.map_append, List.append_assoc]
        simp [push]
      · rw [if_neg hic]
        simp [push, Ne.symm hic]
    · intro i hi
      try dsimp only
      rw [List.filter_append, h.outOther i hi]
      simp [push]
      omega
    · intro y hy
      have hy1 : ¬ (d.addr + 28 ≤ y ∧ y < d.addr + 32) :=
        hy c hc d (by rw [if_pos rfl, htk]; exact List.mem_append_right _ (List.mem_singleton_self _))
      have hy2 : s.mem y = s0.mem y := by
        refine h.mem y ?_
        intro c' hc' d' hd'
        refine hy c' hc' d' ?_
        try dsimp only
        split
        · next e => subst e; rw [htk]; exact List.mem_append_left _ hd'
        · exact hd'
      show (s.mem.store _ _) y = _
      unfold Mem.store
      rw [if_neg (by simp only [leEnc_length]; omega), hy2]
    · intro i hi d' hd'
      have : (d' = d ∧ i = c) ∨ d' ∈ (cs i).take (k i) := by
        try dsimp only at hd'
        split at hd'
        · next e =>
          subst e
          rw [htk] at hd'
          rcases List.mem_append.1 hd' with h | h
          · exact Or.inr h
          · exact Or.inl ⟨by simpa using h, rfl⟩
        · exact Or.inr hd'
      rcases this with ⟨e1, _⟩ | hold
      · subst e1
        have := s.mem.range_store (d'.addr + 28) (leEnc 4 (d'.stat ||| 2 ^ 31 ||| d'.len))
        rw [leEnc_length] at this
        exact this
      · show (s.mem.store _ _).range _ 4 = _
        rw [Mem.range_store_of_disjoint]
        · exact h.stat i hi d' hold
        · obtain ⟨i', hi', e'⟩ := List.mem_take_iff_getElem.1 hold
          have hi2 : (cs i)[i']? = some d' := by rw [List.getElem?_eq_getElem (by omega), e']
          rw [leEnc_length]
          rcases hp.sepDesc c hc (k c) d hget i hi i' d' hi2 with ⟨e1, e2⟩ | e | e
          · subst e1; omega
          · omega
          · omega
    · intro i hi hen'
      by_cases hic : i = c
      · subst hic
        show ((s.setCh i x).ch i).sr.getLsbD 0 = _
        rw [cheq, x4, hidle', Bool.or_false, h.tail]
        try dsimp only
        rw [if_pos rfl]
        cases hn : (cs i)[k i + 1]? with
        | none =>
          have := hp.last i hi (k i) d hget hn
          have hl := List.getElem?_eq_none_iff.1 hn
          simp [this]; omega
        | some e' =>
          have := (hp.link i hi (k i) d e' hget hn).2
          have hl := (List.getElem?_eq_some_iff.1 hn).1
          simp [this]; omega
      · show ((s.setCh c x).ch i).sr.getLsbD 0 = _
        rw [chne i hic]
        try dsimp only
        rw [if_neg hic]
        exact h.idle i hi hen'
    · intro i hi hpos
      by_cases hic : i = c
      · subst hic
        show ((s.setCh i x).ch i).sr.getLsbD 5 = _
        rw [cheq, x5]
      · show ((s.setCh c x).ch i).sr.getLsbD 5 = _
        rw [chne i hic]
        try dsimp only at hpos
        rw [if_neg hic] at hpos
        exact h.ioc i hi hpos
    · intro i hi d' hd'
      by_cases hic : i = c
      · subst hic
        try dsimp only at hd'
        rw [if_pos rfl] at hd'
        show ((s.setCh i x).ch i).cur = _
        rw [cheq, x3]
        exact (hp.link i hi (k i) d d' hget hd').1
      · try dsimp only at hd'
        rw [if_neg hic] at hd'
        show ((s.setCh c x).ch i).cur = _
        rw [chne i hic]
        exact h.cur i hi d' hd'
  · -- nothing left
    have hkl : k c = (cs c).length := by omega
    have hact : active s c = false := by
      rw [act]
      cases he : enabled s0 c with
      | false => rfl
      | true => rw [h.idle c hc he]; simp [hkl]
    refine ⟨s, by unfold serve; rw [hact]; simp [hk], ?_⟩
    have : (fun i => if i = c then min (k c + 1) (cs c).length else k i) = k := by
      funext i
      split
      · next e => subst e; omega
      · rfl
    rw [this]
    exact h

/-- A round: every channel advances by one descriptor. -/
theorem round_ok {s0 : St} {cs : Nat → List Desc} {n : Nat} (hp : Program s0 cs n) {k : Nat → Nat} {s : St}
    (h : Progress s0 cs n k s) : ∀ j, j ≤ n → ∃ s' r, round s j = some (s', r) ∧
      Progress s0 cs n (fun i => if i < j then min (k i + 1) (cs i).length else k i) s' ∧
      (r = true ↔ ∃ c, c < j ∧ k c < (cs c).length) := by
  intro j
  induction j with
  | zero => intro _; exact ⟨s, false, rfl, by simpa using h, by simp⟩
  | succ j ih =>
    intro hj
    obtain ⟨s1, r1, e1, p1, q1⟩ := ih (by omega)
    obtain ⟨s2, e2, p2⟩ := serve_ok hp p1 (c := j) (by omega)
    rw [if_neg (by omega)] at e2 p2
    refine ⟨s2, r1 || decide (k j < (cs j).length), ?_, ?_, ?_⟩
    · simp only [round, e1, e2]
    · have : (fun i => if i < j + 1 then min (k i + 1) (cs i).length else k i) =
          (fun i => if i = j then min (k j + 1) (cs j).length else
            if i < j then min (k i + 1) (cs i).length else k i) := by
        funext i
        by_cases h1 : i = j
        · subst h1; simp
        · by_cases h2 : i < j
          · rw [if_pos (by omega), if_neg h1, if_pos h2]
          · rw [if_neg (by omega), if_neg h1, if_neg h2]
      rw [this]
      exact p2
    · rw [Bool.or_eq_true, q1, decide_eq_true_eq]
      constructor
      · rintro (⟨c, hc, hk⟩ | hk)
        · exact ⟨c, by omega, hk⟩
        · exact ⟨j, by omega, hk⟩
      · rintro ⟨c, hc, hk⟩
        by_cases e : c = j
        · subst e; exact Or.inr hk
        · exact Or.inl ⟨c, by omega, hk⟩

theorem thread_ok {s0 : St} {cs : Nat → List Desc} {n : Nat} (hp : Program s0 cs n) : ∀ (b : Nat) (k : Nat → Nat) (s : St),
    Progress s0 cs n k s → (∀ c, c < n → (cs c).length ≤ k c + b) →
    ∃ s', thread n (b + 1) s = some (some s') ∧ Progress s0 cs n (fun c => if c < n then (cs c).length else k c) s' := by
  intro b
  induction b with
  | zero =>
    intro k s h hb
    obtain ⟨s', r, e, p, q⟩ := round_ok hp h n (Nat.le_refl _)
    have hr : r = false := by
      cases r with
      | false => rfl
      | true =>
        obtain ⟨c, hc, hk⟩ := q.1 rfl
        have := hb c hc
        omega
    subst hr
    refine ⟨s', by simp only [thread, e], ?_⟩
    have : (fun i => if i < n then min (k i + 1) (cs i).length else k i) =
        (fun c => if c < n then (cs c).length else k c) := by
      funext i
      by_cases hi : i < n
      · rw [if_pos hi, if_pos hi]
        have := hb i hi
        have := h.le i hi
        omega
      · rw [if_neg hi, if_neg hi]
    rw [← this]
    exact p
  | succ b ih =>
    intro k s h hb
    obtain ⟨s', r, e, p, q⟩ := round_ok hp h n (Nat.le_refl _)
    have hb' : ∀ c, c < n → (cs c).length ≤ (if c < n then min (k c + 1) (cs c).length else k c) + b := by
      intro c hc
      rw [if_pos hc]
      have := hb c hc
      omega
    obtain ⟨s2, e2, p2⟩ := ih _ s' p hb'
    have ek : (fun c => if c < n then (cs c).length else
        (if c < n then min (k c + 1) (cs c).length else k c)) = (fun c => if c < n then (cs c).length else k c) := by
      funext i; split <;> rfl
    rw [ek] at p2
    cases r with
    | true => exact ⟨s2, by rw [thread]; simp only [e]; exact e2, p2⟩
    | false =>
      -- everything was done before
      refine ⟨s', by rw [thread]; simp only [e], ?_⟩
      have : (fun i => if i < n then min (k i + 1) (cs i).length else k i) =
          (fun c => if c < n then (cs c).length else k c) := by
        funext i
        by_cases hi : i < n
        · rw [if_pos hi, if_pos hi]
          have : ¬ k i < (cs i).length := fun hk => by simpa using q.2 ⟨i, hi, hk⟩
          omega
        · rw [if_neg hi, if_neg hi]
      rw [← this]
      exact p

/-- Whatever the number of channels and the chains programmed: the engine comes to
rest; every channel has streamed exactly its buffers, once, in chain order, with
the end-of-frame flags of the descriptors; every descriptor is marked complete
with its length; nothing else in memory has changed; every channel is idle and has
its interrupt bit set. -/
theorem mm2s_exact {s : St} {cs : Nat → List Desc} {n : Nat} (hp : Program s cs n) :
    ∃ fuel s', thread n fuel s = some (some s') ∧
      (∀ c, c < n → s'.out.filter (fun p => decide (p.ch = c)) =
        s.out.filter (fun p => decide (p.ch = c)) ++ (cs c).map fun d => ⟨c, d.bytes, d.eof⟩) ∧
      (∀ c, c < n → ∀ d ∈ cs c, s'.mem.range (d.addr + 28) 4 = leEnc 4 (d.stat ||| 2 ^ 31 ||| d.len)) ∧
      (∀ x, (∀ c, c < n → ∀ d ∈ cs c, ¬ (d.addr + 28 ≤ x ∧ x < d.addr + 32)) → s'.mem x = s.mem x) ∧
      (∀ c, c < n → enabled s c = true → (s'.ch c).sr.getLsbD 0 = true) ∧
      (∀ c, c < n → cs c ≠ [] → (s'.ch c).sr.getLsbD 5 = true) := by
  have h0 : Progress s cs n (fun _ => 0) s := by
    refine ⟨rfl, rfl, fun _ => rfl, fun _ => rfl, by simp, by simp, by simp, by simp, by simp, ?_, by simp, ?_⟩
    · intro c hc he
      by_cases hcs : cs c = []
      · rw [hp.idle c hc he hcs, hcs]; rfl
      · rw [hp.run c hc hcs]
        have : (cs c).length ≠ 0 := fun e => hcs (List.length_eq_zero_iff.1 e)
        simp; omega
    · intro c hc d hd; exact hp.first c hc d hd
  have hb : ∃ b, ∀ c, c < n → (cs c).length ≤ b := by
    clear h0 hp
    induction n with
    | zero => exact ⟨0, by simp⟩
    | succ n ih =>
      obtain ⟨b, hb⟩ := ih
      refine ⟨max b (cs n).length, fun c hc => ?_⟩
      by_cases e : c = n
      · subst e; omega
      · have := hb c (by omega); omega
  obtain ⟨b, hb⟩ := hb
  obtain ⟨s', e, p⟩ := thread_ok hp b _ s h0 (fun c hc => by have := hb c hc; omega)
  have tk : ∀ c, c < n → (cs c).take (if c < n then (cs c).length else 0) = cs c := by
    intro c hc; rw [if_pos hc, List.take_length]
  refine ⟨b + 1, s', e, ?_, ?_, ?_, ?_, ?_⟩
  · intro c hc
    have := p.out c hc
    rw [tk c hc] at this
    exact this
  · intro c hc d hd
    exact p.stat c hc d (by rw [tk c hc]; exact hd)
  · intro x hx
    exact p.mem x (fun c hc d hd => hx c hc d (by rw [tk c hc] at hd; exact hd))
  · intro c hc he
    rw [p.idle c hc he]
    simp [hc]
  · intro c hc hne
    refine p.ioc c hc ?_
    rw [if_pos hc]
    exact List.length_pos_iff.2 hne

end Verif.Mcdma
