import Verif.Aligner.Lemmas

/-! # C10, C11: the aligner's split -/

namespace Verif.Aligner
open Verif

/-! ## Specification -/

/-- Usable configurations: the boundary and maximum length are not zero, and the
bus is at least a byte wide. -/
structure Cfg.Ok (c : Cfg) : Prop where
  maxLen : 0 < c.maxLen
  boundary : 0 < c.boundary
  busWidth : 8 ≤ c.busWidth

/-- The reference memory as a target. -/
def memT : Target Mem := fun g m => ((g.run m).1, (g.run m).2, .ok)

/-- A target that additionally records the accesses it receives and its answers. -/
def logT {σ : Type} (T : Target σ) : Target (σ × List (Gp × Status)) := fun g s =>
  ((T g s.1).1, s.2 ++ [(g, (T g s.1).2.2)]) |> fun s' => (s', (T g s.1).2)

/-- One access within the configured limits. -/
structure InLimits (c : Cfg) (g : Gp) : Prop where
  nonempty : 0 < g.len
  maxLen : g.len ≤ c.maxLen
  /-- the last byte is in the same boundary block as the first -/
  boundary : (g.addr + (g.len - 1)) / c.boundary = g.addr / c.boundary
  /-- the length is at most a power of two to which the address is aligned -/
  natural : c.natural = true → g.addr = 0 ∨ ∃ k, g.len ≤ 2 ^ k ∧ g.addr % 2 ^ k = 0

/-- The accesses `gs` cover positions `p` up to `q` of the access `g` in order,
without gap or overlap, each at the address of its first byte. -/
def Tiles (g : Gp) : Nat → List Gp → Nat → Prop
  | p, [], q => p = q
  | p, x :: xs, q => x.cmd = g.cmd ∧ x.addr = g.addr + p % effSw g ∧ p + x.len ≤ g.len ∧
      Tiles g (p + x.len) xs q

theorem Tiles.append {g : Gp} {p q r : Nat} {xs ys : List Gp} (h1 : Tiles g p xs q) (h2 : Tiles g q ys r) :
    Tiles g p (xs ++ ys) r := by
  induction xs generalizing p with
  | nil => cases h1; exact h2
  | cons x xs ih => exact ⟨h1.1, h1.2.1, h1.2.2.1, ih h1.2.2.2⟩

/-! ## C10 -/

theorem loop_mem (c : Cfg) (hc : c.Ok) (g : Gp) (m : Mem) (hfit : g.addr + g.len ≤ 2 ^ 64)
    (n pos curSw : Nat) (mp : Mem) (buf : List Byte) (st : Status) (hn : g.len - pos ≤ n)
    (hpos : pos ≤ g.len) (hsw : 0 < g.len → 0 < effSw g)
    (hcur : pos = 0 → curSw = g.sw)
    (hst : pos = g.len → st = .ok)
    (hm : mp = (({ g with data := g.data.take pos, sw := effSw g } : Gp).run m).1)
    (hb : buf = (({ g with data := g.data.take pos, sw := effSw g } : Gp).run m).2 ++ g.data.drop pos) :
    loop c memT g (effSw g) pos curSw mp buf st =
      some ((({ g with sw := effSw g } : Gp).run m).1, (({ g with sw := effSw g } : Gp).run m).2, .ok) := by
  induction n generalizing pos curSw mp buf st with
  | zero =>
    have hp : pos = g.len := by omega
    subst hp
    rw [loop, if_neg (by omega), hst rfl]
    have ht : g.data.take g.len = g.data := List.take_length
    have hd : g.data.drop g.len = [] := List.drop_length
    rw [ht] at hm hb
    rw [hd, List.append_nil] at hb
    rw [hm, hb]
  | succ n ih =>
    by_cases hp : pos = g.len
    · subst hp
      rw [loop, if_neg (by omega), hst rfl]
      have ht : g.data.take g.len = g.data := List.take_length
      have hd : g.data.drop g.len = [] := List.drop_length
      rw [ht] at hm hb
      rw [hd, List.append_nil] at hb
      rw [hm, hb]
    · have hlt : pos < g.len := by omega
      have hsw' := hsw (by omega)
      have hmod : pos % effSw g ≤ pos := Nat.mod_le _ _
      obtain ⟨f1, f2, f3, f4⟩ := chunk_facts c g.addr g.len (effSw g) pos curSw hsw' hlt
      have f3' := f3 hc.maxLen hc.boundary hc.busWidth (by omega)
      have f2' := Nat.le_trans f2 (maxAddrRange_le c (g.addr + pos % effSw g)).1
      have f4' := f4 (by
        intro e hp0
        rw [hcur hp0]
        unfold effSw at e
        split at e
        · left; assumption
        · right; exact e)
      rw [loop, if_pos hlt]
      simp only []
      rw [dif_pos ⟨f3', f2'⟩]
      generalize hch : chunk c g.addr g.len (effSw g) pos curSw = ch at *
      have hok : (memT (subGp g (effSw g) buf pos ch) mp).2.2 = .ok := rfl
      rw [if_neg (by rw [hok]; decide)]
      have hl : g.len = g.data.length := rfl
      -- the pieces
      have hrl : (({ g with data := g.data.take pos, sw := effSw g } : Gp).run m).2.length = pos := by
        unfold Gp.run
        cases g.cmd <;> simp <;> omega
      have htake : buf.take pos = (({ g with data := g.data.take pos, sw := effSw g } : Gp).run m).2 := by
        rw [hb, List.take_append_of_le_length (by omega), List.take_of_length_le (by omega)]
      have hdrop : buf.drop pos = g.data.drop pos := by
        rw [hb, List.drop_append_of_le_length (by omega), List.drop_of_length_le (by omega), List.nil_append]
      have hdrop2 : buf.drop (pos + ch.1) = g.data.drop (pos + ch.1) := by
        rw [← List.drop_drop, hdrop, List.drop_drop]
      have hsplit : g.data.take (pos + ch.1) = g.data.take pos ++ (g.data.drop pos).take ch.1 := by
        rw [List.take_add]
      have hcl : ((g.data.drop pos).take ch.1).length = ch.1 := by simp; omega
      have hpl : (g.data.take pos).length = pos := by simp; omega
      have hrun : (subGp g (effSw g) buf pos ch).run mp =
          ((({ g with data := g.data.take (pos + ch.1), sw := effSw g } : Gp).run m).1,
           match g.cmd with
           | .read => readFrom m g.addr (effSw g) g.be pos ((g.data.drop pos).take ch.1)
           | _ => (g.data.drop pos).take ch.1) := by
        rw [hm]
        unfold subGp Gp.run
        rw [hdrop, hsplit]
        cases hcmd : g.cmd with
        | read =>
          simp only []
          congr 1
          apply readFrom_congr
          · intro k hk; rw [Nat.zero_add, beWindow_enabled]
          · intro k hk; rw [Nat.zero_add]; exact f4' k (by omega)
        | write =>
          simp only []
          congr 1
          rw [writeFrom_append, hpl]
          apply writeFrom_congr
          · intro k hk; rw [Nat.zero_add, beWindow_enabled, Nat.zero_add]
          · intro k hk; rw [Nat.zero_add, Nat.zero_add]; exact f4' k (by omega)
        | ignore => simp only []
      have hm' : (memT (subGp g (effSw g) buf pos ch) mp).1 =
          (({ g with data := g.data.take (pos + ch.1), sw := effSw g } : Gp).run m).1 := by
        simp only [memT, hrun]
      have hb' : buf.take pos ++ (memT (subGp g (effSw g) buf pos ch) mp).2.1 ++ buf.drop (pos + ch.1) =
          (({ g with data := g.data.take (pos + ch.1), sw := effSw g } : Gp).run m).2 ++ g.data.drop (pos + ch.1) := by
        simp only [memT, hrun]
        rw [htake, hdrop2]
        congr 1
        unfold Gp.run
        rw [hsplit]
        cases hcmd : g.cmd with
        | read => simp only []; rw [readFrom_append, hpl, Nat.zero_add]
        | write => simp only []
        | ignore => simp only []
      exact ih (pos + ch.1) ch.2 _ _ _ (by omega) (by omega) (by intro h; omega) (by intro _; exact hok) hm' hb'

theorem run_effSw (g : Gp) (m : Mem) : ({ g with sw := effSw g } : Gp).run m = g.run m := by
  unfold effSw
  split
  · rename_i h0
    unfold Gp.run
    cases g.cmd with
    | read =>
      simp only []
      congr 1
      apply readFrom_congr
      · intros; rfl
      · intro k hk; rw [h0, Nat.mod_zero, Nat.mod_eq_of_lt (by simp only [Gp.len]; omega)]
    | write =>
      simp only []
      congr 1
      apply writeFrom_congr
      · intros; rfl
      · intro k hk; rw [h0, Nat.mod_zero, Nat.mod_eq_of_lt (by simp only [Gp.len]; omega)]
    | ignore => rfl
  · rfl

/-- **C10.** For every usable configuration (any validator included), every
non-empty access that does not wrap around the address space - any command,
address, length, streaming width and byte-enable pattern - and every memory, the
aligner's accesses leave the memory and the initiator's buffer exactly as the
original access would, and the response is OK.  A streaming width of 0 means "no
streaming" here, on both sides. -/
theorem aligner_transparent (c : Cfg) (hc : c.Ok) (g : Gp) (m : Mem) (st : Status)
    (hne : 0 < g.len) (hfit : g.addr + g.len ≤ 2 ^ 64) :
    transport c memT g m st = some ((g.run m).1, (g.run m).2, .ok) := by
  unfold transport
  split
  · rfl
  · have hsw : 0 < g.len → 0 < effSw g := by
      intro _; unfold effSw; split <;> omega
    have := loop_mem c hc g m hfit g.len 0 g.sw m g.data st (by omega) (by omega) hsw (fun _ => rfl)
      (by intro h; omega)
      (by unfold Gp.run; cases g.cmd <;> simp [writeFrom])
      (by unfold Gp.run; cases g.cmd <;> simp [readFrom])
    rw [this, run_effSw]

/-- A concrete access that is really chopped: unaligned, streaming, with
repeating byte enables and natural alignment. -/
example : ∃ (c : Cfg) (g : Gp), c.Ok ∧ 0 < g.len ∧ g.addr + g.len ≤ 2 ^ 64 ∧
    (transport c (logT memT) g ((fun _ => 0), []) .incomplete).map (fun r => r.1.2.map fun x => (x.1.addr, x.1.len)) =
      some [(3, 1), (4, 4), (8, 1), (3, 1), (4, 4), (8, 1)] :=
  ⟨{ busWidth := 32, maxLen := 16, boundary := 4096, natural := true, validator := none },
   { cmd := .write, addr := 3, data := [1, 2, 3, 4, 5, 6, 7, 8, 9, 10, 11, 12], be := [true, false, true], sw := 6 },
   ⟨by decide, by decide, by decide⟩, by decide, by decide, by decide +kernel⟩

/-! ## C11 -/

/-- What the log of a run must look like. -/
structure GoodLog (c : Cfg) (g : Gp) (L : List (Gp × Status)) (st : Status) : Prop where
  limits : ∀ x ∈ L, InLimits c x.1
  /-- in order, without gap or overlap, up to some position, and to the end if
  the final status is OK -/
  tiles : ∃ q, q ≤ g.len ∧ Tiles g 0 (L.map (·.1)) q ∧ (st = .ok → q = g.len)
  /-- nothing is issued after an error -/
  stops : ∀ x ∈ L.dropLast, x.2 = .ok
  last : ∀ x, L.getLast? = some x → x.2 = st

theorem sub_inLimits (c : Cfg) (hc : c.Ok) (g : Gp) (sw : Nat) (buf : List Byte) (pos : Nat) (ch : Nat × Nat)
    (hl : (subGp g sw buf pos ch).len = ch.1) (h0 : 0 < ch.1)
    (hr : ch.1 ≤ maxAddrRange c (g.addr + pos % sw) (naturalAlignment (g.addr + pos % sw)))
    (ha : g.addr + pos % sw < 2 ^ 64) : InLimits c (subGp g sw buf pos ch) := by
  obtain ⟨m1, m2, m3⟩ := maxAddrRange_le c (g.addr + pos % sw)
  have hB := hc.boundary
  refine ⟨by omega, by omega, ?_, ?_⟩
  · rw [hl]
    change (g.addr + pos % sw + (ch.1 - 1)) / c.boundary = (g.addr + pos % sw) / c.boundary
    generalize g.addr + pos % sw = a at *
    have h1 : a % c.boundary < c.boundary := Nat.mod_lt _ hB
    have h2 := Nat.div_add_mod a c.boundary
    have h3 : a + (ch.1 - 1) = c.boundary * (a / c.boundary) + (a % c.boundary + (ch.1 - 1)) := by omega
    rw [h3, Nat.mul_add_div hB,
      Nat.div_eq_of_lt (show a % c.boundary + (ch.1 - 1) < c.boundary by omega), Nat.add_zero]
  · intro hn
    change g.addr + pos % sw = 0 ∨ _
    rcases Nat.eq_zero_or_pos (g.addr + pos % sw) with e | e
    · left; exact e
    · right
      obtain ⟨k, e1, e2⟩ := naturalAlignment_spec _ e ha
      refine ⟨k, ?_, e2⟩
      rw [hl, ← e1]
      have := m3 hn; omega

theorem loop_log {σ : Type} (c : Cfg) (hc : c.Ok) (T : Target σ) (g : Gp) (hfit : g.addr + g.len ≤ 2 ^ 64)
    (hT : ∀ x s, (T x s).2.1.length = x.len)
    (n pos curSw : Nat) (s : σ) (L : List (Gp × Status)) (buf : List Byte) (st : Status) (hn : g.len - pos ≤ n)
    (hpos : pos ≤ g.len) (hsw : 0 < g.len → 0 < effSw g) (hbuf : buf.length = g.len)
    (hlim : ∀ x ∈ L, InLimits c x.1) (htil : Tiles g 0 (L.map (·.1)) pos) (hok : ∀ x ∈ L, x.2 = .ok)
    (hst : 0 < pos → st = .ok) (hne : 0 < g.len) :
    ∃ s' L' buf' st', loop c (logT T) g (effSw g) pos curSw (s, L) buf st = some ((s', L'), buf', st') ∧
      GoodLog c g L' st' := by
  induction n generalizing pos curSw s L buf st with
  | zero =>
    rw [loop, if_neg (by omega)]
    refine ⟨s, L, buf, st, rfl, hlim, ⟨pos, hpos, htil, fun _ => by omega⟩,
      fun x hx => hok x (List.dropLast_sublist L |>.subset hx), ?_⟩
    intro x hx
    rw [hok x (List.mem_of_getLast? hx), hst (by omega)]
  | succ n ih =>
    by_cases hp : pos = g.len
    · rw [loop, if_neg (by omega)]
      refine ⟨s, L, buf, st, rfl, hlim, ⟨pos, hpos, htil, fun _ => hp⟩,
        fun x hx => hok x (List.dropLast_sublist L |>.subset hx), ?_⟩
      intro x hx
      rw [hok x (List.mem_of_getLast? hx), hst (by omega)]
    · have hlt : pos < g.len := by omega
      have hsw' := hsw (by omega)
      have hmod : pos % effSw g ≤ pos := Nat.mod_le _ _
      obtain ⟨f1, f2, f3, -⟩ := chunk_facts c g.addr g.len (effSw g) pos curSw hsw' hlt
      have f3' := f3 hc.maxLen hc.boundary hc.busWidth (by omega)
      have f2' := Nat.le_trans f2 (maxAddrRange_le c (g.addr + pos % effSw g)).1
      rw [loop, if_pos hlt]
      simp only []
      rw [dif_pos ⟨f3', f2'⟩]
      generalize hch : chunk c g.addr g.len (effSw g) pos curSw = ch at *
      have hsl : (subGp g (effSw g) buf pos ch).len = ch.1 := by
        simp [subGp, Gp.len]
        have : g.len = g.data.length := rfl
        omega
      have hsub := sub_inLimits c hc g (effSw g) buf pos ch hsl f3' f2 (by omega)
      have hlim' : ∀ x ∈ L ++ [(subGp g (effSw g) buf pos ch, (T (subGp g (effSw g) buf pos ch) s).2.2)],
          InLimits c x.1 := by
        intro x hx
        rcases List.mem_append.mp hx with e | e
        · exact hlim x e
        · simp at e; subst e; exact hsub
      have htil' : Tiles g 0 ((L ++ [(subGp g (effSw g) buf pos ch, (T (subGp g (effSw g) buf pos ch) s).2.2)]).map (·.1))
          (pos + ch.1) := by
        rw [List.map_append]
        refine htil.append ⟨rfl, rfl, by rw [hsl]; omega, ?_⟩
        change pos + (subGp g (effSw g) buf pos ch).len = pos + ch.1
        rw [hsl]
      by_cases hs : (T (subGp g (effSw g) buf pos ch) s).2.2 = .ok
      · rw [if_neg (by simpa [logT] using hs)]
        have hTl := hT (subGp g (effSw g) buf pos ch) s
        rw [hsl] at hTl
        refine ih (pos + ch.1) ch.2 _ _ _ _ (by omega) (by omega) ?_ hlim' htil' ?_ ?_
        · simp [logT, hTl]; omega
        · intro x hx
          rcases List.mem_append.mp hx with e | e
          · exact hok x e
          · simp at e; subst e; exact hs
        · intro _; exact hs
      · rw [if_pos (by simpa [logT] using hs)]
        refine ⟨_, _, _, _, rfl, hlim', ⟨pos + ch.1, by omega, htil', fun e => absurd e hs⟩, ?_, ?_⟩
        · intro x hx
          simp at hx
          exact hok x hx
        · intro x hx
          simp at hx
          subst hx
          rfl

/-- **C11.** For every usable configuration, every non-empty access that does
not wrap around the address space, every target (any state, any responses) that
returns a buffer of the right length: processing terminates without a failed
assertion, and the accesses the target has seen are within the configured
limits, lie in the original access in order without gap or overlap, stop at the
first error, and - if the result is OK - cover all of it. -/
theorem aligner_limits {σ : Type} (c : Cfg) (hc : c.Ok) (T : Target σ) (g : Gp) (s : σ) (st : Status)
    (hne : 0 < g.len) (hfit : g.addr + g.len ≤ 2 ^ 64) (hT : ∀ x s, (T x s).2.1.length = x.len) :
    ∃ s' L buf st', transport c (logT T) g (s, []) st = some ((s', L), buf, st') ∧ GoodLog c g L st' := by
  unfold transport
  split
  · rename_i hf
    simp only [fastPath, Bool.and_eq_true, beq_iff_eq, decide_eq_true_eq] at hf
    obtain ⟨⟨⟨hf1, hf2⟩, hf3⟩, hf4⟩ := hf
    have hsub : InLimits c g := by
      have h : (subGp g 1 g.data 0 (g.len, g.sw)).len = g.len := by simp [subGp, Gp.len]
      have := sub_inLimits c hc g 1 g.data 0 (g.len, g.sw) h hne
        (by simp only [Nat.mod_one, Nat.add_zero]; omega) (by simp only [Nat.mod_one, Nat.add_zero]; omega)
      obtain ⟨a1, a2, a3, a4⟩ := this
      rw [h] at a1 a2 a3 a4
      exact ⟨a1, a2, by simpa [subGp, Nat.mod_one] using a3, by simpa [subGp, Nat.mod_one] using a4⟩
    refine ⟨(T g s).1, [(g, (T g s).2.2)], (T g s).2.1, (T g s).2.2, rfl, ?_, ⟨g.len, Nat.le_refl _, ?_, fun _ => rfl⟩,
      by simp, ?_⟩
    · intro x hx; simp at hx; subst hx; exact hsub
    · refine ⟨rfl, ?_, ?_, ?_⟩
      · simp
      · change 0 + g.len ≤ g.len; omega
      · change 0 + g.len = g.len; omega
    · intro x hx; simp at hx; subst hx; rfl
  · have hsw : 0 < g.len → 0 < effSw g := by
      intro _; unfold effSw; split <;> omega
    exact loop_log c hc T g hfit hT g.len 0 g.sw s [] g.data st (by omega) (by omega) hsw rfl
      (by simp) rfl (by simp) (by intro h; omega) hne

/-- A run with an error in the second sub-access meets the hypotheses: the log
has two entries. -/
example : ∃ (c : Cfg) (T : Target Nat) (g : Gp), c.Ok ∧ (∀ x s, (T x s).2.1.length = x.len) ∧
    (transport c (logT T) g (0, []) .incomplete).map (fun r => r.1.2.map (·.2)) = some [.ok, .address] :=
  ⟨{ busWidth := 32, maxLen := 4, boundary := 16, natural := false, validator := none },
   fun g n => (n + 1, g.data, if n = 0 then .ok else .address),
   { cmd := .read, addr := 0, data := [0, 0, 0, 0, 0, 0, 0, 0, 0, 0, 0, 0], sw := 12 },
   ⟨by decide, by decide, by decide⟩, fun _ _ => rfl, by decide +kernel⟩

/-- A zero-length access reaches no target and leaves the response status as it
was (so the initiator sees "incomplete"). -/
theorem zero_length_incomplete {σ : Type} (c : Cfg) (hc : c.Ok) (T : Target σ) (g : Gp) (s : σ) (st : Status)
    (h0 : g.len = 0) (ha : g.addr < 2 ^ 64) : transport c T g s st = some (s, g.data, st) := by
  unfold transport
  have hp := maxAddrRange_pos c g.addr hc.maxLen hc.boundary ha
  have : fastPath c g = false := by
    simp only [fastPath]
    have : (g.len == maxAddrRange c g.addr (naturalAlignment g.addr)) = false := by
      simp; omega
    simp [this]
  rw [this, if_neg (by decide), loop, if_neg (by omega)]

/-- With a bus narrower than a byte and no validator, streaming accesses make the
aligner's assertion fail: the bus-width hypothesis is needed. -/
theorem narrow_bus_asserts : ∃ (c : Cfg) (g : Gp), 0 < c.maxLen ∧ 0 < c.boundary ∧ 0 < g.len ∧
    (transport c memT g (fun _ => 0) .incomplete).isNone = true :=
  ⟨{ busWidth := 4, maxLen := 16, boundary := 16, natural := false, validator := none },
   { cmd := .read, addr := 0, data := [0, 0], sw := 1 }, by decide, by decide, by decide, by
     decide +kernel⟩

end Verif.Aligner
