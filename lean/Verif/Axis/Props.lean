import Verif.Axis.Model

/-! # C22: AXI-Stream transmit then collect -/

namespace Verif.Axis
open Verif

/-! ## Specification -/

/-- Bytes, each with whether a packet ends after it. -/
def tag (d : List Byte) (e : Bool) : List (Byte × Bool) :=
  match d with
  | [] => []
  | [b] => [(b, e)]
  | b :: bs => (b, false) :: tag bs e

/-- The byte stream with packet boundaries that a sequence of writes carries. -/
def stream (l : List Wr) : List (Byte × Bool) := l.flatMap fun x => tag x.data x.eop

/-! ## Helpers -/

theorem tag_append (a b : List Byte) (e : Bool) (hb : b ≠ []) : tag (a ++ b) e = a.map (fun x => (x, false)) ++ tag b e := by
  induction a with
  | nil => rfl
  | cons x xs ih =>
    rw [List.cons_append, List.map_cons, List.cons_append, ← ih]
    have : xs ++ b ≠ [] := by simp [hb]
    cases h : xs ++ b with
    | nil => exact absurd h this
    | cons y ys => rfl

theorem tag_false (a : List Byte) : tag a false = a.map (fun x => (x, false)) := by
  induction a with
  | nil => rfl
  | cons x xs ih => cases xs with
    | nil => rfl
    | cons y ys => rw [tag, ih]; rfl; simp

theorem stream_append (a b : List Wr) : stream (a ++ b) = stream a ++ stream b := by simp [stream]

theorem lastByte_eq (ls : List (Byte × Bool)) (c : Nat) (h : ∀ i, i < ls.length → (ls.getD i (0, false)).2 = decide (i < c))
    (hc : 0 < c) (hcl : c ≤ ls.length) (last : Bool) : lastByte ⟨ls, last⟩ = c - 1 := by
  unfold lastByte
  simp only []
  have key : ∀ n, n ≤ ls.length →
      (List.range n).foldl (fun acc i => if (ls.getD i (0, false)).2 then i else acc) 0 = min n c - 1 := by
    intro n
    induction n with
    | zero => intro _; simp
    | succ n ih =>
      intro hn
      rw [List.range_succ, List.foldl_append, ih (by omega)]
      simp only [List.foldl_cons, List.foldl_nil, h n (by omega), decide_eq_true_eq]
      split <;> omega
  rw [key _ (Nat.le_refl _)]
  omega

theorem getD_drop_cons {ls : List (Byte × Bool)} {i : Nat} {x : Byte × Bool} {xs : List (Byte × Bool)} (h : ls.drop i = x :: xs) :
    ls.getD i (0, false) = x ∧ ls.drop (i + 1) = xs := by
  have h1 : ls[i]? = some x := by
    have := congrArg (fun l => l[0]?) h
    simpa using this
  refine ⟨by rw [List.getD_eq_getElem?_getD, h1]; rfl, ?_⟩
  have := congrArg List.tail h
  simpa using this

def strobed (ls : List (Byte × Bool)) : List Byte := (ls.filter (·.2)).map (·.1)

theorem laneLoop_noflush (w lb : Nat) (next cur : Beat) (ls : List (Byte × Bool)) : ∀ (i : Nat) (r : Rx),
    cur.lanes.drop i = ls → r.buf.length + (strobed ls).length < maxData →
    laneLoop w lb next ls.length i cur r = (cur, { r with buf := r.buf ++ strobed ls }) := by
  induction ls with
  | nil => intro i r _ _; simp [laneLoop, strobed]
  | cons x xs ih =>
    intro i r hd hlen
    obtain ⟨h1, h2⟩ := getD_drop_cons hd
    rw [List.length_cons, laneLoop]
    simp only [h1]
    obtain ⟨v, s⟩ := x
    cases s
    · simp only [Bool.false_eq_true, if_false]
      have e : strobed ((v, false) :: xs) = strobed xs := by simp [strobed]
      rw [e] at hlen ⊢
      exact ih (i + 1) r h2 hlen
    · simp only [if_true]
      have e : strobed ((v, true) :: xs) = v :: strobed xs := by simp [strobed]
      rw [e] at hlen ⊢
      simp only [List.length_cons] at hlen
      rw [if_neg (by simp; omega), ih (i + 1) _ h2 (by simp; omega)]
      simp

theorem laneLoop_flush (w lb : Nat) (next cur : Beat) (vs : List Byte) (v : Byte) : ∀ (i : Nat) (r : Rx),
    cur.lanes.drop i = (vs ++ [v]).map (fun b => (b, true)) → r.buf.length + vs.length + 1 = maxData →
    laneLoop w lb next (vs.length + 1) i cur r =
      (next, { buf := [], out := r.out ++ [⟨r.buf ++ vs ++ [v], cur.last && decide (i + vs.length = lb)⟩] }) := by
  induction vs with
  | nil =>
    intro i r hd hlen
    obtain ⟨h1, h2⟩ := getD_drop_cons hd
    simp only [List.length_nil, laneLoop, h1, if_true]
    rw [if_pos (by simpa using hlen)]
    simp
  | cons x xs ih =>
    intro i r hd hlen
    obtain ⟨h1, h2⟩ := getD_drop_cons hd
    rw [List.length_cons, laneLoop]
    simp only [h1, if_true]
    simp only [List.length_cons] at hlen
    rw [if_neg (by simp; omega), ih (i + 1) _ h2 (by simp; omega)]
    simp [Nat.add_assoc, Nat.add_comm 1]

/-- Writes a collector may issue: not empty, no longer than its buffer, and split
only at the end of a packet or when the buffer is full. -/
def Legal (x : Wr) : Prop := 0 < x.data.length ∧ x.data.length ≤ 4096 ∧ (x.eop = true ∨ x.data.length = 4096)

/-- Collector invariant relative to the stream accepted so far. -/
structure Inv (w : Nat) (r : Rx) (s : List (Byte × Bool)) : Prop where
  aligned : r.buf.length % w = 0
  room : r.buf.length < maxData
  content : stream r.out ++ r.buf.map (fun b => (b, false)) = s
  legal : ∀ x ∈ r.out, Legal x

theorem maxData_val : maxData = 4096 := rfl

/-- A beat full of bytes. -/
theorem full_beat (w : Nat) (hw : 0 < w) (hdvd : w ∣ 4096) (r : Rx) (s : List (Byte × Bool)) (hi : Inv w r s)
    (d : List Byte) (hd : d.length = w) (last : Bool) (next : Beat) :
    Inv w (rxBeat w r ⟨d.map (fun b => (b, true)), last⟩ next) (s ++ tag d last) ∧
      (last = true → (rxBeat w r ⟨d.map (fun b => (b, true)), last⟩ next).buf = []) := by
  obtain ⟨hal, hroom, hcont, hleg⟩ := hi
  have hne : d ≠ [] := by intro e; subst e; simp at hd; omega
  have hst : strobed (d.map (fun b => (b, true))) = d := by
    unfold strobed
    rw [List.filter_eq_self.mpr (by simp), List.map_map]
    simp [Function.comp_def]
  have hlb : lastByte ⟨d.map (fun b => (b, true)), last⟩ = w - 1 := by
    apply lastByte_eq _ w _ hw (by simp [hd])
    intro i hi
    simp only [List.length_map] at hi
    rw [List.getD_eq_getElem?_getD, List.getElem?_map, List.getElem?_eq_getElem hi]
    simp; omega
  have hle : r.buf.length + w ≤ maxData := by
    obtain ⟨k, hk⟩ := hdvd
    rw [maxData_val] at hroom ⊢
    obtain ⟨q, hq⟩ := Nat.dvd_of_mod_eq_zero hal
    rw [hq, hk] at hroom ⊢
    have : q < k := Nat.lt_of_mul_lt_mul_left hroom
    calc w * q + w = w * (q + 1) := by rw [Nat.mul_add, Nat.mul_one]
      _ ≤ w * k := Nat.mul_le_mul_left _ this
  have tag_whole : r.buf.map (fun b => (b, false)) ++ tag d last = tag (r.buf ++ d) last := (tag_append _ _ _ hne).symm
  rcases Nat.lt_or_ge (r.buf.length + w) maxData with hlt | hge
  · have hloop := laneLoop_noflush w (w - 1) next ⟨d.map (fun b => (b, true)), last⟩ (d.map (fun b => (b, true))) 0 r (by simp)
      (by rw [hst, hd]; exact hlt)
    rw [List.length_map, hd, hst] at hloop
    unfold rxBeat
    rw [hlb, hloop]
    simp only []
    cases last
    · simp only [Bool.false_eq_true, false_and, if_false]
      refine ⟨⟨by simp [hd, hal], by simp [hd]; exact hlt, ?_, hleg⟩, by intro h; cases h⟩
      simp only [List.map_append, ← List.append_assoc, hcont, tag_false]
    · have : r.buf ++ d ≠ [] := by simp [hne]
      simp only [this, ne_eq, not_false_eq_true, and_self, if_true]
      refine ⟨⟨by simp, by simp [maxData_val], ?_, ?_⟩, fun _ => trivial⟩
      · simp only [stream_append, List.map_nil, List.append_nil, ← hcont, List.append_assoc, tag_whole]
        simp [stream]
      · intro x hx
        simp only [List.mem_append, List.mem_singleton] at hx
        rcases hx with hx | hx
        · exact hleg x hx
        · subst hx
          rw [maxData_val] at hlt
          exact ⟨by simp; omega, by simp; omega, Or.inl rfl⟩
  · have heq : r.buf.length + w = maxData := Nat.le_antisymm hle hge
    obtain ⟨vs, v, hdv⟩ : ∃ vs v, d = vs ++ [v] := ⟨d.dropLast, d.getLast hne, (List.dropLast_concat_getLast hne).symm⟩
    subst hdv
    simp only [List.length_append, List.length_cons, List.length_nil, Nat.zero_add] at hd
    have hloop := laneLoop_flush w (w - 1) next ⟨(vs ++ [v]).map (fun b => (b, true)), last⟩ vs v 0 r (by simp) (by omega)
    rw [hd] at hloop
    unfold rxBeat
    rw [hlb, hloop]
    simp only [ne_eq, not_true_eq_false, and_false, if_false]
    have hdec : decide (0 + vs.length = w - 1) = true := by simp; omega
    rw [hdec, Bool.and_true]
    refine ⟨⟨by simp, by simp [maxData_val], ?_, ?_⟩, by intro; trivial⟩
    · simp only [stream_append, List.map_nil, List.append_nil, ← hcont, List.append_assoc, tag_whole]
      simp [stream]
    · intro x hx
      simp only [List.mem_append, List.mem_singleton] at hx
      rcases hx with hx | hx
      · exact hleg x hx
      · subst hx
        rw [maxData_val] at heq
        exact ⟨by simp; omega, by simp; omega, Or.inr (by simp; omega)⟩

/-- The short last beat of a packet. -/
theorem short_beat (w : Nat) (hdvd : w ∣ 4096) (r : Rx) (s : List (Byte × Bool)) (hi : Inv w r s)
    (d : List Byte) (hd : d.length < w) (hne : d ≠ []) (next : Beat) :
    let b : Beat := ⟨d.map (fun b => (b, true)) ++ List.replicate (w - d.length) (0, false), true⟩
    Inv w (rxBeat w r b next) (s ++ tag d true) ∧ (rxBeat w r b next).buf = [] := by
  obtain ⟨hal, hroom, hcont, hleg⟩ := hi
  simp only []
  generalize hb : (⟨d.map (fun b => (b, true)) ++ List.replicate (w - d.length) (0, false), true⟩ : Beat) = b
  have hst : strobed b.lanes = d := by
    rw [← hb]
    unfold strobed
    rw [List.filter_append, List.filter_eq_self.mpr (by simp), List.filter_eq_nil_iff.mpr (by simp)]
    simp [Function.comp_def]
  have hlen : b.lanes.length = w := by rw [← hb]; simp; omega
  have hlast : b.last = true := by rw [← hb]
  have hlt : r.buf.length + d.length < maxData := by
    obtain ⟨k, hk⟩ := hdvd
    rw [maxData_val] at hroom ⊢
    obtain ⟨q, hq⟩ := Nat.dvd_of_mod_eq_zero hal
    rw [hq, hk] at hroom ⊢
    have : q < k := Nat.lt_of_mul_lt_mul_left hroom
    calc w * q + d.length < w * (q + 1) := by rw [Nat.mul_add, Nat.mul_one]; omega
      _ ≤ w * k := Nat.mul_le_mul_left _ this
  have hloop := laneLoop_noflush w (lastByte b) next b b.lanes 0 r (by simp) (by rw [hst]; exact hlt)
  rw [hlen, hst] at hloop
  unfold rxBeat
  rw [hloop]
  have : r.buf ++ d ≠ [] := by simp [hne]
  simp only [hlast, this, ne_eq, not_false_eq_true, and_self, if_true]
  refine ⟨⟨by simp, by simp [maxData_val], ?_, ?_⟩, trivial⟩
  · simp only [stream_append, List.map_nil, List.append_nil, ← hcont, List.append_assoc, (tag_append r.buf d true hne).symm]
    simp [stream]
  · intro x hx
    simp only [List.mem_append, List.mem_singleton] at hx
    rcases hx with hx | hx
    · exact hleg x hx
    · subst hx
      rw [maxData_val] at hlt
      have : 0 < d.length := List.length_pos_iff.mpr hne
      exact ⟨by simp; omega, by simp; omega, Or.inl rfl⟩

/-- Feeding beats; the second component of each pair is what the wires carry
after the handshake. -/
def rxAll (w : Nat) (r : Rx) (l : List (Beat × Beat)) : Rx := l.foldl (fun r p => rxBeat w r p.1 p.2) r

theorem write_beats (w : Nat) (hw : 0 < w) (hdvd : w ∣ 4096) (x : Wr) (hne : x.data ≠ [])
    (hal : x.eop = false → x.data.length % w = 0) (r : Rx) (s : List (Byte × Bool)) (hi : Inv w r s)
    (l : List (Beat × Beat)) (hl : l.map (·.1) = beats w x) :
    Inv w (rxAll w r l) (s ++ tag x.data x.eop) := by
  obtain ⟨d, e⟩ := x
  simp only at hne hal ⊢
  unfold beats at hl
  simp only at hl
  have key : ∀ (fuel : Nat) (d : List Byte) (r : Rx) (s : List (Byte × Bool)) (l : List (Beat × Beat)),
      d.length ≤ fuel → d ≠ [] → (e = false → d.length % w = 0) → Inv w r s → l.map (·.1) = beatsN fuel w d e →
      Inv w (rxAll w r l) (s ++ tag d e) := by
    intro fuel
    induction fuel with
    | zero =>
      intro d r s l hf hne
      exact absurd (List.length_eq_zero_iff.mp (by omega)) hne
    | succ fuel ih =>
      intro d r s l hf hne hal hi hl
      rw [beatsN] at hl
      cases l with
      | nil => simp at hl
      | cons p ps =>
        simp only [List.map_cons, List.cons.injEq] at hl
        obtain ⟨hp, hps⟩ := hl
        unfold rxAll
        rw [List.foldl_cons, hp]
        by_cases hle : d.length ≤ w
        · rw [if_pos hle] at hps
          have : ps = [] := List.map_eq_nil_iff.mp hps
          subst this
          simp only [List.foldl_nil]
          rcases Nat.lt_or_eq_of_le hle with h | h
          · -- short: must end a packet
            have he : e = true := by
              cases e with
              | true => rfl
              | false =>
                have := hal rfl
                rw [Nat.mod_eq_of_lt h] at this
                exact absurd (List.length_eq_zero_iff.mp this) hne
            subst he
            have := (short_beat w hdvd r s hi d h hne p.2).1
            have e1 : mkBeat w d true = ⟨d.map (fun b => (b, true)) ++ List.replicate (w - d.length) (0, false), true⟩ := by
              unfold mkBeat; rw [List.take_of_length_le hle]; simp [hle]
            rw [e1]; exact this
          · have := (full_beat w hw hdvd r s hi d h e p.2).1
            have e1 : mkBeat w d e = ⟨d.map (fun b => (b, true)), e⟩ := by
              unfold mkBeat; rw [List.take_of_length_le hle]; simp [h]
            rw [e1]; exact this
        · rw [if_neg hle] at hps
          have h1 := (full_beat w hw hdvd r s hi (d.take w) (by simp; omega) false p.2).1
          have e1 : mkBeat w d e = ⟨(d.take w).map (fun b => (b, true)), false⟩ := by
            unfold mkBeat; simp [show w - d.length = 0 by omega, hle]
          rw [e1]
          have h2 := ih (d.drop w) _ _ ps (by simp; omega) (by
            intro hh; have := congrArg List.length hh; simp at this; omega) (by
            intro he; rw [List.length_drop, ← Nat.mod_eq_sub_mod (by omega)]; exact hal he) h1 hps
          unfold rxAll at h2
          rw [tag_false] at h2
          have hne' : d.drop w ≠ [] := by
            intro hh; have := congrArg List.length hh; simp at this; omega
          rw [List.append_assoc, ← tag_append _ _ _ hne', List.take_append_drop] at h2
          exact h2
  exact key _ d r s l (Nat.le_refl _) hne hal hi hl

theorem split_map_append {α β : Type} (f : α → β) (l : List α) (a b : List β) (h : l.map f = a ++ b) :
    ∃ l1 l2, l = l1 ++ l2 ∧ l1.map f = a ∧ l2.map f = b := by
  refine ⟨l.take a.length, l.drop a.length, (List.take_append_drop _ _).symm, ?_, ?_⟩
  · rw [List.map_take, h]; simp
  · rw [List.map_drop, h]; simp

/-- **C22.** For every bus width that divides the collector's buffer, every
sequence of non-empty writes in which each write that does not end a packet fills
whole beats, and whatever the wires carry after each handshake: the issued writes
plus the bytes still gathered carry exactly the same bytes with the same packet
ends, and each issued write is either the end of a packet or a full buffer. -/
theorem axis_stream_partial (w : Nat) (hw : 0 < w) (hdvd : w ∣ 4096) (xs : List Wr)
    (hx : ∀ x ∈ xs, x.data ≠ [] ∧ (x.eop = false → x.data.length % w = 0))
    (l : List (Beat × Beat)) (hl : l.map (·.1) = xs.flatMap (beats w)) :
    let r := rxAll w ⟨[], []⟩ l
    stream r.out ++ r.buf.map (fun b => (b, false)) = stream xs ∧ r.buf.length < 4096 ∧ ∀ x ∈ r.out, Legal x := by
  have key : ∀ (xs : List Wr) (r : Rx) (s : List (Byte × Bool)) (l : List (Beat × Beat)),
      (∀ x ∈ xs, x.data ≠ [] ∧ (x.eop = false → x.data.length % w = 0)) → Inv w r s →
      l.map (·.1) = xs.flatMap (beats w) → Inv w (rxAll w r l) (s ++ stream xs) := by
    intro xs
    induction xs with
    | nil =>
      intro r s l _ hi hl
      have : l = [] := by simpa using hl
      subst this
      simpa [rxAll, stream] using hi
    | cons x xs ih =>
      intro r s l hx hi hl
      rw [List.flatMap_cons] at hl
      obtain ⟨l1, l2, rfl, h1, h2⟩ := split_map_append _ _ _ _ hl
      have hx0 := hx x (by simp)
      have := write_beats w hw hdvd x hx0.1 hx0.2 r s hi l1 h1
      have := ih _ _ l2 (fun y hy => hx y (by simp [hy])) this h2
      unfold rxAll at this ⊢
      rw [List.foldl_append]
      simpa [stream] using this
  have h := key xs ⟨[], []⟩ [] l hx ⟨by simp, by simp [maxData_val], rfl, by simp⟩ hl
  exact ⟨by simpa using h.content, h.room, h.legal⟩

/-- **C22 (violation).** Whenever the collector's buffer fills in the middle of a
beat, the rest of that beat is lost and taken from the following beat instead:
with 4095 bytes gathered, the beat `a b c d` followed by `e f g h` issues the
buffer and leaves `f g h` gathered. -/
theorem mid_beat_flush_corrupts (buf : List Byte) (hb : buf.length = 4095) (out : List Wr) (a b c d e f g h : Byte) :
    rxBeat 4 ⟨buf, out⟩ ⟨[(a, true), (b, true), (c, true), (d, true)], false⟩ ⟨[(e, true), (f, true), (g, true), (h, true)], false⟩ =
      ⟨[f, g, h], out ++ [⟨buf ++ [a], false⟩]⟩ := by
  unfold rxBeat
  simp [laneLoop, hb, maxData_val]

/-- Such a state is reached by a 4095-byte write that does not end a packet. -/
theorem mid_beat_state (d : List Byte) (hd : d.length = 4095) (l : List (Beat × Beat)) (hl : l.map (·.1) = beats 4 ⟨d, false⟩) :
    rxAll 4 ⟨[], []⟩ l = ⟨d, []⟩ := by
  have key : ∀ (fuel : Nat) (d buf : List Byte) (l : List (Beat × Beat)), d.length ≤ fuel → d ≠ [] → buf.length + d.length < maxData →
      l.map (·.1) = beatsN fuel 4 d false → rxAll 4 ⟨buf, []⟩ l = ⟨buf ++ d, []⟩ := by
    intro fuel
    induction fuel with
    | zero => intro d buf l hf hne; exact absurd (List.length_eq_zero_iff.mp (by omega)) hne
    | succ fuel ih =>
      intro d buf l hf hne hlen hl
      rw [beatsN] at hl
      cases l with
      | nil => simp at hl
      | cons p ps =>
        simp only [List.map_cons, List.cons.injEq] at hl
        obtain ⟨hp, hps⟩ := hl
        have hst : strobed (mkBeat 4 d false).lanes = d.take 4 := by
          unfold strobed mkBeat
          simp only []
          generalize d.take 4 = t
          rw [List.filter_append, List.filter_eq_self.mpr (by simp), List.filter_eq_nil_iff.mpr (by simp)]
          simp [Function.comp_def]
        have hll : (mkBeat 4 d false).lanes.length = 4 := by simp [mkBeat]; omega
        have hb : rxBeat 4 ⟨buf, []⟩ (mkBeat 4 d false) p.2 = ⟨buf ++ d.take 4, []⟩ := by
          have hloop := laneLoop_noflush 4 (lastByte (mkBeat 4 d false)) p.2 (mkBeat 4 d false) (mkBeat 4 d false).lanes 0 ⟨buf, []⟩ (by simp)
            (by rw [hst]; simp; omega)
          rw [hll, hst] at hloop
          unfold rxBeat
          rw [hloop]
          simp [mkBeat]
        unfold rxAll
        rw [List.foldl_cons, hp, hb]
        by_cases hle : d.length ≤ 4
        · rw [if_pos hle] at hps
          have : ps = [] := List.map_eq_nil_iff.mp hps
          subst this
          simp [List.take_of_length_le hle]
        · rw [if_neg hle] at hps
          have := ih (d.drop 4) (buf ++ d.take 4) ps (by simp; omega) (by
            intro hh; have := congrArg List.length hh; simp at this; omega) (by simp; omega) hps
          unfold rxAll at this
          rw [this, List.append_assoc, List.take_append_drop]
  have hne : d ≠ [] := by intro e; subst e; simp at hd
  simpa using key _ d [] l (Nat.le_refl _) hne (by simp [hd, maxData_val]) hl

/-- **C22 (violation).** An empty write that ends a packet is lost when the
collector has just emptied its buffer: no end of packet is ever delivered for it. -/
theorem empty_end_lost (out : List Wr) (next : Beat) :
    (beats 4 ⟨[], true⟩).foldl (fun r b => rxBeat 4 r b next) ⟨[], out⟩ = ⟨[], out⟩ := by
  simp [beats, beatsN, mkBeat, rxBeat, laneLoop]

/-! ## Handshake -/

/-- **C22 (handshake).** If the collector's target does not let time pass inside
`b_transport` (it may ask for any delay), then at every clock the beats taken by
the collector are exactly those the transmitter considers sent, each once and in
order. -/
theorem handshake_exact (w : Nat) (l : List Beat) (ks : List (Nat × Nat)) (hk : ∀ k ∈ ks, k.1 = 0) :
    let s := run w (Sys.init l) ks
    ∃ acc : List (Beat × Beat), acc.map (·.1) ++ s.pending = l ∧ s.rx = rxAll w ⟨[], []⟩ acc := by
  simp only []
  have key : ∀ (ks : List (Nat × Nat)) (s : Sys), (∀ k ∈ ks, k.1 = 0) → s.blk1 = 0 →
      (∃ acc : List (Beat × Beat), acc.map (·.1) ++ s.pending = l ∧ s.rx = rxAll w ⟨[], []⟩ acc) →
      ∃ acc : List (Beat × Beat), acc.map (·.1) ++ (run w s ks).pending = l ∧ (run w s ks).rx = rxAll w ⟨[], []⟩ acc := by
    intro ks
    induction ks with
    | nil => intro s _ _ h; exact h
    | cons k ks ih =>
      intro s hk h0 ⟨acc, ha, hr⟩
      have hk0 := hk k (by simp)
      unfold run
      rw [List.foldl_cons]
      apply ih _ (fun k hk' => hk k (by simp [hk']))
      · unfold step
        rw [if_neg (by omega)]
        split
        · exact h0
        · split
          · exact h0
          · simp only []; split
            · exact h0
            · exact hk0
      · unfold step
        rw [if_neg (by omega)]
        split
        · exact ⟨acc, ha, hr⟩
        · split
          · exact ⟨acc, by rename_i h _; exact ha, hr⟩
          · rename_i b bs hp
            rw [hp] at ha
            simp only []
            split <;>
            · refine ⟨acc ++ [(b, wiresAfter b bs)], by simpa using ha, ?_⟩
              simp only [rxAll, List.foldl_append, List.foldl_cons, List.foldl_nil, hr]
  exact key ks (Sys.init l) hk rfl ⟨[], by simp [Sys.init], rfl⟩

/-- **C22 (violation).** If the target does consume time inside `b_transport`,
`tready` is still high meanwhile and the beats transferred then are lost: here
the second packet never reaches the collector. -/
theorem blocking_target_loses_beats :
    let s := run 1 (Sys.init ([⟨[1], true⟩, ⟨[2], true⟩, ⟨[3], true⟩].flatMap (beats 1))) [(1, 0), (0, 0), (0, 0)]
    s.pending = [] ∧ s.rx.out = [⟨[1], true⟩, ⟨[3], true⟩] := by
  decide +kernel

example : (run 2 (Sys.init ([⟨[1, 2, 3], true⟩, ⟨[4, 5], false⟩, ⟨[6], true⟩].flatMap (beats 2)))
    [(0, 0), (0, 2), (0, 0), (0, 0), (0, 0), (0, 1)]).rx.out = [⟨[1, 2, 3], true⟩, ⟨[4, 5, 6], true⟩] := by
  decide +kernel

example : ∀ x ∈ [(⟨[1, 2, 3], true⟩ : Wr), ⟨[4, 5], false⟩, ⟨[6], true⟩], x.data ≠ [] ∧ (x.eop = false → x.data.length % 2 = 0) := by
  decide

end Verif.Axis
