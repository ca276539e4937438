import Verif.AceMstSnp.Spec

/-! The invariant. -/

namespace Verif.AceMstSnp

theorem words_len : ∀ (l : List Nat) (m : Nat), l.length = 4 * m → (words l).length = m
  | [], m, h => by simp at h; simp [words]; omega
  | [_], m, h => by simp at h; omega
  | [_, _], m, h => by simp at h; omega
  | [_, _, _], m, h => by simp at h; omega
  | a :: b :: c :: d :: t, m, h => by
    simp only [List.length_cons] at h
    have := words_len t (m - 1) (by omega)
    simp only [words, List.length_cons]
    omega

theorem or_shift {a b k : Nat} (h : a < 2 ^ k) : a ||| b <<< k = a + b * 2 ^ k := by
  rw [Nat.or_comm, Nat.shiftLeft_eq, Nat.mul_comm, ← Nat.two_pow_add_eq_or_of_lt h]
  omega

theorem word_bytes {a b c d : Nat} (ha : a < 256) (hb : b < 256) (hc : c < 256) (hd : d < 256) :
    (let w := a ||| b <<< 8 ||| c <<< 16 ||| d <<< 24
     [w % 256, w / 256 % 256, w / 65536 % 256, w / 16777216 % 256]) = [a, b, c, d] := by
  have e1 : a ||| b <<< 8 = a + b * 2 ^ 8 := or_shift ha
  have e2 : a ||| b <<< 8 ||| c <<< 16 = a + b * 2 ^ 8 + c * 2 ^ 16 := by rw [e1]; exact or_shift (by omega)
  have e3 : a ||| b <<< 8 ||| c <<< 16 ||| d <<< 24 = a + b * 2 ^ 8 + c * 2 ^ 16 + d * 2 ^ 24 := by rw [e2]; exact or_shift (by omega)
  dsimp only
  rw [e3]
  simp only [List.cons.injEq, and_true]
  refine ⟨?_, ?_, ?_, ?_⟩ <;> omega

/-- The words hold the bytes. -/
theorem words_bytes : ∀ (l : List Nat) (m : Nat), l.length = 4 * m → (∀ b ∈ l, b < 256) → bytesOf (words l) = l
  | [], _, _, _ => rfl
  | [_], m, h, _ => by simp at h; omega
  | [_, _], m, h, _ => by simp at h; omega
  | [_, _, _], m, h, _ => by simp at h; omega
  | a :: b :: c :: d :: t, m, h, hb => by
    simp only [List.length_cons] at h
    have ih := words_bytes t (m - 1) (by omega) fun x hx => hb x (by simp [hx])
    have e := word_bytes (hb a (by simp)) (hb b (by simp)) (hb c (by simp)) (hb d (by simp))
    unfold bytesOf at ih ⊢
    rw [words, List.flatMap_cons, ih]
    dsimp only at e
    rw [e]
    rfl

theorem resp_bits (a : Ans) : Bits.of (crResp a) = a.bits := by
  obtain ⟨a, b, c, d, e, f, g⟩ := a
  have h : ∀ a b c d e : Bool, Bits.of (crResp ⟨a, b, c, d, e, false, []⟩) = ⟨a, b, d, c, e⟩ := by decide +kernel
  exact h a b c d e

/-- The answer whose response is not yet pushed. -/
def crPend : Cr → List Ans
  | .resp a | .wrote a => [a]
  | _ => []

/-- The answer whose data is not yet handed on. -/
def cdPend : Cr → List Ans
  | .resp a | .wrote a | .pushed a => if a.data then [a] else []
  | _ => []

/-- The snoop which is being asked. -/
def crAsk : Cr → List Nat
  | .run x _ => [x]
  | _ => []

def cdCur : Cd → List Ans
  | .busy a _ => [a]
  | .wait => []

/-- The indices of a ring of 16, from the `n`th on. -/
def ring (n k : Nat) : List Nat := (List.range' n k).map (· % 16)

theorem ring_snoc (n k : Nat) : ring n k ++ [(n + k) % 16] = ring n (k + 1) := by
  unfold ring
  rw [List.range'_concat, List.map_append]
  simp

theorem ring_drop (n k : Nat) : (ring n k).drop 1 = ring (n + 1) (k - 1) := by
  unfold ring
  cases k with
  | zero => rfl
  | succ k => rfl

theorem ring_fresh {n k : Nat} (h : k < 16) : (n + k) % 16 ∉ ring n k := by
  unfold ring
  rw [List.mem_map]
  rintro ⟨j, hj, e⟩
  rw [List.mem_range'] at hj
  obtain ⟨i, hi, rfl⟩ := hj
  omega

structure Inv (m : Nat) (w : World) : Prop where
  bad : w.s.bad = false
  asked : w.asked = w.answers.map (·.1) ++ crAsk w.s.cr ++ w.s.list
  alive : ∀ x d, w.s.cr = .run x d → d = false
  wait : w.s.cr = .wait → w.s.list = []
  woken : w.s.cr = .woken → w.s.list ≠ []
  crRing : w.s.hwCr = ring w.sentCr.length w.s.hwCr.length
  crIdx : w.s.crIdx = (w.sentCr.length + w.s.hwCr.length) % 16
  crWrote : ∀ a, w.s.cr = .wrote a → w.s.hwCr.length < 16 ∧ w.s.resp w.s.crIdx = crResp a
  cr : w.answers.map (fun p => crResp p.2) = w.sentCr ++ w.s.hwCr.map w.s.resp ++ (crPend w.s.cr).map crResp
  cdRing : w.s.hwCd = ring w.sentCd.length w.s.hwCd.length
  cdIdx : w.s.cdIdx = (w.sentCd.length + w.s.hwCd.length) % 16
  cdBusy : ∀ a k, w.s.cd = .busy a k → w.s.hwCd.length < 16 ∧ k ≤ m ∧ ∀ j < k, w.s.ram (w.s.cdIdx * m + j) = (words a.bytes).getD j 0
  cd : (w.answers.filter fun p => p.2.data).map (fun p => words p.2.bytes) =
    w.sentCd ++ w.s.hwCd.map (line m w.s.ram) ++ (cdCur w.s.cd ++ w.s.cdFifo ++ cdPend w.s.cr).map fun a => words a.bytes
  whole : ∀ p ∈ w.answers, Whole m p.2
  wCur : ∀ a ∈ cdCur w.s.cd ++ w.s.cdFifo ++ cdPend w.s.cr, Whole m a
  room : w.s.cdFifo.length ≤ 16

theorem inv_start (m : Nat) : Inv m World.start where
  bad := rfl
  asked := rfl
  alive := by intro x d h; cases h
  wait := by intro h; cases h
  woken := by intro h; cases h
  crRing := rfl
  crIdx := rfl
  crWrote := by intro a h; cases h
  cr := rfl
  cdRing := rfl
  cdIdx := rfl
  cdBusy := by intro a k h; cases h
  cd := rfl
  whole := by intro p h; cases h
  wCur := by intro p h; cases h
  room := Nat.zero_le _

theorem set_other {α : Type} {f : Nat → α} {k j : Nat} {x : α} (h : j ≠ k) : set f k x j = f j := by
  unfold set; rw [if_neg h]

theorem set_same {α : Type} {f : Nat → α} {k : Nat} {x : α} : set f k x k = x := by
  unfold set; rw [if_pos rfl]

/-- Lines of different descriptors are apart. -/
theorem line_apart {m i j k l : Nat} (hk : k < m) (hl : l < m) (h : i ≠ j) : i * m + k ≠ j * m + l := by
  intro e
  rcases Nat.lt_or_gt_of_ne h with h | h
  · have : (i + 1) * m ≤ j * m := Nat.mul_le_mul_right m h
    rw [Nat.add_mul] at this
    omega
  · have : (j + 1) * m ≤ i * m := Nat.mul_le_mul_right m h
    rw [Nat.add_mul] at this
    omega

theorem inv_next {m : Nat} {w : World} (v : Inv m w) {e : Ev} (hp : Polite m w e) : Inv m (w.next m e) := by
  obtain ⟨⟨list, cdFifo, cr, cd, crIdx, cdIdx, num, resp, ram, hwCr, hwCd, bad⟩, asked, answers, sentCr, sentCd, completes⟩ := w
  obtain ⟨b1, b2, b3, b4, b5, b6, b7, b8, b9, c1, c2, c3, c4, c5, c6, c7⟩ := v
  simp only at b1 b2 b3 b4 b5 b6 b7 b8 b9 c1 c2 c3 c4 c5 c6 c7
  cases e with
  | snoop x =>
    have e1 : crAsk (if cr = .wait then .woken else cr) = crAsk cr := by split <;> rename_i h <;> first | (rw [h]; rfl) | rfl
    have e2 : crPend (if cr = .wait then .woken else cr) = crPend cr := by split <;> rename_i h <;> first | (rw [h]; rfl) | rfl
    have e3 : cdPend (if cr = .wait then .woken else cr) = cdPend cr := by split <;> rename_i h <;> first | (rw [h]; rfl) | rfl
    have hne : ∀ c : Cr, c ≠ .woken → ((if cr = .wait then .woken else cr) = c → cr = c) := by
      intro c hc h
      split at h
      · exact absurd h.symm hc
      · exact h
    constructor <;> simp only [World.next, step, answered, asks, crOut, cdOut, List.append_nil, e1, e2, e3]
    · exact b1
    · rw [b2]; simp
    · intro x d h; exact b3 x d (hne _ (by simp) h)
    · intro h
      have := hne .wait (by simp) h
      rw [if_pos this] at h
      cases h
    · intro _; simp
    · exact b6
    · exact b7
    · intro a h; exact b8 a (hne _ (by simp) h)
    · exact b9
    · exact c1
    · exact c2
    · exact c3
    · exact c4
    · exact c5
    · exact c6
    · exact c7
  | take =>
    have key : ∀ x t, list = x :: t → cr = .top ∨ cr = .woken →
        Inv m ⟨⟨t, cdFifo, .run x false, cd, crIdx, cdIdx, num, resp, ram, hwCr, hwCd, bad⟩, asked, answers, sentCr, sentCd, completes⟩ := by
      intro x t hl hc
      have e2 : crPend cr = [] := by rcases hc with h | h <;> rw [h] <;> rfl
      have e3 : cdPend cr = [] := by rcases hc with h | h <;> rw [h] <;> rfl
      have e1 : crAsk cr = [] := by rcases hc with h | h <;> rw [h] <;> rfl
      rw [e1, hl] at b2
      rw [e2] at b9
      rw [e3] at c4 c6
      exact ⟨b1, (by rw [b2]; simp [crAsk]), (fun _ _ h => by injection h with _ h; exact h.symm), nofun, nofun, b6, b7,
        nofun, b9, c1, c2, c3, c4, c5, c6, c7⟩
    cases hc : cr with
    | top =>
      cases hl : list with
      | nil =>
        subst hl hc
        simp only [World.next, step, answered, asks, crOut, cdOut, List.append_nil, List.isEmpty_nil, if_true]
        exact ⟨b1, b2, nofun, fun _ => rfl, nofun, b6, b7, nofun, b9, c1, c2, c3, c4, c5, c6, c7⟩
      | cons x t =>
        simp only [World.next, step, answered, asks, crOut, cdOut, List.append_nil, taken, List.isEmpty_cons, Bool.false_eq_true, if_false, rdOut, List.countP_nil, Nat.add_zero]
        exact key x t hl (.inl hc)
    | woken =>
      cases hl : list with
      | nil => exact absurd hl (b5 hc)
      | cons x t =>
        simp only [World.next, step, answered, asks, crOut, cdOut, List.append_nil, taken, List.isEmpty_cons, Bool.false_eq_true, if_false, rdOut, List.countP_nil, Nat.add_zero]
        exact key x t hl (.inr hc)
    | _ =>
      subst hc
      simp only [World.next, step, answered, asks, crOut, cdOut, List.append_nil]
      exact ⟨b1, b2, b3, b4, b5, b6, b7, b8, b9, c1, c2, c3, c4, c5, c6, c7⟩
  | answer a =>
    cases hc : cr with
    | run x d =>
      have hd := b3 x d hc
      subst hd
      subst hc
      have hp : Whole m a := hp
      simp only [World.next, step, answered, asks, crOut, cdOut, List.append_nil, Bool.false_eq_true, if_false]
      simp only [crPend, List.map_nil, List.append_nil] at b9
      simp only [cdPend, List.append_nil] at c4 c6
      simp only [crAsk] at b2
      refine ⟨b1, ?_, nofun, nofun, nofun, b6, b7, nofun, ?_, c1, c2, c3, ?_, ?_, ?_, c7⟩
      · simp only [b2, crAsk]; simp
      · simp only [List.map_append, b9, crPend]; simp
      · simp only [List.filter_append, List.map_append, c4, cdPend]
        cases hd : a.data <;> simp [hd]
      · intro p hm
        rcases List.mem_append.mp hm with h | h
        · exact c5 p h
        · rw [List.mem_singleton.mp h]; exact hp
      · intro b hm
        simp only [cdPend] at hm
        rcases List.mem_append.mp hm with h | h
        · exact c6 b h
        · split at h
          · rw [List.mem_singleton.mp h]; exact hp
          · cases h
    | _ =>
      subst hc
      simp only [World.next, step, answered, asks, crOut, cdOut, List.append_nil]
      exact ⟨b1, b2, b3, b4, b5, b6, b7, b8, b9, c1, c2, c3, c4, c5, c6, c7⟩
  | setup =>
    cases hc : cr with
    | resp a =>
      subst hc
      have hp : hwCr.length < 16 := hp
      simp only [World.next, step, answered, asks, crOut, cdOut, List.append_nil]
      refine ⟨b1, b2, nofun, nofun, nofun, b6, b7, ?_, ?_, c1, c2, c3, c4, c5, c6, c7⟩
      · intro b h
        injection h with h
        subst h
        exact ⟨hp, set_same⟩
      · simp only [b9]
        congr 2
        refine List.map_congr_left fun i hi => ?_
        rw [set_other]
        intro e
        rw [b6, e, b7] at hi
        exact ring_fresh hp hi
    | _ =>
      subst hc
      simp only [World.next, step, answered, asks, crOut, cdOut, List.append_nil]
      exact ⟨b1, b2, b3, b4, b5, b6, b7, b8, b9, c1, c2, c3, c4, c5, c6, c7⟩
  | push =>
    cases hc : cr with
    | wrote a =>
      subst hc
      obtain ⟨h1, h2⟩ := b8 a rfl
      simp only [World.next, step, answered, asks, crOut, cdOut, List.append_nil, if_pos h1]
      refine ⟨b1, b2, nofun, nofun, nofun, ?_, ?_, nofun, ?_, c1, c2, c3, c4, c5, c6, c7⟩
      · simp only [List.length_append, List.length_singleton]
        rw [← ring_snoc, ← b6, b7]
      · simp only [List.length_append, List.length_singleton, b7]; omega
      · simp only [b9, crPend, List.map_append, h2]; simp [h2]
    | _ =>
      subst hc
      simp only [World.next, step, answered, asks, crOut, cdOut, List.append_nil]
      exact ⟨b1, b2, b3, b4, b5, b6, b7, b8, b9, c1, c2, c3, c4, c5, c6, c7⟩
  | finish =>
    cases hc : cr with
    | pushed a =>
      subst hc
      simp only [World.next, step, answered, asks, crOut, cdOut, List.append_nil]
      cases hd : a.data
      · simp only [cdPend, hd, Bool.false_eq_true, if_false, List.append_nil] at c4 c6
        simp only [Bool.false_eq_true, if_false]
        exact ⟨b1, b2, nofun, nofun, nofun, b6, b7, nofun, b9, c1, c2, c3,
          (by simpa [cdPend] using c4), c5, (by simpa [cdPend] using c6), c7⟩
      · simp only [cdPend, hd, if_true] at c4 c6
        simp only [if_true]
        split
        · rename_i hl
          refine ⟨b1, b2, nofun, nofun, nofun, b6, b7, nofun, b9, c1, c2, c3,
            (by simpa [cdPend] using c4), c5, ?_, ?_⟩
          · intro b hb
            refine c6 b ?_
            simpa [cdPend] using hb
          · simp; omega
        · exact ⟨b1, b2, b3, b4, b5, b6, b7, b8, b9, c1, c2, c3, (by simpa [cdPend, hd] using c4), c5, (by simpa [cdPend, hd] using c6), c7⟩
    | _ =>
      subst hc
      simp only [World.next, step, answered, asks, crOut, cdOut, List.append_nil]
      exact ⟨b1, b2, b3, b4, b5, b6, b7, b8, b9, c1, c2, c3, c4, c5, c6, c7⟩
  | cdTake =>
    cases hc : cd with
    | wait =>
      cases hf : cdFifo with
      | nil =>
        subst hc hf
        simp only [World.next, step, answered, asks, crOut, cdOut, List.append_nil]
        exact ⟨b1, b2, b3, b4, b5, b6, b7, b8, b9, c1, c2, c3, c4, c5, c6, c7⟩
      | cons a t =>
        subst hc hf
        have hp : hwCd.length < 16 := hp
        simp only [World.next, step, answered, asks, crOut, cdOut, List.append_nil]
        refine ⟨b1, b2, b3, b4, b5, b6, b7, b8, b9, c1, c2, ?_, (by simpa [cdCur] using c4), c5, ?_, ?_⟩
        · intro b k h
          injection h with h1 h2
          subst h1 h2
          exact ⟨hp, Nat.zero_le _, fun j hj => by omega⟩
        · intro b hb
          refine c6 b ?_
          simpa [cdCur] using hb
        · simp at c7 ⊢; omega
    | busy a k =>
      subst hc
      simp only [World.next, step, answered, asks, crOut, cdOut, List.append_nil]
      exact ⟨b1, b2, b3, b4, b5, b6, b7, b8, b9, c1, c2, c3, c4, c5, c6, c7⟩
  | cdWord =>
    cases hc : cd with
    | wait =>
      subst hc
      simp only [World.next, step, answered, asks, crOut, cdOut, List.append_nil]
      exact ⟨b1, b2, b3, b4, b5, b6, b7, b8, b9, c1, c2, c3, c4, c5, c6, c7⟩
    | busy a k =>
      subst hc
      obtain ⟨h1, h2, h3⟩ := c3 a k rfl
      have hw : (words a.bytes).length = m := words_len _ _ (c6 a (by simp [cdCur])).1
      simp only [World.next, step, answered, asks, crOut, cdOut, List.append_nil, hw]
      by_cases hk : k < m
      · rw [if_pos hk]
        refine ⟨b1, b2, b3, b4, b5, b6, b7, b8, b9, c1, c2, ?_, ?_, c5, c6, c7⟩
        · intro b l h
          injection h with e1 e2
          subst e1 e2
          refine ⟨h1, hk, fun j hj => ?_⟩
          by_cases hjk : j = k
          · rw [hjk]; exact set_same
          · simp only
            rw [set_other (by omega)]
            exact h3 j (by omega)
        · simp only [c4]
          congr 2
          refine List.map_congr_left fun i hi => ?_
          refine List.map_congr_left fun l hl => ?_
          rw [set_other]
          refine line_apart (List.mem_range.mp hl) hk ?_
          intro e
          rw [c1, e, c2] at hi
          exact ring_fresh h1 hi
      · rw [if_neg hk]
        exact ⟨b1, b2, b3, b4, b5, b6, b7, b8, b9, c1, c2, c3, c4, c5, c6, c7⟩
  | cdPush =>
    cases hc : cd with
    | wait =>
      subst hc
      simp only [World.next, step, answered, asks, crOut, cdOut, List.append_nil]
      exact ⟨b1, b2, b3, b4, b5, b6, b7, b8, b9, c1, c2, c3, c4, c5, c6, c7⟩
    | busy a k =>
      subst hc
      obtain ⟨h1, h2, h3⟩ := c3 a k rfl
      have hw : (words a.bytes).length = m := words_len _ _ (c6 a (by simp [cdCur])).1
      simp only [World.next, step, answered, asks, crOut, cdOut, List.append_nil, hw]
      by_cases hk : k < m
      · rw [if_pos hk]
        exact ⟨b1, b2, b3, b4, b5, b6, b7, b8, b9, c1, c2, c3, c4, c5, c6, c7⟩
      · rw [if_neg hk, if_pos h1]
        have hkm : k = m := by omega
        refine ⟨b1, b2, b3, b4, b5, b6, b7, b8, b9, ?_, ?_, nofun, ?_, c5, ?_, c7⟩
        · simp only [List.length_append, List.length_singleton]
          rw [← ring_snoc, ← c1, c2]
        · simp only [List.length_append, List.length_singleton, c2]; omega
        · have hl : (List.range m).map (fun k => ram (cdIdx * m + k)) = words a.bytes := by
            refine List.ext_getElem (by simp [hw]) fun n g1 g2 => ?_
            simp only [List.length_map, List.length_range] at g1
            rw [List.getElem_map, List.getElem_range, h3 n (by omega)]
            simp [List.getD_eq_getElem?_getD, g2]
          simp only [c4, cdCur, List.map_append, List.map_cons, List.map_nil]
          simp [line, hl]
        · intro b hb
          refine c6 b ?_
          simp only [cdCur, List.nil_append] at hb
          simp only [cdCur, List.mem_append, List.mem_singleton] at hb ⊢
          rcases hb with h | h
          · exact .inl (.inr h)
          · exact .inr h
  | hwCr =>
    simp only [World.next, step, answered, asks, crOut, cdOut, List.append_nil]
    have hl : (hwCr.take 1).length + (hwCr.drop 1).length = hwCr.length := by
      rw [← List.length_append, List.take_append_drop]
    refine ⟨b1, b2, b3, b4, b5, ?_, ?_, ?_, ?_, c1, c2, c3, c4, c5, c6, c7⟩
    · simp only [List.length_append, List.length_map]
      cases hq : hwCr with
      | nil => rfl
      | cons a t =>
        rw [← hq]
        have := congrArg (List.drop 1) b6
        rw [ring_drop] at this
        rw [hq] at this ⊢
        simpa using this
    · simp only [List.length_append, List.length_map, b7]
      congr 1
      omega
    · intro a h
      obtain ⟨h1, h2⟩ := b8 a h
      refine ⟨?_, h2⟩
      simp only
      omega
    · simp only [b9]
      cases hwCr <;> simp
  | hwCd =>
    simp only [World.next, step, answered, asks, crOut, cdOut, List.append_nil]
    have hl : (hwCd.take 1).length + (hwCd.drop 1).length = hwCd.length := by
      rw [← List.length_append, List.take_append_drop]
    refine ⟨b1, b2, b3, b4, b5, b6, b7, b8, b9, ?_, ?_, ?_, ?_, c5, c6, c7⟩
    · simp only [List.length_append, List.length_map]
      cases hq : hwCd with
      | nil => rfl
      | cons a t =>
        rw [← hq]
        have := congrArg (List.drop 1) c1
        rw [ring_drop] at this
        rw [hq] at this ⊢
        simpa using this
    · simp only [List.length_append, List.length_map, c2]
      congr 1
      omega
    · intro a k h
      obtain ⟨h1, h2⟩ := c3 a k h
      refine ⟨?_, h2⟩
      simp only
      omega
    · simp only [c4]
      cases hwCd <;> simp [line]
  | read c =>
    simp only [World.next, step, answered, asks, crOut, cdOut, List.append_nil]
    split
    · exact ⟨b1, b2, b3, b4, b5, b6, b7, b8, b9, c1, c2, c3, c4, c5, c6, c7⟩
    · exact ⟨b1, b2, b3, b4, b5, b6, b7, b8, b9, c1, c2, c3, c4, c5, c6, c7⟩
  | reset => exact absurd hp id

theorem inv_run {m : Nat} {w : World} (v : Inv m w) (l : List Ev) (hp : AllPolite m w l) : Inv m (w.run m l) := by
  induction l generalizing w with
  | nil => exact v
  | cons i t ih => exact ih (inv_next v hp.1) hp.2

end Verif.AceMstSnp
