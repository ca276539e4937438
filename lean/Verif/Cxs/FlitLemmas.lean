import Verif.Cxs.FlitSpec

/-! Assembling packets from flits, cutting packets into flits. -/
namespace Verif.Cxs
open Spec

theorem parsePtrs_eq (w : BitVec 64) (flag0 shift0 width : Nat) (l : List Nat) :
    ∀ n, (∀ i, i < n → w.getLsbD (flag0 + i) = decide (i < l.length)) →
      (∀ i, i < l.length → w.toNat / 2 ^ (shift0 + i * width) % 2 ^ width = l.getD i 0) →
      parsePtrs w flag0 shift0 width n = l.take n := by
  intro n hf hp
  induction n with
  | zero => rfl
  | succ n ih =>
    have ih := ih fun i hi => hf i (by omega)
    unfold parsePtrs at ih ⊢
    rw [List.range_succ, List.filterMap_append, ih]
    simp only [List.filterMap_cons, List.filterMap_nil, hf n (by omega)]
    by_cases h : n < l.length
    · simp only [h, decide_true, if_true, hp n h]
      rw [List.take_add_one, List.getD_eq_getElem?_getD, List.getElem?_eq_getElem h]
      rfl
    · simp only [h, decide_false, Bool.false_eq_true, if_false, List.append_nil]
      rw [List.take_of_length_le (by omega), List.take_of_length_le (by omega)]

theorem parse_eq {c : Cfg} {w : BitVec 64} {ss es : List Nat} (h : Represents c w ss es) :
    Cntl.parse c w = ⟨ss, es⟩ := by
  unfold Cntl.parse
  rw [parsePtrs_eq w 0 c.maxPkt c.startW ss c.maxPkt (by simpa using h.startFlag) h.startPtr,
    parsePtrs_eq w c.endBits c.endPtrs c.endW es c.maxPkt h.endFlag, List.take_of_length_le h.startCount,
    List.take_of_length_le h.endCount]
  intro i hi
  have := h.endPtr i hi
  have e : c.endPtrs = 3 * c.maxPkt + c.maxPkt * c.startW := by unfold Cfg.endPtrs Cfg.endBits; omega
  rw [e]; exact this

/-! ### Reception -/

/-- Words passed over. -/
theorem rxData_gap (k : Hdr) (msgs : List Msg) (rest : List Byte) : ∀ (b : List Byte) (p : Nat) (as : List Asm),
    b.length % 4 = 0 → (∀ a, as.head? = some a → p + b.length ≤ a.start) →
    rxData k (b ++ rest) p as msgs = rxData k rest (p + b.length) as msgs
  | b0 :: b1 :: b2 :: b3 :: b, p, as, hb, ha => by
    have hb' : b.length % 4 = 0 := by simp only [List.length_cons] at hb; omega
    have e : p + (b0 :: b1 :: b2 :: b3 :: b).length = p + 4 + b.length := by simp only [List.length_cons]; omega
    rw [e]
    simp only [List.cons_append, rxData]
    cases as with
    | nil => exact rxData_gap k msgs rest b (p + 4) [] hb' (by simp)
    | cons a as =>
      have := ha a rfl
      rw [e] at this
      dsimp only
      rw [if_neg (by omega)]
      exact rxData_gap k msgs rest b (p + 4) (a :: as) hb' (by simp; omega)
  | [], p, as, _, _ => rfl
  | [_], _, _, hb, _ => by simp at hb
  | [_, _], _, _, hb, _ => by simp at hb
  | [_, _, _], _, _, hb, _ => by simp at hb

/-- Words of a packet that ends with them. -/
theorem rxData_last (k : Hdr) (msgs : List Msg) (rest : List Byte) (as : List Asm) : ∀ (b d : List Byte) (p s e : Nat),
    b.length % 4 = 0 → 4 ≤ b.length → s ≤ p → e = p + b.length - 4 →
    rxData k (b ++ rest) p (⟨s, some e, d⟩ :: as) msgs =
      (extract k (d ++ b) msgs).bind fun msgs => rxData k rest (p + b.length) as msgs
  | b0 :: b1 :: b2 :: b3 :: b, d, p, s, e, hb, h4, hs, he => by
    have hb' : b.length % 4 = 0 := by simp only [List.length_cons] at hb; omega
    have el : p + (b0 :: b1 :: b2 :: b3 :: b).length = p + 4 + b.length := by simp only [List.length_cons]; omega
    rw [el] at he ⊢
    simp only [List.cons_append, rxData]
    rw [if_pos hs]
    cases b with
    | nil =>
      simp only [List.length_nil] at he
      have : e = p := by omega
      subst this
      simp
    | cons c b =>
      have hl : 4 ≤ (c :: b).length := by simp only [List.length_cons] at hb' ⊢; omega
      have hne : ¬ (some e = some p) := by
        intro h
        have := Option.some.inj h
        omega
      rw [if_neg hne]
      have := rxData_last k msgs rest as (c :: b) (d ++ [b0, b1, b2, b3]) (p + 4) s e hb' hl (by omega) he
      rw [this]
      simp only [List.append_assoc, List.cons_append, List.nil_append]
  | [], _, _, _, _, _, h4, _, _ => by simp at h4
  | [_], _, _, _, _, hb, _, _, _ => by simp at hb
  | [_, _], _, _, _, _, hb, _, _, _ => by simp at hb
  | [_, _, _], _, _, _, _, hb, _, _, _ => by simp at hb

/-- Words of a packet that goes on. -/
theorem rxData_open (k : Hdr) (msgs : List Msg) : ∀ (b d : List Byte) (p s : Nat),
    b.length % 4 = 0 → s ≤ p →
    rxData k b p [⟨s, none, d⟩] msgs = some ([⟨0, none, d ++ b⟩], msgs)
  | b0 :: b1 :: b2 :: b3 :: b, d, p, s, hb, hs => by
    have hb' : b.length % 4 = 0 := by simp only [List.length_cons] at hb; omega
    simp only [rxData]
    rw [if_pos hs, if_neg (by simp), rxData_open k msgs b _ (p + 4) s hb' (by omega)]
    simp
  | [], d, p, s, _, _ => by simp [rxData, rxEnd]
  | [_], _, _, _, hb, _ => by simp at hb
  | [_, _], _, _, _, hb, _ => by simp at hb
  | [_, _, _], _, _, _, hb, _ => by simp at hb

/-- Extracting the messages of several packets. -/
def extractAll (k : Hdr) : List (List Byte) → List Msg → Option (List Msg)
  | [], msgs => some msgs
  | b :: bs, msgs => (extract k b msgs).bind fun msgs => extractAll k bs msgs

/-- The assembler of a packet under way. -/
def openAsm : Option (List Byte) → List Asm
  | none => []
  | some d => [⟨0, none, d⟩]

/-- Assemblers created for the packets that start in the flit. -/
def asmsAt : Nat → List Item → List Asm
  | _, [] => []
  | p, .seg true last b :: is => ⟨p, if last then some (p + b.length - 4) else none, []⟩ :: asmsAt (p + b.length) is
  | p, i :: is => asmsAt (p + i.bytes.length) is

theorem asmsAt_start : ∀ (is : List Item) (p : Nat), ∀ a ∈ asmsAt p is, p ≤ a.start
  | [], _, _, h => by simp [asmsAt] at h
  | .gap b :: is, p, a, h => by
    have := asmsAt_start is _ a h
    simp only [Item.bytes] at this
    omega
  | .seg true last b :: is, p, a, h => by
    rcases List.mem_cons.1 h with rfl | h
    · exact Nat.le_refl _
    · have := asmsAt_start is _ a h
      omega
  | .seg false last b :: is, p, a, h => by
    have := asmsAt_start is _ a h
    simp only [Item.bytes] at this
    omega

theorem rxData_laid (k : Hdr) : ∀ {p : Nat} {is : List Item}, Laid p is → ∀ (msgs : List Msg),
    rxData k (flitBytes is) p (asmsAt p is) msgs =
      (extractAll k (assemble none is).1 msgs).map fun msgs => (openAsm (assemble none is).2, msgs) := by
  intro p is h
  induction h with
  | nil => intro msgs; rfl
  | @gap p b is hb _ ih =>
    intro msgs
    have : flitBytes (.gap b :: is) = b ++ flitBytes is := rfl
    rw [this, rxData_gap]
    · exact ih msgs
    · exact hb
    · intro a ha
      exact asmsAt_start is _ a (List.mem_of_mem_head? ha)
  | @whole p b is hp hb h4 _ ih =>
    intro msgs
    have : flitBytes (.seg true true b :: is) = b ++ flitBytes is := rfl
    rw [this]
    simp only [asmsAt, if_true]
    rw [rxData_last k msgs _ _ b [] p p _ hb h4 (Nat.le_refl _) rfl]
    simp only [assemble, extractAll, Option.getD_none, List.nil_append]
    cases extract k b msgs with
    | none => rfl
    | some msgs => simpa using ih msgs
  | @begin p b hp hb h4 =>
    intro msgs
    have : flitBytes [.seg true false b] = b := by simp [flitBytes, Item.bytes]
    rw [this]
    simp only [asmsAt, Bool.false_eq_true, if_false]
    rw [rxData_open k msgs b [] p p hb (Nat.le_refl _)]
    rfl

/-- The assemblers while the flit is processed. -/
theorem rxCntl_laid : ∀ {p : Nat} {is : List Item}, Laid p is → p % 4 = 0 →
    rxCntl ⟨startsAt p is, endsAt p is⟩ [] = some (asmsAt p is) := by
  intro p is h
  unfold rxCntl
  simp only [List.nil_append]
  induction h with
  | nil => intro _; rfl
  | @gap p b is hb _ ih => intro h4; exact ih (by omega)
  | @whole p b is hp hb h4 _ ih =>
    intro hp4
    simp only [startsAt, endsAt, List.map_cons, setEnds, ih (by omega), Option.map_some, asmsAt, if_true]
    have e1 : p / 16 * 16 = p := by omega
    have e2 : (p + b.length - 4) / 4 * 4 = p + b.length - 4 := by omega
    rw [e1, e2]
  | @begin p b hp hb h4 =>
    intro hp4
    simp only [startsAt, endsAt, List.map_cons, List.map_nil, setEnds, asmsAt, Bool.false_eq_true, if_false]
    have e1 : p / 16 * 16 = p := by omega
    rw [e1]

/-- A flit laid out according to the specification is taken apart according to
the specification. -/
theorem rxFlit_laid (c : Cfg) (k : Hdr) {carry : Option (List Byte)} {is : List Item}
    (h : LaidFlit carry.isSome is) {w : BitVec 64} (hw : Represents c w (startsAt 0 is) (endsAt 0 is))
    (msgs : List Msg) :
    rxFlit c k (flitBytes is) w (openAsm carry) msgs =
      (extractAll k (assemble carry is).1 msgs).map fun msgs => (openAsm (assemble carry is).2, msgs) := by
  unfold rxFlit
  rw [parse_eq hw]
  clear hw
  cases carry with
  | none =>
    cases h with
    | fresh hl =>
      rw [show openAsm none = [] from rfl, rxCntl_laid hl rfl, Option.bind_some]
      exact rxData_laid k hl msgs
  | some d =>
    cases h with
    | @finish b is hb h4 hl =>
      have hr := rxCntl_laid hl (by omega)
      unfold rxCntl at hr ⊢
      simp only [startsAt, endsAt, Item.bytes, Nat.zero_add, openAsm, List.nil_append, List.cons_append] at hr ⊢
      simp only [setEnds, hr, Option.map_some, Option.bind_some]
      have e2 : (b.length - 4) / 4 * 4 = b.length - 4 := by omega
      have : flitBytes (.seg false true b :: is) = b ++ flitBytes is := rfl
      rw [e2, this, rxData_last k msgs _ _ b d 0 0 _ hb h4 (Nat.le_refl _) (by omega), Nat.zero_add]
      simp only [assemble, extractAll, Option.getD_some]
      cases extract k (d ++ b) msgs with
      | none => rfl
      | some msgs => simpa [openAsm] using rxData_laid k hl msgs
    | @through b hb h4 =>
      simp only [rxCntl, startsAt, endsAt, openAsm, List.map_nil, List.append_nil, setEnds, Option.bind_some]
      have : flitBytes [.seg false false b] = b := by simp [flitBytes, Item.bytes]
      rw [this, rxData_open k msgs b d 0 0 hb (Nat.le_refl _)]
      rfl

/-! ### Transmission -/

/-- A stretch of a packet, alone in a flit. -/
structure Piece where
  first : Bool
  last : Bool
  bytes : List Byte
  deriving DecidableEq, Repr

/-- A packet cut into flits of `n` bytes. -/
def cut (n : Nat) (first : Bool) (bs : List Byte) : List Piece :=
  if _h : bs.length ≤ n ∨ n = 0 then [⟨first, true, bs⟩]
  else ⟨first, false, bs.take n⟩ :: cut n false (bs.drop n)
termination_by bs.length
decreasing_by rw [List.length_drop]; omega

theorem cut_short {n : Nat} {first : Bool} {bs : List Byte} (h : bs.length ≤ n) :
    cut n first bs = [⟨first, true, bs⟩] := by
  rw [cut, dif_pos (Or.inl h)]

theorem cut_long {n : Nat} {first : Bool} {bs : List Byte} (h : n < bs.length) (hn : n ≠ 0) :
    cut n first bs = ⟨first, false, bs.take n⟩ :: cut n false (bs.drop n) := by
  rw [cut, dif_neg (by omega)]

/-- A packet under way. -/
structure TlpOk (t : Tlp) : Prop where
  len : t.bytes.length % 4 = 0
  four : 4 ≤ t.bytes.length
  pos : t.pos % 4 = 0
  le : t.pos ≤ t.bytes.length
  done : t.done = decide (t.pos = t.bytes.length)

theorem fill_eq (bs : List Byte) (h4 : 4 ≤ bs.length) : ∀ (old : List Byte) (p pos : Nat) (done : Bool) (n : Cntl),
    pos ≤ bs.length → done = decide (pos = bs.length) →
    fill old p ⟨bs, pos, done⟩ n = some
      ((bs.drop pos).take old.length ++ old.drop (bs.length - pos),
       ⟨bs, min (pos + old.length) bs.length, decide (bs.length ≤ pos + old.length)⟩,
       ⟨n.starts ++ (if pos = 0 ∧ old ≠ [] then [p / 16] else []),
        n.ends ++ (if pos ≤ bs.length - 4 ∧ bs.length - 4 < pos + old.length then [(p + (bs.length - 4 - pos)) / 4] else [])⟩)
  | [], p, pos, done, n, hp, hd => by
    have h1 : ¬ (pos ≤ bs.length - 4 ∧ bs.length - 4 < pos) := by omega
    have h2 : min pos bs.length = pos := by omega
    have h3 : decide (bs.length ≤ pos) = done := by
      rw [hd]
      exact decide_eq_decide.2 (by omega)
    simp [fill, h1, h2, h3]
  | o :: old, p, pos, done, n, hp, hd => by
    by_cases hdone : pos = bs.length
    · subst hdone
      have e1 : done = true := by simpa using hd
      subst e1
      have h0 : ¬ bs.length = 0 := by omega
      have h1 : ¬ (bs.length ≤ bs.length - 4) := by omega
      simp [fill, h0, h1]
    · have e1 : done = false := by simpa [hdone] using hd
      subst e1
      have hlt : pos < bs.length := by omega
      rw [fill]
      simp only [Bool.false_eq_true, if_false, List.getElem?_eq_getElem hlt]
      rw [fill_eq bs h4 old (p + 1) (pos + 1) _ _ (by omega) rfl]
      simp only [Option.map_some, Option.some.injEq, Prod.mk.injEq, List.length_cons]
      refine ⟨?_, ?_, ?_⟩
      · rw [List.drop_eq_getElem_cons hlt, List.take_succ_cons, List.cons_append]
        have : bs.length - pos = (bs.length - (pos + 1)) + 1 := by omega
        rw [this, List.drop_succ_cons]
      · have e1 : pos + 1 + old.length = pos + (old.length + 1) := by omega
        rw [e1]
      · have hs : ¬ (pos + 1 = 0) := by omega
        have e1 : pos + 1 + old.length = pos + (old.length + 1) := by omega
        simp only [hs, false_and, if_false, List.append_nil, e1]
        by_cases c0 : pos = 0
        · by_cases c4 : pos + 4 = bs.length
          · have q1 : ¬ (pos + 1 ≤ bs.length - 4) := by omega
            have q2 : pos ≤ bs.length - 4 ∧ bs.length - 4 < pos + (old.length + 1) := by omega
            have q3 : p + (bs.length - 4 - pos) = p := by omega
            simp only [c4, q1, q2, q3, if_true, false_and, if_false, and_self, List.append_nil]
            simp [c0]
          · have q1 : (pos + 1 ≤ bs.length - 4 ∧ bs.length - 4 < pos + (old.length + 1)) ↔
              (pos ≤ bs.length - 4 ∧ bs.length - 4 < pos + (old.length + 1)) := by omega
            have q3 : pos + 1 ≤ bs.length - 4 → p + 1 + (bs.length - 4 - (pos + 1)) = p + (bs.length - 4 - pos) := by omega
            by_cases c5 : pos ≤ bs.length - 4 ∧ bs.length - 4 < pos + (old.length + 1)
            · simp only [c4, if_false, if_pos c5, if_pos (q1.2 c5), q3 (q1.2 c5).1]
              simp [c0]
            · simp only [c4, if_false, if_neg c5, if_neg (fun h => c5 (q1.1 h))]
              simp [c0]
        · by_cases c4 : pos + 4 = bs.length
          · have q1 : ¬ (pos + 1 ≤ bs.length - 4) := by omega
            have q2 : pos ≤ bs.length - 4 ∧ bs.length - 4 < pos + (old.length + 1) := by omega
            have q3 : p + (bs.length - 4 - pos) = p := by omega
            simp only [c4, q1, q2, q3, if_true, false_and, if_false, and_self, List.append_nil]
            simp [c0]
          · have q1 : (pos + 1 ≤ bs.length - 4 ∧ bs.length - 4 < pos + (old.length + 1)) ↔
              (pos ≤ bs.length - 4 ∧ bs.length - 4 < pos + (old.length + 1)) := by omega
            have q3 : pos + 1 ≤ bs.length - 4 → p + 1 + (bs.length - 4 - (pos + 1)) = p + (bs.length - 4 - pos) := by omega
            by_cases c5 : pos ≤ bs.length - 4 ∧ bs.length - 4 < pos + (old.length + 1)
            · simp only [c4, if_false, if_pos c5, if_pos (q1.2 c5), q3 (q1.2 c5).1]
              simp [c0]
            · simp only [c4, if_false, if_neg c5, if_neg (fun h => c5 (q1.1 h))]
              simp [c0]

/-- Template parameters for which the control word of one packet per flit is
computed without loss. -/
structure CfgOk (c : Cfg) : Prop where
  pkt : 1 ≤ c.maxPkt
  words : 0 < c.words ∧ c.words % 4 = 0
  ptr : c.words ≤ 2 ^ c.endW
  fits : c.endPtrs + c.endW ≤ 32

theorem ptrTerm_bit {flag shift width ptr : Nat} (h1 : flag < 31) (h2 : shift + width ≤ 32) (h3 : 0 < width) :
    ∃ t, ptrTerm flag shift width ptr = some t ∧ ∀ j,
      t.getLsbD j = (decide (j = flag) || (decide (shift ≤ j) && (decide (j - shift < width) && ptr.testBit (j - shift)))) := by
  refine ⟨_, by rw [ptrTerm, if_pos ⟨h1, by omega⟩], ?_⟩
  intro j
  simp only [BitVec.getLsbD_or, BitVec.getLsbD_setWidth, BitVec.getLsbD_shiftLeft, BitVec.getLsbD_ofNat,
    Nat.testBit_mod_two_pow]
  by_cases hj : j < 32
  · have h64 : j < 64 := by omega
    have e1 : decide (j < 64) = true := by simp [h64]
    have e2 : decide (j < 32) = true := by simp [hj]
    have e3 : decide (j - shift < 32) = true := by simp; omega
    have e4 : decide (j - flag < 32) = true := by simp; omega
    simp only [e1, e2, e3, e4, Bool.true_and]
    by_cases hf : j < flag
    · have : ¬ j = flag := by omega
      by_cases hs : j < shift
      · have : ¬ shift ≤ j := by omega
        simp [*]
      · have : shift ≤ j := by omega
        simp [*]
    · have hb : Nat.testBit 1 (j - flag) = decide (j = flag) := by
        by_cases c : j = flag
        · simp [c]
        · obtain ⟨x, hx⟩ : ∃ x, j - flag = x + 1 := ⟨j - flag - 1, by omega⟩
          rw [hx, Nat.testBit_succ]
          simp [c]
      rw [hb]
      by_cases hs : j < shift
      · have : ¬ shift ≤ j := by omega
        simp [hf, hs, this]
      · have : shift ≤ j := by omega
        simp [hf, hs, this]
  · have q1 : ¬ j = flag := by omega
    have q2 : ¬ (j - shift < width) := by omega
    have e2 : decide (j < 32) = false := by simp [hj]
    simp [e2, q1, q2]

theorem log2_pos (x : Nat) : 0 < cxsLog2 x := by
  unfold cxsLog2
  repeat' split
  all_goals omega

/-- The control word of a flit with one stretch of one packet. -/
theorem toWord_one {c : Cfg} (h : CfgOk c) (s : Bool) (e : Option Nat) (he : ∀ x ∈ e, x < c.words) :
    ∃ w, Cntl.toWord c ⟨if s then [0] else [], e.toList⟩ = some w ∧
      Represents c w (if s then [0] else []) e.toList := by
  have hp := h.pkt
  have hf := h.fits
  have hsw := log2_pos (c.words / 4)
  have hew := log2_pos c.words
  change 0 < c.startW at hsw
  change 0 < c.endW at hew
  have m1 : c.startW ≤ c.maxPkt * c.startW := Nat.le_mul_of_pos_left _ hp
  have m2 : c.endW ≤ c.maxPkt * c.endW := Nat.le_mul_of_pos_left _ hp
  have d1 : c.endBits = c.maxPkt + c.maxPkt * c.startW := rfl
  have d2 : c.endPtrs = c.endBits + c.maxPkt + c.maxPkt := rfl
  have d3 : c.cntlW = 3 * c.maxPkt + c.maxPkt * c.startW + c.maxPkt * c.endW := rfl
  generalize hA : c.maxPkt * c.startW = A at *
  generalize c.maxPkt * c.endW = B at *
  have hS : ∃ t, ptrTerms 0 c.maxPkt c.startW 0 (if s then [0] else []) = some t ∧
      ∀ j, t.getLsbD j = (s && decide (j = 0)) := by
    cases s
    · exact ⟨0, rfl, by simp⟩
    · obtain ⟨t, t1, t2⟩ := ptrTerm_bit (flag := 0) (shift := c.maxPkt) (width := c.startW) (ptr := 0)
        (by omega) (by omega) hsw
      refine ⟨t, by simp [ptrTerms, t1], ?_⟩
      intro j; rw [t2]; simp
  have hE : ∃ t, ptrTerms c.endBits c.endPtrs c.endW 0 e.toList = some t ∧
      ∀ j, t.getLsbD j = (e.isSome && (decide (j = c.endBits) || (decide (c.endPtrs ≤ j) &&
        (decide (j - c.endPtrs < c.endW) && (e.getD 0).testBit (j - c.endPtrs))))) := by
    cases e with
    | none => exact ⟨0, rfl, by simp⟩
    | some x =>
      obtain ⟨t, t1, t2⟩ := ptrTerm_bit (flag := c.endBits) (shift := c.endPtrs) (width := c.endW) (ptr := x)
        (by omega) (by omega) hew
      refine ⟨t, by simp [ptrTerms, t1], ?_⟩
      intro j; rw [t2]; simp
  obtain ⟨tS, s1, s2⟩ := hS
  obtain ⟨tE, e1, e2⟩ := hE
  refine ⟨((tS ||| tE).setWidth c.cntlW).setWidth 64, by
    rw [Cntl.toWord]; simp only [s1, e1, Option.bind_some, Option.map_some], ?_⟩
  have hbit : ∀ j, (((tS ||| tE).setWidth c.cntlW).setWidth 64).getLsbD j =
      ((s && decide (j = 0)) || (e.isSome && (decide (j = c.endBits) || (decide (c.endPtrs ≤ j) &&
        (decide (j - c.endPtrs < c.endW) && (e.getD 0).testBit (j - c.endPtrs)))))) := by
    intro j
    simp only [BitVec.getLsbD_setWidth, BitVec.getLsbD_or, s2, e2]
    by_cases hj : j < c.cntlW ∧ j < 64
    · simp [hj.1, hj.2]
    · have q1 : ¬ j = 0 := by omega
      have q2 : ¬ j = c.endBits := by omega
      have q3 : ¬ (j - c.endPtrs < c.endW) := by omega
      simp [q1, q2, q3]
  generalize (((tS ||| tE).setWidth c.cntlW).setWidth 64 : BitVec 64) = w at *
  have hnat : ∀ j, w.toNat.testBit j = w.getLsbD j := fun j => rfl
  refine ⟨?_, ?_, ?_, ?_, ?_, ?_⟩
  · cases s <;> simp; omega
  · cases e <;> simp; omega
  · intro i hi
    rw [hbit]
    have q2 : ¬ i = c.endBits := by omega
    have q3 : ¬ (c.endPtrs ≤ i) := by omega
    cases s <;> simp [q2, q3]
  · intro i hi
    rw [hA, ← d1, hbit]
    have q3 : ¬ (c.endPtrs ≤ c.endBits + i) := by omega
    cases e <;> simp [q3] <;> (intros; omega)
  · intro i hi
    cases s
    · simp at hi
    · have : i = 0 := by simpa using hi
      subst this
      simp only [Nat.zero_mul, Nat.add_zero, if_true, List.getD_cons_zero]
      apply Nat.eq_of_testBit_eq
      intro j
      rw [Nat.testBit_mod_two_pow, Nat.testBit_div_two_pow, hnat, hbit, Nat.zero_testBit]
      by_cases hj : j < c.startW
      · have q1 : ¬ (j + c.maxPkt = 0) := by omega
        have q2 : ¬ (j + c.maxPkt = c.endBits) := by omega
        have q3 : ¬ (c.endPtrs ≤ j + c.maxPkt) := by omega
        simp only [q1, q2, q3, decide_false, Bool.and_false, Bool.false_and, Bool.or_self]
      · simp [hj]
  · intro i hi
    cases e with
    | none => simp at hi
    | some x =>
      have : i = 0 := by simpa using hi
      subst this
      have ex : x < 2 ^ c.endW := Nat.lt_of_lt_of_le (he x rfl) h.ptr
      simp only [Nat.zero_mul, Nat.add_zero, Option.toList_some, List.getD_cons_zero]
      have d4 : 3 * c.maxPkt + A = c.endPtrs := by omega
      rw [hA, d4]
      apply Nat.eq_of_testBit_eq
      intro j
      rw [Nat.testBit_mod_two_pow, Nat.testBit_div_two_pow, hnat, hbit]
      by_cases hj : j < c.endW
      · have q2 : ¬ (j + c.endPtrs = c.endBits) := by omega
        simp [hj, q2]
        intros; omega
      · rw [Nat.testBit_lt_two_pow (Nat.lt_of_lt_of_le ex (Nat.pow_le_pow_right (by omega) (by omega)))]
        simp [hj]

end Verif.Cxs
