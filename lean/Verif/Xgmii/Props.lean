import Verif.Xgmii.Lemmas

/-! # C21: XGMII transmit then receive -/

namespace Verif.Xgmii
open Verif

def ready (out : List (List Byte)) : Rx := { buf := [], sof := false, p55 := false, d5 := false, out := out }
def inData (buf : List Byte) (out : List (List Byte)) : Rx := { buf := buf, sof := true, p55 := true, d5 := true, out := out }

theorem rx_append (m : Mode) (r : Rx) (a b : List Col) : rx m r (a ++ b) = (rx m r a).bind (rx m · b) := by
  unfold rx; rw [List.foldlM_append]; rfl

theorem rx_idle (m : Mode) (out : List (List Byte)) : rx m (ready out) (pushBuf m idleSeq 0xff) = some (ready out) := by
  cases m <;> rfl

theorem rx_gap (m : Mode) (out : List (List Byte)) (n : Nat) : rx m (ready out) (List.replicate n (idleCol m)) = some (ready out) := by
  induction n with
  | zero => rfl
  | succ n ih =>
    have e : clock m (ready out) (idleCol m) = some (ready out) := by cases m <;> rfl
    unfold rx at ih ⊢
    rw [List.replicate_succ, List.foldlM_cons, e]
    exact ih

theorem rx_preamble (m : Mode) (out : List (List Byte)) : rx m (ready out) (pushBuf m preambleSeq 1) = some (inData [] out) := by
  have h1 : ∀ m, ((pushBuf m preambleSeq 1).map (lanesOf m)) = match m with
      | .m10g => [[(0xfb, true), (0x55, false), (0x55, false), (0x55, false), (0x55, false), (0x55, false), (0x55, false), (0xd5, false)]]
      | .m1g => [[(0xfb, true)], [(0x55, false)], [(0x55, false)], [(0x55, false)], [(0x55, false)], [(0x55, false)], [(0x55, false)], [(0xd5, false)]] := by
    intro m; cases m <;> decide +kernel
  have h2 : ∀ (cols : List Col) (r : Rx), (m = .m1g ∨ (r.d5 = false ∧ cols.length ≤ 1)) →
      rx m r cols = (cols.map (lanesOf m)).foldlM (fun r l => l.foldlM procByte r) r := by
    intro cols
    induction cols with
    | nil => intros; rfl
    | cons c cs ih =>
      intro r h
      have e : clock m r c = (lanesOf m c).foldlM procByte r := by
        unfold clock
        rw [if_neg]
        rcases h with h | h
        · simp [h]
        · simp [h.1]
      unfold rx at ih ⊢
      rw [List.foldlM_cons, List.map_cons, List.foldlM_cons, e]
      cases hh : (lanesOf m c).foldlM procByte r with
      | none => rfl
      | some r' =>
        show List.foldlM (clock m) r' cs = _
        rcases h with h | h
        · exact ih r' (Or.inl h)
        · have : cs = [] := List.length_eq_zero_iff.mp (by simpa using h.2)
          subst this; rfl
  rw [h2 _ _ (by cases m <;> first | exact Or.inl rfl | exact Or.inr ⟨rfl, by decide +kernel⟩), h1]
  have s1 : procByte (ready out) (0xfb, true) = some { ready out with sof := true } := by
    simp [procByte, ready, bufSize]
  have s2 : procByte { ready out with sof := true } (0x55, false) = some { ready out with sof := true, p55 := true } := by
    simp [procByte, ready, bufSize]
  have s3 : procByte { ready out with sof := true, p55 := true } (0x55, false) = some { ready out with sof := true, p55 := true } := by
    simp [procByte, ready, bufSize]
  have s4 : procByte { ready out with sof := true, p55 := true } (0xd5, false) = some (inData [] out) := by
    simp [procByte, ready, bufSize, inData]
  cases m <;> simp only [List.foldlM_cons, List.foldlM_nil, s1, s2, s3, s4, Option.bind_eq_bind, Option.bind_some, Option.pure_def]

theorem pushBuf_cons (m : Mode) (buf : List Byte) (ctrl : BitVec 64) (h : m.lanes ≤ buf.length) :
    pushBuf m buf ctrl =
      ⟨(fillLanes m.lanes 0 0 0xff ctrl buf).1, (fillLanes m.lanes 0 0 0xff ctrl buf).2.1⟩ ::
        pushBuf m (buf.drop m.lanes) (ctrl >>> m.lanes) := by
  obtain ⟨hp, _⟩ := lanes_le m
  have fuelOk : ∀ (f g : Nat) (b : List Byte) (c : BitVec 64), b.length ≤ f → b.length ≤ g → pushBufN f m b c = pushBufN g m b c := by
    intro f
    induction f with
    | zero =>
      intro g b c hf _
      have : b = [] := List.length_eq_zero_iff.mp (by omega)
      subst this; cases g <;> simp [pushBufN]
    | succ f ih =>
      intro g b c hf hg
      cases g with
      | zero =>
        have : b = [] := List.length_eq_zero_iff.mp (by omega)
        subst this; simp [pushBufN]
      | succ g =>
        by_cases hb : b = []
        · subst hb; simp [pushBufN]
        · rw [pushBufN, pushBufN, if_neg hb, if_neg hb]
          simp only [(fill_rest m.lanes 0 0 0xff c b).1]
          have : 0 < b.length := List.length_pos_iff.mpr hb
          rw [ih g _ _ (by simp; omega) (by simp; omega)]
  have hb : buf ≠ [] := by intro e; subst e; simp at h; omega
  have hpos : 0 < buf.length := List.length_pos_iff.mpr hb
  conv => lhs; unfold pushBuf
  obtain ⟨k, hk⟩ : ∃ k, buf.length = k + 1 := ⟨buf.length - 1, by omega⟩
  rw [hk, pushBufN, if_neg hb]
  obtain ⟨r1, r2⟩ := fill_rest m.lanes 0 0 0xff ctrl buf
  simp only [r1, r2 h]
  unfold pushBuf
  congr 1
  apply fuelOk <;> simp <;> omega

theorem pushBuf_append (m : Mode) (a b : List Byte) (ctrl : BitVec 64) (h : a.length % m.lanes = 0) :
    pushBuf m (a ++ b) ctrl = pushBuf m a ctrl ++ pushBuf m b (ctrl >>> a.length) := by
  obtain ⟨hp, _⟩ := lanes_le m
  have key : ∀ (n : Nat) (a : List Byte) (ctrl : BitVec 64), a.length ≤ n → a.length % m.lanes = 0 →
      pushBuf m (a ++ b) ctrl = pushBuf m a ctrl ++ pushBuf m b (ctrl >>> a.length) := by
    intro n
    induction n with
    | zero =>
      intro a ctrl ha _
      have : a = [] := List.length_eq_zero_iff.mp (by omega)
      subst this; simp [pushBuf, pushBufN]
    | succ n ih =>
      intro a ctrl ha hm
      by_cases h0 : a = []
      · subst h0; simp [pushBuf, pushBufN]
      · have hpos : 0 < a.length := List.length_pos_iff.mpr h0
        have hge : m.lanes ≤ a.length := by
          rcases Nat.lt_or_ge a.length m.lanes with h | h
          · rw [Nat.mod_eq_of_lt h] at hm; omega
          · exact h
        rw [pushBuf_cons m (a ++ b) ctrl (by simp; omega), pushBuf_cons m a ctrl hge]
        obtain ⟨e1, e2⟩ := fill_take m.lanes 0 0 0xff ctrl (a ++ b)
        obtain ⟨f1, f2⟩ := fill_take m.lanes 0 0 0xff ctrl a
        rw [e1, e2, f1, f2, List.take_append_of_le_length hge, List.drop_append_of_le_length hge,
          ih (a.drop m.lanes) _ (by simp; omega) (by rw [List.length_drop, ← Nat.mod_eq_sub_mod hge]; exact hm),
          List.cons_append, ← BitVec.shiftRight_add, List.length_drop, show m.lanes + (a.length - m.lanes) = a.length by omega]
  exact key _ a ctrl (Nat.le_refl _) h

/-- Data bytes in a frame. -/
theorem bytes_data (bs : List Byte) (buf : List Byte) (out : List (List Byte)) (h : buf.length + bs.length < bufSize) :
    (bs.map fun b => (b, false)).foldlM procByte (inData buf out) = some (inData (buf ++ bs) out) := by
  induction bs generalizing buf with
  | nil => simp
  | cons b bs ih =>
    simp only [List.length_cons] at h
    rw [List.map_cons, List.foldlM_cons]
    have e : procByte (inData buf out) (b, false) = some (inData (buf ++ [b]) out) := by
      unfold procByte inData
      simp only [Bool.false_eq_true, if_false, if_true, show buf.length < bufSize by omega, Option.map_some]
      rw [if_neg (by simp; omega)]
    rw [e]
    show List.foldlM procByte (inData (buf ++ [b]) out) (bs.map fun b => (b, false)) = _
    rw [ih _ (by simp; omega)]
    simp

theorem tagged_zero (ctrl : BitVec 64) (bs : List Byte) (h : ∀ k, k < bs.length → ctrl.getLsbD k = false) :
    tagged ctrl bs = bs.map fun b => (b, false) := by
  induction bs generalizing ctrl with
  | nil => rfl
  | cons b bs ih =>
    simp only [tagged, List.map_cons, h 0 (by simp)]
    rw [ih]
    intro k hk
    rw [BitVec.getLsbD_ushiftRight, h _ (by simp; omega)]

/-- Columns of packet data. -/
theorem rx_data (m : Mode) (out : List (List Byte)) (d : List Byte) (ctrl : BitVec 64) (buf : List Byte)
    (hm : d.length % m.lanes = 0) (hz : ∀ k, k < d.length → ctrl.getLsbD k = false) (h : buf.length + d.length < bufSize) :
    rx m (inData buf out) (pushBuf m d ctrl) = some (inData (buf ++ d) out) := by
  obtain ⟨hp, h8⟩ := lanes_le m
  have key : ∀ (n : Nat) (d : List Byte) (ctrl : BitVec 64) (buf : List Byte), d.length ≤ n → d.length % m.lanes = 0 →
      (∀ k, k < d.length → ctrl.getLsbD k = false) → buf.length + d.length < bufSize →
      rx m (inData buf out) (pushBuf m d ctrl) = some (inData (buf ++ d) out) := by
    intro n
    induction n with
    | zero =>
      intro d ctrl buf hd _ _ _
      have : d = [] := List.length_eq_zero_iff.mp (by omega)
      subst this; simp [pushBuf, pushBufN, rx]
    | succ n ih =>
      intro d ctrl buf hd hm hz h
      by_cases h0 : d = []
      · subst h0; simp [pushBuf, pushBufN, rx]
      · have hpos : 0 < d.length := List.length_pos_iff.mpr h0
        have hge : m.lanes ≤ d.length := by
          rcases Nat.lt_or_ge d.length m.lanes with h | h
          · rw [Nat.mod_eq_of_lt h] at hm; omega
          · exact h
        rw [pushBuf_cons m d ctrl hge, ← List.singleton_append, rx_append]
        have hcol : rx m (inData buf out) [⟨(fillLanes m.lanes 0 0 0xff ctrl d).1, (fillLanes m.lanes 0 0 0xff ctrl d).2.1⟩] =
            some (inData (buf ++ d.take m.lanes) out) := by
          have hlo := lanesOf_fill m d ctrl hge
          rw [tagged_zero _ _ (fun k hk => hz k (by simp at hk; omega))] at hlo
          generalize hc : (⟨(fillLanes m.lanes 0 0 0xff ctrl d).1, (fillLanes m.lanes 0 0 0xff ctrl d).2.1⟩ : Col) = col at hlo
          have hlen : (d.take m.lanes).length = m.lanes := by simp; omega
          have hslow : (lanesOf m col).foldlM procByte (inData buf out) = some (inData (buf ++ d.take m.lanes) out) := by
            rw [hlo, bytes_data _ _ _ (by omega)]
          have : clock m (inData buf out) col = some (inData (buf ++ d.take m.lanes) out) := by
            unfold clock
            split
            · rename_i hcond
              obtain ⟨rfl, _, _⟩ := hcond
              simp only [Mode.lanes] at hlen hlo hge ⊢
              rw [if_pos (by simp only [inData]; omega)]
              have e : ((List.range 8).map fun k => (col.d >>> (k * 8)).setWidth 8) = d.take 8 := by
                have e1 := congrArg (List.map Prod.fst) hlo
                unfold lanesOf at e1
                rw [List.map_map, List.map_map] at e1
                simp only [Mode.lanes] at e1
                rw [show (Prod.fst ∘ fun b => (b, false)) = (id : Byte → Byte) from rfl, List.map_id] at e1
                rw [← e1]; rfl
              rw [e]; rfl
            · exact hslow
          simp only [rx, List.foldlM_cons, List.foldlM_nil, this]
          rfl
        rw [hcol, Option.bind_some, ih (d.drop m.lanes) _ _ (by simp; omega)
          (by rw [List.length_drop, ← Nat.mod_eq_sub_mod hge]; exact hm) _ (by simp; omega)]
        · rw [List.append_assoc, List.take_append_drop]
        · intro k hk
          simp only [List.length_drop] at hk
          rw [BitVec.getLsbD_ushiftRight]
          exact hz _ (by omega)
  exact key _ d ctrl buf (Nat.le_refl _) hm hz h

/-- Idle characters when no frame is open. -/
theorem bytes_idle (n : Nat) (out : List (List Byte)) :
    (List.replicate n ((0x07 : Byte), true)).foldlM procByte (ready out) = some (ready out) := by
  induction n with
  | zero => rfl
  | succ n ih =>
    rw [List.replicate_succ, List.foldlM_cons]
    have e : procByte (ready out) (0x07, true) = some (ready out) := rfl
    rw [e]; exact ih

/-- The end of a frame. -/
theorem bytes_end (ys : List Byte) (n : Nat) (buf : List Byte) (out : List (List Byte))
    (h : buf.length + ys.length < bufSize) (h4 : 4 ≤ buf.length + ys.length) :
    ((ys.map fun b => (b, false)) ++ ((0xFD : Byte), true) :: List.replicate n ((0x07 : Byte), true)).foldlM procByte (inData buf out) =
      some (ready (out ++ [(buf ++ ys).take (buf.length + ys.length - 4)])) := by
  rw [List.foldlM_append, bytes_data _ _ _ h]
  show List.foldlM procByte (inData (buf ++ ys) out) _ = _
  rw [List.foldlM_cons]
  have e : procByte (inData (buf ++ ys) out) (0xFD, true) =
      some (ready (out ++ [(buf ++ ys).take (buf.length + ys.length - 4)])) := by
    unfold procByte inData
    have h1 : ¬ ((0xFD : Byte) = 0xfb) := by decide
    have h2 : ¬ ((0xFD : Byte) = 0xfe) := by decide
    simp only [if_true, h1, h2, if_false, Bool.not_true, Bool.false_eq_true, List.length_append]
    rw [if_neg (by omega)]
    rfl
  rw [e]
  exact bytes_idle n _

/-- Columns that never meet the fast path are processed lane by lane. -/
theorem rx_slow_last (m : Mode) (d : List Byte) (ctrl : BitVec 64) (r : Rx) (hd : d.length = 8)
    (hc : ∃ k, k < 8 ∧ ctrl.getLsbD k = true) :
    rx m r (pushBuf m d ctrl) = (tagged ctrl d).foldlM procByte r := by
  have hl := pushBuf_lanes m d ctrl (by cases m <;> simp [Mode.lanes, hd])
  rw [← hl]
  cases m with
  | m1g =>
    unfold rx
    generalize pushBuf .m1g d ctrl = cols
    induction cols generalizing r with
    | nil => rfl
    | cons c cs ih =>
      rw [List.foldlM_cons, List.flatMap_cons, List.foldlM_append]
      have : clock .m1g r c = (lanesOf .m1g c).foldlM procByte r := by
        unfold clock; rw [if_neg (by simp)]
      rw [this]
      cases (lanesOf .m1g c).foldlM procByte r with
      | none => rfl
      | some r' => exact ih r'
  | m10g =>
    rw [pushBuf_cons _ _ _ (by simp [Mode.lanes, hd])]
    have hnil : d.drop Mode.m10g.lanes = [] := by simp [Mode.lanes, hd]
    rw [hnil, show pushBuf .m10g [] (ctrl >>> Mode.m10g.lanes) = [] from rfl]
    simp only [rx, List.foldlM_cons, List.foldlM_nil, List.flatMap_cons, List.flatMap_nil, List.append_nil]
    obtain ⟨k, hk, hck⟩ := hc
    have hne : (fillLanes Mode.m10g.lanes 0 0 0xff ctrl d).2.1 ≠ 0 := by
      intro e
      have := fill_ctrl d 8 0 0 0xff ctrl (by omega) (by omega) k hk
      rw [if_pos (by omega), Nat.sub_zero, hck] at this
      rw [show Mode.m10g.lanes = 8 from rfl] at e
      rw [e] at this
      rw [show (0 : BitVec 8).getLsbD k = false from BitVec.getLsbD_zero] at this
      cases this
    rw [show ∀ x : Option Rx, (x >>= fun r => pure r) = x from fun x => by cases x <;> rfl]
    unfold clock
    rw [if_neg (fun hh => hne hh.2.2)]

theorem lastC_bit (n k : Nat) (hk : k < 32) : (lastC n).getLsbD k = decide (n - 1 ≤ k) := by
  unfold lastC
  rw [BitVec.getLsbD_setWidth, BitVec.getLsbD_shiftLeft]
  have : ∀ j, j < 32 → (0xffffffff : BitVec 32).getLsbD j = true := by
    intro j hj
    have : ∀ j : Fin 32, (0xffffffff : BitVec 32).getLsbD j = true := by decide
    exact this ⟨j, hj⟩
  by_cases h : k < n - 1
  · simp [h]; omega
  · rw [this _ (by omega)]; simp [hk, h, show k < 64 by omega, show n ≤ k + 1 by omega]

/-- The tags of the final eight bytes: data up to the end-of-frame character,
control from there on. -/
theorem tagged_split (ctrl : BitVec 64) (ys : List Byte) (n : Nat) (hz : ∀ k, k < ys.length → ctrl.getLsbD k = false)
    (ho : ∀ k, ys.length ≤ k → k < ys.length + 1 + n → ctrl.getLsbD k = true) :
    tagged ctrl (ys ++ 0xFD :: List.replicate n 0x07) =
      (ys.map fun b => (b, false)) ++ ((0xFD : Byte), true) :: List.replicate n ((0x07 : Byte), true) := by
  rw [tagged_append, tagged_zero _ _ hz]
  congr 1
  have key : ∀ (n : Nat) (c : BitVec 64), (∀ k, k < n → c.getLsbD k = true) →
      tagged c (List.replicate n 0x07) = List.replicate n ((0x07 : Byte), true) := by
    intro n
    induction n with
    | zero => intros; rfl
    | succ n ih =>
      intro c hc
      rw [List.replicate_succ, List.replicate_succ, tagged, hc 0 (by omega), ih]
      intro k hk
      rw [BitVec.getLsbD_ushiftRight]; exact hc _ (by omega)
  rw [tagged, BitVec.getLsbD_ushiftRight, ho _ (by omega) (by omega), key]
  intro k hk
  rw [BitVec.getLsbD_ushiftRight, BitVec.getLsbD_ushiftRight]
  exact ho _ (by omega) (by omega)

/-- The last part of a packet. -/
theorem rx_last (m : Mode) (out : List (List Byte)) (buf tail : List Byte) (ht : tail.length < 8)
    (h : buf.length + tail.length + 4 < bufSize) :
    rx m (inData buf out) (pushBuf m ((lastD tail).take (if tail.length + 5 > 8 then 16 else 8)) (lastC (tail.length + 5))) =
      some (ready (out ++ [buf ++ tail])) := by
  have htake : ∀ x : List Byte, x.length = 4 → (buf ++ (tail ++ x)).take (buf.length + (tail ++ x).length - 4) = buf ++ tail := by
    intro x hx
    rw [← List.append_assoc, List.length_append, show buf.length + (tail.length + x.length) - 4 = (buf ++ tail).length by simp; omega, List.take_left]
  by_cases h8 : tail.length + 5 > 8
  · rw [if_pos h8]
    -- sixteen bytes: one column of data, one with the end of frame
    have hsplit : (lastD tail).take 16 = (tail ++ [0xC0, 0xC1, 0xC2, 0xC3]).take 8 ++
        ((tail ++ [0xC0, 0xC1, 0xC2, 0xC3]).drop 8 ++ 0xFD :: List.replicate (16 - (tail.length + 5)) 0x07) := by
      rw [← List.append_assoc, List.take_append_drop, lastD]
      rw [List.take_of_length_le (by simp; omega)]
      simp
    have hlen8 : ((tail ++ [0xC0, 0xC1, 0xC2, 0xC3]).take 8 : List Byte).length = 8 := by simp; omega
    have hlast : ((tail ++ [0xC0, 0xC1, 0xC2, 0xC3]).drop 8 : List Byte).length = tail.length - 4 := by simp
    rw [hsplit, pushBuf_append m _ _ _ (by rw [hlen8]; cases m <;> decide), rx_append,
      rx_data m out _ _ buf (by rw [hlen8]; cases m <;> decide)
        (by intro k hk; rw [hlen8] at hk; rw [lastC_bit _ _ (by omega)]; simp; omega) (by rw [hlen8]; omega),
      Option.bind_some, hlen8, rx_slow_last m _ _ _ (by simp; omega)
        ⟨7, by omega, by rw [BitVec.getLsbD_ushiftRight, lastC_bit _ _ (by omega)]; simp; omega⟩,
      tagged_split _ _ _ (by
        intro k hk; rw [hlast] at hk
        rw [BitVec.getLsbD_ushiftRight, lastC_bit _ _ (by omega)]; simp; omega) (by
        intro k hk hk2; rw [hlast] at hk hk2
        rw [BitVec.getLsbD_ushiftRight, lastC_bit _ _ (by omega)]; simp; omega),
      bytes_end _ _ _ _ (by rw [List.length_append, hlen8, hlast]; omega) (by rw [List.length_append, hlen8, hlast]; omega)]
    rw [List.append_assoc, List.take_append_drop]
    have hq : (buf ++ (tail ++ [0xC0, 0xC1, 0xC2, 0xC3]).take 8).length + ((tail ++ [0xC0, 0xC1, 0xC2, 0xC3]).drop 8 : List Byte).length - 4 =
        buf.length + (tail ++ [0xC0, 0xC1, 0xC2, 0xC3] : List Byte).length - 4 := by
      rw [List.length_append, hlen8, hlast]; simp; omega
    rw [hq, htake _ rfl]
  · rw [if_neg h8]
    have hsplit : (lastD tail).take 8 = (tail ++ [0xC0, 0xC1, 0xC2, 0xC3]) ++ 0xFD :: List.replicate (8 - (tail.length + 5)) 0x07 := by
      rw [lastD]
      simp only [List.length_append, List.length_cons, List.length_nil]
      rw [List.take_append, List.take_of_length_le (by simp; omega)]
      simp [List.take_replicate]
      omega
    have hc : (tail ++ [0xC0, 0xC1, 0xC2, 0xC3] : List Byte).length = tail.length + 4 := by simp
    rw [hsplit, rx_slow_last m _ _ _ (by simp; omega) ⟨7, by omega, by rw [lastC_bit _ _ (by omega)]; simp; omega⟩,
      tagged_split _ _ _ (by
        intro k hk; rw [hc] at hk; rw [lastC_bit _ _ (by omega)]; simp; omega) (by
        intro k hk hk2; rw [hc] at hk hk2; rw [lastC_bit _ _ (by omega)]; simp; omega),
      bytes_end _ _ _ _ (by rw [hc]; omega) (by rw [hc]; omega), htake _ rfl]

theorem rx_packet (m : Mode) (out : List (List Byte)) (d : List Byte) (h : d.length + 4 < bufSize) :
    rx m (ready out) (txPacket m d) = some (ready (out ++ [d])) := by
  unfold txPacket
  simp only []
  have hfull : (d.take (d.length - d.length % 8)).length = d.length - d.length % 8 := by simp
  have htail : (d.drop (d.length - d.length % 8)).length = d.length % 8 := by simp; omega
  rw [rx_append, rx_append, rx_append, rx_append, rx_append, rx_idle, Option.bind_some, rx_idle, Option.bind_some,
    rx_preamble, Option.bind_some,
    rx_data m out _ _ [] (by rw [hfull]; cases m <;> simp [Mode.lanes] <;> omega) (by intro k _; exact BitVec.getLsbD_zero) (by rw [hfull]; simp; omega),
    Option.bind_some, rx_last m out _ _ (by rw [htail]; omega) (by rw [htail, List.nil_append, hfull]; omega),
    Option.bind_some, rx_idle]
  rw [List.nil_append, List.take_append_drop]

/-- **C21.** For both bus modes, every sequence of packets of up to 8187 bytes
(empty ones included, whatever the length modulo the lane count) and every
spacing between them: exactly those packets arrive, in order. -/
theorem xgmii_roundtrip (m : Mode) (l : List Item) (hl : ∀ i ∈ l, i.data.length + 4 < 8192) :
    (rx m Rx.init (tx m l)).map (·.out) = some (l.map (·.data)) := by
  have key : ∀ (l : List Item) (out : List (List Byte)), (∀ i ∈ l, i.data.length + 4 < 8192) →
      rx m (ready out) (tx m l) = some (ready (out ++ l.map (·.data))) := by
    intro l
    induction l with
    | nil => intro out _; simp [tx, rx]
    | cons i is ih =>
      intro out h
      have e : tx m (i :: is) = List.replicate i.gap (idleCol m) ++ (txPacket m i.data ++ tx m is) := by simp [tx]
      rw [e, rx_append, rx_gap, Option.bind_some, rx_append, rx_packet m out i.data (h i (by simp)), Option.bind_some,
        ih _ (fun j hj => h j (by simp [hj]))]
      simp
  have := key l [] hl
  rw [show Rx.init = ready [] from rfl, this]
  rfl

/-- **C21 (the size limit is not enforced).** In 10G mode the fast path has no
overrun check: a frame with more than 8 KiB of full columns is written past the
end of the buffer. -/
theorem fast_path_overrun (buf : List Byte) (out : List (List Byte)) (d : BitVec 64) (h : 8192 < buf.length + 8) :
    clock .m10g (inData buf out) ⟨d, 0⟩ = none := by
  unfold clock
  rw [if_pos (by simp [inData]), if_neg (by simp [inData, bufSize]; omega)]

/-- **C21 (short frames).** A frame of fewer than four bytes makes the receiver
compute a wrapped length; it is not dropped. -/
theorem runt_wraps : rx .m1g Rx.init (pushBuf .m1g [0xfb, 0x55, 0xd5, 1, 2, 3, 0xfd] 0x41) = none := by decide +kernel

example : (rx .m10g Rx.init (tx .m10g [⟨2, [1, 2, 3, 4, 5, 6, 7, 8, 9, 0xfd, 0xfb, 12]⟩, ⟨0, []⟩])).map (·.out) =
    some [[1, 2, 3, 4, 5, 6, 7, 8, 9, 0xfd, 0xfb, 12], []] := by decide +kernel

/-! ## Arbitrary received signals -/

/-- **C21 (aborted frames).** An error character drops whatever was received of
the frame. -/
theorem error_drops_frame (r : Rx) : procByte r (0xfe, true) = some (ready r.out) := by
  have h1 : ¬ ((0xfe : Byte) = 0xfb) := by decide
  have h2 : ¬ ((0xfe : Byte) = 0xfd) := by decide
  simp only [procByte, if_true, if_neg h1, if_neg h2, Rx.reset]
  rfl

/-- **C21 (end of frame).** The end character always leaves the receiver ready;
the frame is delivered, without its last four bytes, exactly when its start
delimiter had been seen. -/
theorem end_character (r r' : Rx) (h : procByte r (0xfd, true) = some r') :
    r' = ready (if r.d5 then r.out ++ [r.buf.take (r.buf.length - 4)] else r.out) ∧ (r.d5 = true → 4 ≤ r.buf.length) := by
  have h1 : ¬ ((0xfd : Byte) = 0xfb) := by decide
  have h2 : ¬ ((0xfd : Byte) = 0xfe) := by decide
  simp only [procByte, if_true, if_neg h1, if_neg h2] at h
  cases hd : r.d5 with
  | false =>
    simp only [hd, Bool.not_false, if_true, Option.some.injEq] at h
    subst h
    exact ⟨rfl, by simp⟩
  | true =>
    simp only [hd, Bool.not_true, Bool.false_eq_true, if_false] at h
    split at h
    · cases h
    · rename_i h4
      simp only [Option.some.injEq] at h
      subst h
      exact ⟨rfl, fun _ => by omega⟩

/-- **C21 (no start character).** Outside a frame, data bytes and control
characters other than the start character deliver nothing and leave the receiver
ready, in any number and order. -/
theorem outside_frame_ignored (l : List (Byte × Bool)) (out : List (List Byte)) (h : (0xfb, true) ∉ l) :
    l.foldlM procByte (ready out) = some (ready out) := by
  induction l with
  | nil => rfl
  | cons x xs ih =>
    rw [List.foldlM_cons]
    have hx : x ≠ (0xfb, true) := fun e => h (by rw [e]; simp)
    have e : procByte (ready out) x = some (ready out) := by
      obtain ⟨d, c⟩ := x
      cases c with
      | false => simp [procByte, ready, bufSize]
      | true =>
        have hd : ¬ (d = 0xfb) := fun e => hx (by rw [e])
        simp only [procByte, if_true, if_neg hd]
        by_cases h2 : d = 0xfe
        · subst h2; rfl
        · rw [if_neg h2]
          by_cases h3 : d = 0xfd
          · subst h3; rfl
          · rw [if_neg h3]
    rw [e]
    exact ih (fun hm => h (List.mem_cons_of_mem _ hm))

/-- **C21 (start character).** A start character begins a new frame whatever came
before. -/
theorem start_restarts (r : Rx) :
    procByte r (0xfb, true) = some { buf := [], sof := true, p55 := false, d5 := false, out := r.out } := by
  have h1 : ¬ ((0xfb : Byte) = 0xfe) := by decide
  have h2 : ¬ ((0xfb : Byte) = 0xfd) := by decide
  simp only [procByte, if_true, if_neg h1, if_neg h2]

example : [(0xfb, true), (0x55, false), (0xd5, false), (1, false), (0xfe, true), (2, false), (0xfd, true)].foldlM
    procByte Rx.init = some Rx.init := by decide +kernel

end Verif.Xgmii
