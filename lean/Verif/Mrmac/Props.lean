import Verif.Mrmac.Lemmas

/-! # C36: MAC statistics and frame check sequences -/

namespace Verif.Mrmac
open Verif Verif.Crc32

/-- **C36 (size classes).** Every frame is counted in exactly one size class. -/
theorem one_size_class (n : Nat) : ∃ b, ∀ b', Bucket.holds b' n ↔ b' = b :=
  ⟨bucket n, fun b' => ⟨fun h => ((bucket_iff n b').2 h).symm, fun h => (bucket_iff n b').1 h.symm⟩⟩

/-! ## Receiving -/

/-- **C36 (one received frame).** When the receiver is enabled and reads only the
frame, the frame is delivered unchanged if it is good - its check sequence is
right or not looked at - and dropped otherwise; every counter gets exactly the
frame's contribution. -/
theorem rx_counts (cfg : Cfg) (st st' : Stats) (f : List Byte) (d : Option (List Byte)) (hen : cfg.rxEnable = true)
    (hs : ∀ c, st c < 2 ^ c.width) (h : rxFrame cfg st f = some (st', d)) :
    ∃ good : Bool, (good = true ↔ cfg.rxIgnoreFcs = true ∨ Valid f) ∧ d = (if good then some f else none) ∧
      ∀ c, st' c = statsAdd cfg.ext c.width (st c) (contribution good f c) := by
  have hg : rxGood cfg st f = some (st', d) →
      d = some f ∧ ∀ c, st' c = statsAdd cfg.ext c.width (st c) (contribution true f c) := by
    intro h
    unfold rxGood at h
    split at h
    · cases h
    · rename_i h14
      simp only [Option.some.injEq, Prod.mk.injEq] at h
      obtain ⟨rfl, rfl⟩ := h
      exact ⟨rfl, fun c => (good_bump cfg.ext st f (by omega) c (hs c)).2⟩
  simp only [rxFrame, hen, Bool.not_true, Bool.false_eq_true, if_false] at h
  by_cases hi : cfg.rxIgnoreFcs = true
  · rw [if_pos hi] at h
    obtain ⟨a, b⟩ := hg h
    exact ⟨true, by simp [hi], by simpa using a, b⟩
  · rw [if_neg hi] at h
    split at h
    · cases h
    · rename_i h4
      have hv := fcsOk_iff f (by omega)
      split at h
      · rename_i hok
        obtain ⟨a, b⟩ := hg h
        exact ⟨true, by simp [hv.1 hok], by simpa using a, b⟩
      · rename_i hok
        simp only [Option.some.injEq, Prod.mk.injEq] at h
        obtain ⟨rfl, rfl⟩ := h
        refine ⟨false, ?_, rfl, fun c => bad_bump cfg.ext st f c (hs c)⟩
        simp only [Bool.false_eq_true, false_iff, not_or]
        exact ⟨hi, fun h => hok (hv.2 h)⟩

/-- **C36 (what is read).** A frame of at least 14 bytes, the size of an Ethernet
header, is always handled. -/
theorem rx_handled (cfg : Cfg) (st : Stats) (f : List Byte) (h : 14 ≤ f.length) : ∃ r, rxFrame cfg st f = some r := by
  have hg : ∃ r, rxGood cfg st f = some r := by
    unfold rxGood; rw [if_neg (by omega)]; exact ⟨_, rfl⟩
  unfold rxFrame
  split
  · exact ⟨_, rfl⟩
  · split
    · exact hg
    · rw [if_neg (by omega)]
      split
      · exact hg
      · exact ⟨_, rfl⟩

/-- **C36 (corruption).** A valid frame damaged by a burst of at most 32 bits is
dropped and counted as bad. -/
theorem corrupted_frame_dropped (cfg : Cfg) (st : Stats) (f f' : List Byte) (hen : cfg.rxEnable = true)
    (hfcs : cfg.rxIgnoreFcs = false) (hs : ∀ c, st c < 2 ^ c.width) (hv : Valid f) (hb : BurstError f f') :
    ∃ st', rxFrame cfg st f' = some (st', none) ∧
      ∀ c, st' c = statsAdd cfg.ext c.width (st c) (contribution false f' c) := by
  have h4 : 4 ≤ f'.length := by rw [burst_length f f' hb]; exact valid_length f hv
  have hno : ¬ fcsOk f' = true := fun h => burst_invalid f f' hv hb ((fcsOk_iff f' h4).1 h)
  refine ⟨_, ?_, fun c => bad_bump cfg.ext st f' c (hs c)⟩
  simp only [rxFrame, hen, hfcs, Bool.not_true, Bool.false_eq_true, if_false]
  rw [if_neg (by omega), if_neg hno]

/-- **C36 (intact frames).** A valid frame with at least a header is delivered and
counted as good. -/
theorem valid_frame_delivered (cfg : Cfg) (st : Stats) (f : List Byte) (hen : cfg.rxEnable = true)
    (hs : ∀ c, st c < 2 ^ c.width) (hv : Valid f) (h14 : 14 ≤ f.length) :
    ∃ st', rxFrame cfg st f = some (st', some f) ∧
      ∀ c, st' c = statsAdd cfg.ext c.width (st c) (contribution true f c) := by
  obtain ⟨⟨st', d⟩, hr⟩ := rx_handled cfg st f h14
  obtain ⟨good, h1, h2, h3⟩ := rx_counts cfg st st' f d hen hs hr
  have : good = true := h1.2 (.inr hv)
  subst this
  exact ⟨st', by rw [hr, h2]; rfl, h3⟩

example : Valid ([1, 2, 3, 4, 5, 6, 7, 8, 9, 10, 0x81, 0] ++ crcBytes (crc32 0 [1, 2, 3, 4, 5, 6, 7, 8, 9, 10, 0x81, 0])) :=
  ⟨_, rfl⟩

/-- **C36 (inserted check sequence).** A frame from the PHY keeps its bytes; when
the model inserts the check sequence, it is a valid one. -/
theorem received_frame_fcs (cfg : Cfg) (f : List Byte) :
    (cfg.insertRxCrc = true → Valid (wireFrame cfg f) ∧ (wireFrame cfg f).take f.length = f) ∧
    (cfg.insertRxCrc = false → wireFrame cfg f = f) := by
  unfold wireFrame
  constructor
  · intro h
    rw [if_pos h]
    exact ⟨⟨f, rfl⟩, by simp⟩
  · intro h
    simp [h]

/-- The receive side, as seen from outside: `seen` are the frames the thread has
looked at, in order. -/
structure Seen (cfg : Cfg) (arrived : List (List Byte)) (s : Rx) where
  seen : List (List Byte)
  /-- frames are looked at in arrival order, each at most once; those missing
  found the two-entry queue full -/
  order : (seen ++ s.fifo).Sublist (arrived.map (wireFrame cfg))
  /-- exactly the good ones are delivered -/
  delivered : s.out = seen.filter (fun f => cfg.rxEnable && (cfg.rxIgnoreFcs || fcsOk f))

def arrivals : List RxOp → List (List Byte)
  | [] => []
  | .arrive f :: l => f :: arrivals l
  | .take :: l => arrivals l

theorem rxFrame_out (cfg : Cfg) (st st' : Stats) (f : List Byte) (d : Option (List Byte))
    (h : rxFrame cfg st f = some (st', d)) :
    d.toList = [f].filter (fun f => cfg.rxEnable && (cfg.rxIgnoreFcs || fcsOk f)) := by
  have hg : rxGood cfg st f = some (st', d) → d = some f := by
    intro h; unfold rxGood at h
    split at h
    · cases h
    · cases h; rfl
  unfold rxFrame at h
  split at h
  · rename_i he
    cases h
    simp only [Bool.not_eq_true'] at he
    simp [he]
  · rename_i he
    simp only [Bool.not_eq_true, Bool.not_eq_false'] at he
    split at h
    · rename_i hi
      rw [hg h]; simp [he, hi]
    · rename_i hi
      split at h
      · cases h
      · split at h
        · rename_i hok
          rw [hg h]; simp [he, hok]
        · rename_i hok
          cases h
          simp [he, hi, hok]

/-- **C36 (receive order).** After any history of arrivals and receiver steps that
reads only inside frames, the delivered frames are the good ones among a
subsequence of the arrivals. -/
theorem rx_order (cfg : Cfg) (st : Stats) (ops : List RxOp) (s : Rx)
    (h : rxRun cfg { fifo := [], stats := st, out := [] } ops = some s) : Nonempty (Seen cfg (arrivals ops) s) := by
  have key : ∀ (ops : List RxOp) (s0 s : Rx) (arr : List (List Byte)), Nonempty (Seen cfg arr s0) →
      rxRun cfg s0 ops = some s → Nonempty (Seen cfg (arr ++ arrivals ops) s) := by
    intro ops
    induction ops with
    | nil => intro s0 s arr h0 h; cases h; simpa [arrivals] using h0
    | cons op ops ih =>
      intro s0 s arr h0 h
      rw [rxRun, List.foldlM_cons, Option.bind_eq_bind, Option.bind_eq_some_iff] at h
      obtain ⟨s1, h1, h2⟩ := h
      obtain ⟨seen, ho, hd⟩ := h0
      cases op with
      | arrive f =>
        rw [show arr ++ arrivals (.arrive f :: ops) = (arr ++ [f]) ++ arrivals ops by simp [arrivals]]
        refine ih s1 s _ ?_ h2
        simp only [rxStep, Option.some.injEq] at h1
        subst h1
        split
        · refine ⟨⟨seen, ?_, hd⟩⟩
          rw [List.map_append, ← List.append_assoc]
          exact List.Sublist.append ho (List.Sublist.refl _)
        · refine ⟨⟨seen, ?_, hd⟩⟩
          rw [List.map_append]
          exact ho.trans (List.sublist_append_left _ _)
      | take =>
        refine ih s1 s _ ?_ h2
        simp only [rxStep] at h1
        split at h1
        · cases h1; exact ⟨⟨seen, ho, hd⟩⟩
        · rename_i f fs hf
          rw [Option.map_eq_some_iff] at h1
          obtain ⟨⟨st', d⟩, hr, rfl⟩ := h1
          refine ⟨⟨seen ++ [f], ?_, ?_⟩⟩
          · rw [hf] at ho; simpa using ho
          · simp only [List.filter_append, hd, rxFrame_out cfg _ _ f d hr]
  have := key ops _ s [] ⟨⟨[], by simp, by simp⟩⟩ h
  simpa using this

/-! ## Counters over histories -/

/-- Receiving frame after frame. -/
def rxAll (cfg : Cfg) (st : Stats) : List (List Byte) → Option Stats
  | [] => some st
  | f :: fs => (rxFrame cfg st f).bind fun r => rxAll cfg r.1 fs

theorem rxAll_fold (cfg : Cfg) (hen : cfg.rxEnable = true) (fs : List (List Byte)) (st st' : Stats)
    (hs : ∀ c, st c < 2 ^ c.width) (h : rxAll cfg st fs = some st') :
    ∃ gs : List Bool, gs.length = fs.length ∧ (∀ (i : Nat) (g : Bool) (f : List Byte), gs[i]? = some g → fs[i]? = some f →
        (g = true ↔ cfg.rxIgnoreFcs = true ∨ Valid f)) ∧
      ∀ c, st' c = (List.zipWith (fun g f => contribution g f c) gs fs).foldl (statsAdd cfg.ext c.width) (st c) := by
  induction fs generalizing st with
  | nil => cases h; exact ⟨[], rfl, by simp, fun c => rfl⟩
  | cons f fs ih =>
    simp only [rxAll, Option.bind_eq_some_iff] at h
    obtain ⟨⟨st1, d⟩, h1, h2⟩ := h
    obtain ⟨g, e1, -, e3⟩ := rx_counts cfg st st1 f d hen hs h1
    obtain ⟨gs, l1, l2, l3⟩ := ih st1 (fun c => by rw [e3]; exact statsAdd_lt _ _ _ _ (hs c)) h2
    refine ⟨g :: gs, by simp [l1], ?_, ?_⟩
    · intro i g' f' hg hf
      cases i with
      | zero => simp at hg hf; subst hg; subst hf; exact e1
      | succ i => exact l2 i g' f' (by simpa using hg) (by simpa using hf)
    · intro c
      rw [l3, e3]; rfl

/-- **C36 (packet counters).** With counter extension off, after any number of
frames every packet counter has grown by the frames' contributions and stops at
2^48 - 1 instead of wrapping. -/
theorem packet_counters_saturate (cfg : Cfg) (hen : cfg.rxEnable = true) (hext : cfg.ext = false)
    (fs : List (List Byte)) (st st' : Stats) (hs : ∀ c, st c < 2 ^ c.width) (h : rxAll cfg st fs = some st') :
    ∃ gs : List Bool, gs.length = fs.length ∧ (∀ (i : Nat) (g : Bool) (f : List Byte), gs[i]? = some g → fs[i]? = some f →
        (g = true ↔ cfg.rxIgnoreFcs = true ∨ Valid f)) ∧
      ∀ c, c ≠ .bytes → c ≠ .goodBytes →
        st' c = min (st c + (List.zipWith (fun g f => contribution g f c) gs fs).sum) (2 ^ 48 - 1) := by
  obtain ⟨gs, h1, h2, h3⟩ := rxAll_fold cfg hen fs st st' hs h
  refine ⟨gs, h1, h2, fun c hb hg => ?_⟩
  have hw : c.width = 48 := by cases c <;> first | rfl | exact absurd rfl hb | exact absurd rfl hg
  rw [h3 c, hext, fold_unit _ (width_le c) _ ?_ _ (hs c), hw]
  intro v hv
  rw [List.mem_iff_getElem?] at hv
  obtain ⟨i, hi⟩ := hv
  rw [List.getElem?_zipWith] at hi
  split at hi
  · simp only [Option.some.injEq] at hi
    subst hi
    rename_i g f _ _
    cases c <;> first | exact absurd rfl hb | exact absurd rfl hg | (simp only [contribution]; try split) <;> omega
  · cases hi

/-- **C36 (byte counters), partial.** Byte counters are exact as long as the total
fits; beyond that they never decrease and never exceed the true total.  Missing:
they do not stop at a fixed value (`byte_counters_do_not_saturate`). -/
theorem byte_counters_partial (cfg : Cfg) (hen : cfg.rxEnable = true) (hext : cfg.ext = false)
    (fs : List (List Byte)) (st st' : Stats) (hs : ∀ c, st c < 2 ^ c.width) (h : rxAll cfg st fs = some st') :
    st .bytes ≤ st' .bytes ∧ st' .bytes ≤ st .bytes + (fs.map List.length).sum ∧
      (st .bytes + (fs.map List.length).sum < 2 ^ 64 → st' .bytes = st .bytes + (fs.map List.length).sum) := by
  obtain ⟨gs, h1, h2, h3⟩ := rxAll_fold cfg hen fs st st' hs h
  have e : List.zipWith (fun g f => contribution g f .bytes) gs fs = fs.map List.length := by
    clear h2 h3 h
    induction fs generalizing gs with
    | nil => simp
    | cons f fs ih =>
      cases gs with
      | nil => simp at h1
      | cons g gs => rw [List.zipWith_cons_cons, List.map_cons, ih gs (by simpa using h1)]; rfl
  have hb := h3 .bytes
  rw [hext, e] at hb
  have hw : Ctr.width .bytes = 64 := rfl
  rw [hw] at hb
  have hlt : st .bytes < 2 ^ 64 := hs .bytes
  rw [hb]
  exact ⟨(fold_bound 64 (Nat.le_refl _) _ _ hlt).1, (fold_bound 64 (Nat.le_refl _) _ _ hlt).2,
    fun h => fold_exact 64 (Nat.le_refl _) _ _ h⟩

/-- **C36 is violated for byte counters**: an addition that does not fit is
skipped, so the counter stays below its maximum and still counts later, shorter
frames. -/
theorem byte_counters_do_not_saturate :
    statsAdd false 64 (2 ^ 64 - 100) 1500 = 2 ^ 64 - 100 ∧ statsAdd false 64 (2 ^ 64 - 100) 64 = 2 ^ 64 - 36 := by
  decide +kernel

/-- **C36 (extension on).** Counters wrap at their width. -/
theorem extended_counters_wrap (cfg : Cfg) (hen : cfg.rxEnable = true) (hext : cfg.ext = true)
    (fs : List (List Byte)) (st st' : Stats) (hs : ∀ c, st c < 2 ^ c.width) (h : rxAll cfg st fs = some st') :
    st' .total = (st .total + fs.length) % 2 ^ 48 := by
  obtain ⟨gs, h1, h2, h3⟩ := rxAll_fold cfg hen fs st st' hs h
  have e : (List.zipWith (fun g f => contribution g f .total) gs fs).sum = fs.length := by
    clear h2 h3 h
    induction fs generalizing gs with
    | nil => simp
    | cons f fs ih =>
      cases gs with
      | nil => simp at h1
      | cons g gs =>
        rw [List.zipWith_cons_cons, List.sum_cons, ih gs (by simpa using h1), List.length_cons, contribution]; omega
  have hb := h3 .total
  rw [hext, fold_wrap _ (width_le _) _ _ (hs .total), e] at hb
  exact hb

/-! ## Transmitting -/

/-- **C36 (transmitted frames carry a valid check sequence).** With insertion on,
every frame sent is what the client wrote followed by its FCS, hence passes any
receiver's check. -/
theorem tx_inserts_valid_fcs (cfg : Cfg) (hi : cfg.fcsIns = true) (s s' : Tx) (data f : List Byte) (eop : Bool)
    (h : macTx cfg s data eop = .ok s' (some f)) :
    f = (s.buf ++ data) ++ crcBytes (crc32 0 (s.buf ++ data)) ∧ Valid f ∧ s'.buf = [] := by
  unfold macTx at h
  split at h
  · cases h
  · split at h
    · split at h
      · unfold complete at h
        split at h
        · cases h
        · try rw [if_pos hi] at h
          split at h
          · cases h
          · simp only [TxOut.ok.injEq, Option.some.injEq] at h
            obtain ⟨rfl, rfl⟩ := h
            exact ⟨rfl, ⟨_, rfl⟩, rfl⟩
      · cases h
    · cases h

/-- **C36 (one transmitted frame).** Every frame sent is counted exactly once, as
good unless its check sequence was looked at and found wrong. -/
theorem tx_counts (cfg : Cfg) (s s' : Tx) (data f : List Byte) (eop : Bool) (hs : ∀ c, s.stats c < 2 ^ c.width)
    (h : macTx cfg s data eop = .ok s' (some f)) :
    ∃ good : Bool, (good = true ↔ cfg.fcsIns = true ∨ cfg.txIgnoreFcs = true ∨ Valid f) ∧
      ∀ c, s'.stats c = statsAdd cfg.ext c.width (s.stats c) (contribution good f c) := by
  unfold macTx at h
  split at h
  · cases h
  · split at h
    · split at h
      · unfold complete at h
        split at h
        · cases h
        · rename_i h14
          split at h
          · rename_i hi
            split at h
            · cases h
            · simp only [TxOut.ok.injEq, Option.some.injEq] at h
              obtain ⟨rfl, rfl⟩ := h
              refine ⟨true, by simp [hi], fun c => (good_bump cfg.ext s.stats _ ?_ c (hs c)).1⟩
              rw [List.length_append]; omega
          · rename_i hi
            have hv := fcsOk_iff (s.buf ++ data) (by omega)
            split at h
            · rename_i hbad
              simp only [TxOut.ok.injEq, Option.some.injEq] at h
              obtain ⟨rfl, rfl⟩ := h
              simp only [Bool.and_eq_true, Bool.not_eq_true'] at hbad
              refine ⟨false, ?_, fun c => bad_bump cfg.ext s.stats _ c (hs c)⟩
              have : ¬ Valid (s.buf ++ data) := fun h => by rw [hv.2 h] at hbad; simp at hbad
              simp [hi, hbad.1, this]
            · rename_i hok
              simp only [TxOut.ok.injEq, Option.some.injEq] at h
              obtain ⟨rfl, rfl⟩ := h
              refine ⟨true, ?_, fun c => (good_bump cfg.ext s.stats _ (by omega) c (hs c)).1⟩
              simp only [true_iff]
              cases ht : cfg.txIgnoreFcs with
              | true => exact .inr (.inl rfl)
              | false =>
                refine .inr (.inr (hv.1 ?_))
                simpa [ht] using hok
      · cases h
    · cases h

/-- Writing a frame in pieces. -/
def txRun (cfg : Cfg) : Tx → List (List Byte × Bool) → Option (Tx × List (List Byte))
  | s, [] => some (s, [])
  | s, (d, e) :: l =>
    match macTx cfg s d e with
    | .ok s' sent => (txRun cfg s' l).map fun r => (r.1, sent.toList ++ r.2)
    | _ => none

/-- **C36 (assembly).** A frame written in any number of pieces, of 14 to 65531
bytes in all, is sent as one frame with its FCS, and the MAC is ready for the
next. -/
theorem tx_pieces (cfg : Cfg) (hen : cfg.txEnable = true) (hi : cfg.fcsIns = true) (st : Stats)
    (ds : List (List Byte)) (last : List Byte) (h14 : 14 ≤ (ds.flatten ++ last).length)
    (hmax : (ds.flatten ++ last).length + 4 < 65536) :
    ∃ st', txRun cfg { buf := [], stats := st } (ds.map (·, false) ++ [(last, true)]) =
      some ({ buf := [], stats := st' },
        [(ds.flatten ++ last) ++ crcBytes (crc32 0 (ds.flatten ++ last))]) := by
  have key : ∀ (ds : List (List Byte)) (buf : List Byte), 14 ≤ (buf ++ ds.flatten ++ last).length →
      (buf ++ ds.flatten ++ last).length + 4 < 65536 →
      ∃ st', txRun cfg { buf := buf, stats := st } (ds.map (·, false) ++ [(last, true)]) =
        some ({ buf := [], stats := st' },
          [(buf ++ ds.flatten ++ last) ++ crcBytes (crc32 0 (buf ++ ds.flatten ++ last))]) := by
    intro ds
    induction ds with
    | nil =>
      intro buf h1 h2
      rw [List.flatten_nil, List.append_nil] at h1 h2 ⊢
      rw [List.length_append] at h1 h2
      refine ⟨bumpAll cfg.ext st (goodStats ((buf ++ last) ++ crcBytes (crc32 0 (buf ++ last))) ++ allStats ((buf ++ last) ++ crcBytes (crc32 0 (buf ++ last)))), ?_⟩
      simp only [List.map_nil, List.nil_append, txRun, macTx, hen, Bool.not_true, Bool.false_eq_true, if_false]
      rw [if_pos (by omega), if_pos trivial, complete, if_neg (by rw [List.length_append]; omega), if_pos hi,
        if_neg (by rw [List.length_append]; omega)]
      rfl
    | cons d ds ih =>
      intro buf h1 h2
      have e : buf ++ (d :: ds).flatten ++ last = (buf ++ d) ++ ds.flatten ++ last := by simp
      rw [e] at h1 h2 ⊢
      obtain ⟨st', hst⟩ := ih (buf ++ d) h1 h2
      refine ⟨st', ?_⟩
      simp only [List.map_cons, List.cons_append, txRun, macTx, hen, Bool.not_true, Bool.false_eq_true, if_false]
      rw [if_pos (by simp only [List.length_append] at h2; omega)]
      simp only [hst, Option.map_some, Option.toList_none, List.nil_append]
  simpa using key ds [] (by simpa using h14) (by simpa using hmax)

example : ∃ (ds : List (List Byte)) (last : List Byte), 14 ≤ (ds.flatten ++ last).length ∧
    (ds.flatten ++ last).length + 4 < 65536 := ⟨[[1, 2], List.replicate 20 0], [7], by decide, by decide⟩

/-! ## Registers -/

/-- **C36 (reading counters).** A tick moves every counter to its own pair of
registers, from which the value can be recovered exactly, and clears it. -/
theorem tick_exact (r : Regs) (hs : ∀ d c, r.stats d c < 2 ^ 64) :
    (∀ e ∈ tickTable, ((tick r).regs (e.2.2 / 4 + 1)).toNat * 2 ^ 32 + ((tick r).regs (e.2.2 / 4)).toNat = r.stats e.1 e.2.1) ∧
    (∀ d c, ∃ a, (d, c, a) ∈ tickTable) ∧ (∀ d c, (tick r).stats d c = 0) := by
  have hc : ∀ d c, ∃ a, (d, c, a) ∈ tickTable := by
    intro d c
    have h : ∀ d c, ∃ e ∈ tickTable, e.1 = d ∧ e.2.1 = c := by
      intro d c
      cases d <;> cases c <;> (try rename_i b; cases b) <;> decide
    obtain ⟨⟨d', c', a⟩, h1, h2, h3⟩ := h d c
    simp only at h2 h3; subst h2; subst h3
    exact ⟨a, h1⟩
  refine ⟨?_, hc, ?_⟩
  · intro e he
    obtain ⟨a, b⟩ := regs_mem tickTable (by decide +kernel) (by decide +kernel) r e he
    rw [tick, a, b, BitVec.toNat_ofNat, BitVec.toNat_ofNat]
    have := hs e.1 e.2.1
    rw [Nat.mod_eq_of_lt (a := r.stats e.1 e.2.1 / 2 ^ 32) (by omega)]
    omega
  · intro d c
    obtain ⟨a, ha⟩ := hc d c
    rw [tick, stats_zero, if_pos (List.mem_map.mpr ⟨_, ha, rfl⟩)]

/-- A tick happens, and clears all accumulators, on any access to the tick
register, also when it is read. -/
theorem any_access_ticks (r : Regs) (len : Nat) (h : len ≤ 4) : regAccess r 0x2c len = some (tick r) := by
  rw [regAccess, if_neg (by omega), if_pos rfl]

/-- An access of more than four bytes is rejected by the register block but then
copied into a 32-bit local. -/
theorem wide_register_access_overruns (r : Regs) (addr len : Nat) (h : 4 < len) : regAccess r addr len = none := by
  rw [regAccess, if_pos h]

/-! ## Where the code falls short -/

/-- **C36 is violated after a short frame**: a frame of fewer than 14 bytes is
reported as dropped but stays in the buffer, and the next frame is sent with it
in front. -/
theorem short_frame_prefixes_next (cfg : Cfg) (hen : cfg.txEnable = true) (hi : cfg.fcsIns = true) (st : Stats)
    (runt f : List Byte) (h1 : runt.length < 14) (h2 : 14 ≤ f.length) (h3 : f.length + 18 < 65536) :
    ∃ st', txRun cfg { buf := [], stats := st } [(runt, true), (f, true)] =
      some ({ buf := [], stats := st' }, [(runt ++ f) ++ crcBytes (crc32 0 (runt ++ f))]) := by
  refine ⟨bumpAll cfg.ext st (goodStats ((runt ++ f) ++ crcBytes (crc32 0 (runt ++ f))) ++ allStats ((runt ++ f) ++ crcBytes (crc32 0 (runt ++ f)))), ?_⟩
  simp only [txRun, macTx, hen, Bool.not_true, Bool.false_eq_true, if_false, List.length_nil, List.nil_append]
  rw [if_pos (by omega), if_pos trivial, complete, if_pos h1]
  simp only []
  rw [if_pos (by omega), if_pos trivial, complete, if_neg (by rw [List.length_append]; omega), if_pos hi,
    if_neg (by rw [List.length_append]; omega)]
  rfl

/-- A frame of 65533 to 65535 bytes passes the assertion and its FCS is written
past the end of the buffer. -/
theorem fcs_overflows_buffer (cfg : Cfg) (hen : cfg.txEnable = true) (hi : cfg.fcsIns = true) (st : Stats)
    (f : List Byte) (h1 : 65532 < f.length) (h2 : f.length < 65536) :
    macTx cfg { buf := [], stats := st } f true = .overflow := by
  simp only [macTx, hen, Bool.not_true, Bool.false_eq_true, if_false, List.length_nil, List.nil_append]
  rw [if_pos (by omega), if_pos trivial, complete, if_neg (by omega), if_pos hi, if_pos (by omega)]

/-- FCS deletion has no effect: frames are delivered with their FCS whether or
not it is configured. -/
theorem delete_fcs_has_no_effect (cfg : Cfg) (b : Bool) (st : Stats) (f : List Byte) :
    rxFrame { cfg with rxDeleteFcs := b } st f = rxFrame cfg st f := rfl

/-- Valid frames shorter than an Ethernet header make the receiver read bytes
that are not part of the frame; so do frames of fewer than four bytes. -/
theorem short_received_frame_outside (cfg : Cfg) (st : Stats) (f : List Byte) (hen : cfg.rxEnable = true)
    (h : f.length < 4 ∨ (Valid f ∧ f.length < 14)) : rxFrame cfg st f = none := by
  have hg : f.length < 14 → rxGood cfg st f = none := by
    intro h; rw [rxGood, if_pos h]
  simp only [rxFrame, hen, Bool.not_true, Bool.false_eq_true, if_false]
  rcases h with h | ⟨hv, h⟩
  · rw [hg (by omega)]
    rw [if_pos h]
    split <;> rfl
  · have h4 := valid_length f hv
    rw [hg h, if_pos ((fcsOk_iff f h4).2 hv)]
    split
    · rfl
    · split <;> rfl

/-- A frame that arrives while two others wait is lost without being counted. -/
theorem third_frame_lost (cfg : Cfg) (s : Rx) (f : List Byte) (h : s.fifo.length = 2) : rxStep cfg s (.arrive f) = some s := by
  rw [rxStep, if_neg (by rw [h]; decide)]

end Verif.Mrmac
