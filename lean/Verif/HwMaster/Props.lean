import Verif.HwMaster.Core
import Verif.Aligner.Sim

/-! # C55: TLM accesses through the hardware bridge -/

namespace Verif.HwMaster
open Verif Verif.Axi
open Verif.HwSlave (Legal applyWrites)

/-! ## The aligner's accesses -/

/-- Memory `m` moved up by `off`, on top of what `M0` has below. -/
def lift (off : Nat) (M0 m : Mem) : Mem := fun a => if a < off then M0 a else m (a - off)

theorem lift_self (off : Nat) (M : Mem) : lift off M (fun a => M (a + off)) = M := by
  funext a
  unfold lift
  split
  · rfl
  · simp only; congr 1; omega

theorem writeFrom_lift (off : Nat) (M0 : Mem) (a sw : Nat) (be : List Bool) : ∀ (d : List Byte) (m : Mem) (i : Nat),
    writeFrom (lift off M0 m) (a + off) sw be i d = lift off M0 (writeFrom m a sw be i d) := by
  intro d
  induction d with
  | nil => intro m i; rfl
  | cons x d ih =>
    intro m i
    rw [writeFrom, writeFrom, ← ih]
    congr 1
    split
    · funext y
      unfold lift Mem.set
      by_cases h : y = a + off + i % sw
      · rw [if_pos h, if_neg (by omega), if_pos (by omega)]
      · rw [if_neg h]
        by_cases h2 : y < off
        · simp only [h2, if_true]
        · simp only [h2, if_false]
          rw [if_neg (by omega)]
    · rfl

theorem readFrom_lift (off : Nat) (M0 : Mem) (a sw : Nat) (be : List Bool) : ∀ (d : List Byte) (m : Mem) (i : Nat),
    readFrom (lift off M0 m) (a + off) sw be i d = readFrom m a sw be i d := by
  intro d
  induction d with
  | nil => intro m i; rfl
  | cons x d ih =>
    intro m i
    rw [readFrom, readFrom, ih]
    congr 2
    unfold lift
    rw [if_neg (by omega)]
    congr 1
    omega

theorem run_lift (c : Cfg) (M0 m : Mem) (g : Gp) :
    (c.shifted g).run (lift c.baseOff M0 m) = (lift c.baseOff M0 (g.run m).1, (g.run m).2) := by
  unfold Gp.run Cfg.shifted
  cases h : g.cmd with
  | read => simp only [readFrom_lift]
  | write => simp only [writeFrom_lift]
  | ignore => rfl

theorem aligner_ok (c : Cfg) (hc : c.Ok) : Aligner.Cfg.Ok c.aligner := by
  have hdb : 4 ≤ c.db := by rcases hc.bus with h | h | h <;> omega
  exact ⟨Nat.mul_pos hc.some_beat (by omega), by show 0 < 4 * 1024; decide, by show 8 ≤ c.db * 8; omega⟩

theorem natural_of (c : Cfg) (hc : c.Ok) (x : Gp) (h : Aligner.InLimits c.aligner x) :
    Natural (x.addr + c.baseOff) x.len ∧ x.len ≤ c.maxBeats * c.db ∧
      (x.addr + c.baseOff + (x.len - 1)) / 4096 = (x.addr + c.baseOff) / 4096 := by
  have h1 : x.len ≤ c.maxBeats * c.db := h.maxLen
  have hb : (x.addr + (x.len - 1)) / 4096 = x.addr / 4096 := h.boundary
  have hp := hc.page
  have h4 : x.len ≤ 4096 := by
    have : c.maxBeats * c.db ≤ 255 * 16 :=
      Nat.mul_le_mul hc.beats (by rcases hc.bus with h | h | h <;> omega)
    omega
  refine ⟨⟨h.nonempty, ?_⟩, h1, by omega⟩
  have big : x.addr % 4096 = 0 → ∃ k, x.len ≤ 2 ^ k ∧ (x.addr + c.baseOff) % 2 ^ k = 0 := by
    intro h0
    exact ⟨12, by omega, by omega⟩
  rcases h.natural rfl with h0 | ⟨k, hk, hA⟩
  · exact big (by omega)
  · rcases Nat.lt_or_ge k 12 with hk12 | hk12
    · refine ⟨k, hk, ?_⟩
      have hd : 2 ^ k ∣ c.baseOff :=
        Nat.dvd_trans (Nat.pow_dvd_pow 2 (Nat.le_of_lt hk12)) (Nat.dvd_of_mod_eq_zero hp)
      exact Nat.mod_eq_zero_of_dvd (Nat.dvd_add (Nat.dvd_of_mod_eq_zero hA) hd)
    · apply big
      exact Nat.mod_eq_zero_of_dvd (Nat.dvd_trans (Nat.pow_dvd_pow 2 hk12) (Nat.dvd_of_mod_eq_zero hA))

/-- What holds between the bridge with a memory behind it and the memory. -/
structure Rel (c : Cfg) (M0 : Mem) (wr : Bool) (s : Slave × Bufs) (m : Mem) : Prop where
  mem : s.1.mem = some (lift c.baseOff M0 m)
  legal : ∀ e ∈ s.1.log, Legal c.db e.1 ∧ e.2 = wr

theorem setAxiResp_status (r : AxiResp.Resp) : (AxiResp.setAxiResp none r).1 = statusOf r := by
  cases r <;> rfl

theorem bridge_agree (c : Cfg) (hc : c.Ok) (junk : Nat → Nat → Byte) (resp : Nat → AxiResp.Resp)
    (hresp : ∀ k, statusOf (resp k) = .ok) (attr : Option Attr) (g : Gp) (hcmd : g.cmd ≠ .ignore)
    (hfit : g.addr + c.baseOff + g.len ≤ 2 ^ 64) (M0 : Mem) :
    Aligner.Agree c.aligner g (Rel c M0 (decide (g.cmd = .write)))
      (bridge c (hw c.db c.lite junk resp) attr) Aligner.memT := by
  intro x s m hx hsw hxc hxe hR
  obtain ⟨hnat, hlen, hpage⟩ := natural_of c hc x hx
  have hx0 := hx.nonempty
  have hA : (x.addr + c.baseOff) % 2 ^ 64 = x.addr + c.baseOff := Nat.mod_eq_of_lt (by omega)
  obtain ⟨ax, f⟩ := fit_of c hc _ _ hnat hlen
  have hleg := legal hc f hx0 hpage
  have hd : ∀ i, i < x.len → copyTo s.2.wdata ((x.addr + c.baseOff) % c.db) x.data ((x.addr + c.baseOff) % c.db + i) =
      x.data.getD i 0 := by
    intro i hi
    unfold copyTo
    rw [if_pos ⟨by omega, by have : x.len = x.data.length := rfl; omega⟩]
    congr 1
    omega
  obtain ⟨sl, b⟩ := s
  have hmem : sl.mem = some (lift c.baseOff M0 m) := hR.mem
  have hnew : ∀ e ∈ sl.log ++ [(mkAx c (x.addr + c.baseOff) x.len ax, decide (g.cmd = .write))],
      Legal c.db e.1 ∧ e.2 = decide (g.cmd = .write) := by
    intro e he
    rcases List.mem_append.mp he with h | h
    · exact hR.legal e h
    · simp at h; subst h; exact ⟨hleg, rfl⟩
  have hlenT : (Aligner.memT x m).2.1.length = x.len := by
    show (x.run m).2.length = x.len
    unfold Gp.run
    split <;> simp [Gp.len]
  have hnsw : ¬ (x.sw ≠ 0 ∧ x.sw < x.len) := by omega
  have hok := hresp sl.log.length
  unfold bridge
  rw [if_neg hnsw]
  simp only [hA, descOf_eq f]
  cases hcx : x.cmd with
  | ignore => exact absurd (hxc ▸ hcx) hcmd
  | write =>
    have hgw : g.cmd = .write := by rw [← hxc, hcx]
    have hrun := run_lift c M0 m x
    have hcore := write_core hc f x.be attr
      (if (mkDesc c (x.addr + c.baseOff) x.len ax true x.be attr).strbs then
        { b with wdata := copyTo b.wdata ((x.addr + c.baseOff) % c.db) x.data,
                 wstrb := setupWstrb c (x.addr + c.baseOff) x.len x.be b.wstrb }
       else { b with wdata := copyTo b.wdata ((x.addr + c.baseOff) % c.db) x.data })
      (lift c.baseOff M0 m) x.data x.sw rfl hsw
      (by
        intro hs i hi
        have : (mkDesc c (x.addr + c.baseOff) x.len ax true x.be attr).strbs = true := hs
        rw [if_pos this]
        exact setupWstrb_bit c hc.bus _ _ _ _ _ hi)
      (by
        intro i hi
        have := hd i hi
        split <;> exact this)
    rw [writeFrom_lift] at hcore
    have hm' : (Aligner.memT x m) = (writeFrom m x.addr x.sw x.be 0 x.data, x.data, .ok) := by
      unfold Aligner.memT Gp.run
      rw [hcx]
    rw [hm'] at hlenT ⊢
    refine ⟨⟨?_, ?_⟩, ?_, hlenT⟩
    · simp only [ne_eq, reduceCtorEq, not_false_eq_true, decide_true, if_true, hw]
      rw [hwAx_eq hc f]
      show (sl.mem.bind _) = _
      rw [hmem, Option.bind_some]
      exact hcore
    · simp only [ne_eq, reduceCtorEq, not_false_eq_true, decide_true, if_true, hw]
      rw [hwAx_eq hc f, if_pos (show (mkDesc c (x.addr + c.baseOff) x.len ax true x.be attr).isWrite = true from rfl)]
      rw [decide_eq_true hgw] at hnew ⊢
      exact hnew
    · simp only [ne_eq, reduceCtorEq, not_false_eq_true, decide_true, if_true, hw]
      rw [setAxiResp_status]
      show (_, statusOf (resp sl.log.length)) = _
      rw [hok]
      simp
  | read =>
    have hgr : g.cmd = .read := by rw [← hxc, hcx]
    have hm' : (Aligner.memT x m) = (m, readFrom m x.addr x.sw x.be 0 x.data, .ok) := by
      unfold Aligner.memT Gp.run
      rw [hcx]
    rw [hm'] at hlenT ⊢
    have hnb : (mkDesc c (x.addr + c.baseOff) x.len ax false x.be attr).strbs = false := by
      show needStrb c x.len false x.be = false
      unfold needStrb
      rw [Bool.and_false]
    have hokr : resp sl.log.length = .okay ∨ resp sl.log.length = .exokay := by
      revert hok
      cases resp sl.log.length <;> simp [statusOf]
    refine ⟨⟨?_, ?_⟩, ?_, hlenT⟩
    · simp only [ne_eq, not_true_eq_false, decide_false, Bool.false_eq_true, if_false, hnb, hw]
      exact hmem
    · simp only [ne_eq, not_true_eq_false, decide_false, Bool.false_eq_true, if_false, hnb, hw]
      rw [hwAx_eq hc f, if_neg (show ¬ (mkDesc c (x.addr + c.baseOff) x.len ax false x.be attr).isWrite = true from fun h => by cases h)]
      rw [decide_eq_false (show ¬ g.cmd = .write by rw [hgr]; intro h; cases h)] at hnew ⊢
      exact hnew
    · simp only [ne_eq, not_true_eq_false, decide_false, Bool.false_eq_true, if_false, hnb, hw]
      rw [setAxiResp_status, hwAx_eq hc f]
      show (if True ∧ (resp sl.log.length = .okay ∨ resp sl.log.length = .exokay) then _ else _, statusOf (resp sl.log.length)) = _
      rw [if_pos ⟨trivial, hokr⟩, hok]
      congr 1
      rw [← readFrom_lift c.baseOff M0 x.addr x.sw x.be x.data m 0]
      apply copyFrom_eq
      intro i hi
      have hsl : i % x.sw = i := by
        have : x.len = x.data.length := rfl
        rcases hsw with h | h
        · rw [h, Nat.mod_zero]
        · exact Nat.mod_eq_of_lt (by omega)
      rw [hsl]
      apply read_core hc f (lift c.baseOff M0 m) _ ?_ i hi
      intro n l hn hl hlo
      have hdb0 : 0 < c.db := by omega
      have h1 : (n * c.db + l) / c.db = n := by
        rw [Nat.mul_comm, Nat.mul_add_div hdb0, Nat.div_eq_of_lt hl, Nat.add_zero]
      have h2 : (n * c.db + l) % c.db = l := by
        rw [Nat.mul_comm, Nat.mul_add_mod, Nat.mod_eq_of_lt hl]
      have h3 : n * c.db + l < (mkAx c (x.addr + c.baseOff) x.len ax).beats * c.db := by
        have : (n + 1) * c.db ≤ nrBeats c.db ((x.addr + c.baseOff) % c.db) x.len * c.db := Nat.mul_le_mul_right _ hn
        rw [Nat.succ_mul] at this
        show _ < nrBeats c.db ((x.addr + c.baseOff) % c.db) x.len * c.db
        omega
      refine (if_pos h3).trans ?_
      rw [h1, h2, if_pos hlo, hmem]
      rfl

/-! ## The theorems -/

/-- **C55.** Through a probed bridge of any of the hardware's bus widths, over AXI3,
AXI4 or AXI-Lite, with an offset of whole pages: every read or write of any length,
alignment, streaming width and byte enables does to the memory behind the bridge and
to the caller's buffer exactly what the access means at the shifted address, and is
answered OK, whatever the hardware's buffers held before and the unused lanes carry.
Every burst it takes is legal AXI, and none breaks the protocol (the memory state
would be `none`). -/
theorem access_right (c : Cfg) (hc : c.Ok) (junk : Nat → Nat → Byte) (resp : Nat → AxiResp.Resp)
    (hresp : ∀ k, resp k = .okay ∨ resp k = .exokay) (attr : Option Attr) (g : Gp) (hcmd : g.cmd ≠ .ignore)
    (hne : 0 < g.len) (hfit : g.addr + c.baseOff + g.len ≤ 2 ^ 64) (m : Mem) (b : Bufs) (st : Status) :
    ∃ log b', transport c (hw c.db c.lite junk resp) attr g (⟨some m, []⟩, b) st =
        some ((⟨some ((c.shifted g).run m).1, log⟩, b'), ((c.shifted g).run m).2, .ok) ∧
      ∀ e ∈ log, Legal c.db e.1 ∧ e.2 = decide (g.cmd = .write) := by
  have hr : ∀ k, statusOf (resp k) = .ok := by
    intro k; rcases hresp k with h | h <;> rw [h] <;> rfl
  obtain ⟨s', t', r, h1, h2, h3⟩ := Aligner.transport_sim c.aligner (aligner_ok c hc) rfl g hne (by omega)
    (Rel c m (decide (g.cmd = .write))) (bridge c (hw c.db c.lite junk resp) attr) Aligner.memT
    (bridge_agree c hc junk resp hr attr g hcmd hfit m) (⟨some m, []⟩, b) (fun a => m (a + c.baseOff)) st
    ⟨by rw [lift_self], by intro e he; simp at he⟩
  rw [Aligner.aligner_transparent c.aligner (aligner_ok c hc) g _ st hne (by omega)] at h2
  have hrun := run_lift c m (fun a => m (a + c.baseOff)) g
  rw [lift_self] at hrun
  rw [hrun]
  cases h2
  obtain ⟨⟨mem', log'⟩, b'⟩ := s'
  have hm := h3.mem
  simp only at hm
  subst hm
  exact ⟨log', b', h1, h3.legal⟩

/-- Three bursts of an unaligned write with byte enables over a 64-bit bus. -/
example :
    let c : Cfg := ⟨8, false, 255, 4096⟩
    let g : Gp := { cmd := .write, addr := 5, data := [1, 2, 3, 4, 5, 6, 7, 8, 9, 10, 11], be := [true, true, false], sw := 11 }
    c.Ok ∧ g.cmd ≠ .ignore ∧ 0 < g.len ∧ g.addr + c.baseOff + g.len ≤ 2 ^ 64 ∧
    (transport c (hw c.db c.lite (fun _ _ => 0xee) fun _ => .okay) none g (⟨some fun _ => 0, []⟩, ⟨fun _ => 0xaa, fun _ => 0xff, fun _ => 0xcc⟩)
      .incomplete).map (fun r => (r.1.1.log.map fun e => (e.1.addr, e.1.nb, e.1.beats),
        (r.1.1.mem.map fun m => (List.range 12).map fun i => m (4096 + 5 + i)))) =
      some ([(4101, 1, 1), (4102, 2, 1), (4104, 8, 1)], some [1, 2, 0, 4, 5, 0, 7, 8, 0, 10, 11, 0]) := by
  refine ⟨⟨Or.inr (Or.inl rfl), by decide, by decide, (fun h => by cases h), by decide⟩, by decide, by decide, by decide, by decide +kernel⟩

/-- The answers of the bursts: the status of `g` is that of the last burst, and all
before it were fine. -/
structure Answered (resp : Nat → AxiResp.Resp) (k : Nat) (st : Status) : Prop where
  some_burst : 0 < k
  before : ∀ i, i + 1 < k → statusOf (resp i) = .ok
  last : st = statusOf (resp (k - 1))

theorem copyFrom_length (f : Nat → Byte) (off : Nat) (be : List Bool) (buf : List Byte) :
    (copyFrom f off be buf).length = buf.length := by
  unfold copyFrom
  by_cases h : be = []
  · rw [if_pos h]; simp
  · rw [if_neg h]
    exact (copyLoop_get f be h buf.length buf.length _ _ 0 buf (by omega) (Nat.mod_lt _ (by omega)) rfl).1

/-- What one access of the aligner leaves behind, whatever the answer. -/
theorem bridge_any (c : Cfg) (hc : c.Ok) (junk : Nat → Nat → Byte) (resp : Nat → AxiResp.Resp) (attr : Option Attr)
    (x : Gp) (hx : Aligner.InLimits c.aligner x) (hsw : x.sw = 0 ∨ x.len ≤ x.sw)
    (hfit : x.addr + c.baseOff + x.len ≤ 2 ^ 64) (s : Slave × Bufs) :
    (∃ e, (bridge c (hw c.db c.lite junk resp) attr x s).1.1.log = s.1.log ++ [e]) ∧
    (bridge c (hw c.db c.lite junk resp) attr x s).2.2 = statusOf (resp s.1.log.length) ∧
    (bridge c (hw c.db c.lite junk resp) attr x s).2.1.length = x.len ∧
    (statusOf (resp s.1.log.length) ≠ .ok → (bridge c (hw c.db c.lite junk resp) attr x s).2.1 = x.data) := by
  obtain ⟨hnat, hlen, hpage⟩ := natural_of c hc x hx
  have hx0 := hx.nonempty
  have hA : (x.addr + c.baseOff) % 2 ^ 64 = x.addr + c.baseOff := Nat.mod_eq_of_lt (by omega)
  obtain ⟨ax, f⟩ := fit_of c hc _ _ hnat hlen
  have hnsw : ¬ (x.sw ≠ 0 ∧ x.sw < x.len) := by omega
  have hrd : ∀ (d : Desc) (b : Bufs), (hw c.db c.lite junk resp d b s.1).2.2 = resp s.1.log.length := by
    intro d b; unfold hw; simp only; split <;> rfl
  have hlg : ∀ (d : Desc) (b : Bufs), ∃ e, (hw c.db c.lite junk resp d b s.1).1.log = s.1.log ++ [e] := by
    intro d b; unfold hw; simp only; split <;> exact ⟨_, rfl⟩
  unfold bridge
  rw [if_neg hnsw]
  simp only [hA, descOf_eq f, hrd, setAxiResp_status]
  refine ⟨hlg _ _, trivial, ?_, ?_⟩
  · split
    · rw [copyFrom_length]; rfl
    · rfl
  · intro h
    rw [if_neg]
    rintro ⟨_, h1 | h1⟩ <;> exact h (by rw [h1]; rfl)

/-- **C55, responses.** For any response codes, the status of an access is that of
the first burst that fails, after which no burst is issued; it is OK when all burst
answer `OKAY` or `EXOKAY`. -/
theorem status_right (c : Cfg) (hc : c.Ok) (junk : Nat → Nat → Byte) (resp : Nat → AxiResp.Resp) (attr : Option Attr)
    (g : Gp) (hne : 0 < g.len) (hfit : g.addr + c.baseOff + g.len ≤ 2 ^ 64) (m : Mem) (b : Bufs) (st : Status) :
    ∃ sl b' d st', transport c (hw c.db c.lite junk resp) attr g (⟨some m, []⟩, b) st = some ((sl, b'), d, st') ∧
      Answered resp sl.log.length st' ∧ d.length = g.len := by
  let T := bridge c (hw c.db c.lite junk resp) attr
  -- the aligner never hands over anything else than accesses within its limits
  have key : ∀ n pos curSw (s : Slave × Bufs) (buf : List Byte) (st0 : Status), g.len - pos ≤ n → pos ≤ g.len →
      buf.length = g.len → (pos = 0 → curSw = g.sw) → 0 < Aligner.effSw g → pos < g.len ∨ 0 < s.1.log.length →
      (∀ i, i < s.1.log.length → statusOf (resp i) = .ok) → (pos = g.len → st0 = .ok) →
      ∃ sl b' d st', Aligner.loop c.aligner T g (Aligner.effSw g) pos curSw s buf st0 = some ((sl, b'), d, st') ∧
        Answered resp sl.log.length st' ∧ d.length = g.len := by
    intro n
    induction n with
    | zero =>
      intro pos curSw s buf st0 hn hpos hbuf hcur hsw hlog hall hst
      rw [Aligner.loop, if_neg (by omega)]
      refine ⟨s.1, s.2, buf, st0, rfl, ⟨by omega, fun i hi => hall i (by omega), ?_⟩, hbuf⟩
      rw [hst (by omega), hall _ (by omega)]
    | succ n ih =>
      intro pos curSw s buf st0 hn hpos hbuf hcur hsw hlog hall hst
      by_cases hp : pos = g.len
      · rw [Aligner.loop, if_neg (by omega)]
        refine ⟨s.1, s.2, buf, st0, rfl, ⟨by omega, fun i hi => hall i (by omega), ?_⟩, hbuf⟩
        rw [hst (by omega), hall _ (by omega)]
      · have hlt : pos < g.len := by omega
        have hac := aligner_ok c hc
        have hmod : pos % Aligner.effSw g ≤ pos := Nat.mod_le _ _
        obtain ⟨f1, f2, f3, -⟩ := Aligner.chunk_facts c.aligner g.addr g.len (Aligner.effSw g) pos curSw hsw hlt
        have f3' := f3 hac.maxLen hac.boundary hac.busWidth (by omega)
        have f2' := Nat.le_trans f2 (Aligner.maxAddrRange_le c.aligner (g.addr + pos % Aligner.effSw g)).1
        have hcs := Aligner.chunk_sw c.aligner rfl g pos curSw hlt hsw hcur
        rw [Aligner.loop, if_pos hlt]
        simp only []
        rw [dif_pos ⟨f3', f2'⟩]
        generalize hch : Aligner.chunk c.aligner g.addr g.len (Aligner.effSw g) pos curSw = ch at *
        have hsl : (Aligner.subGp g (Aligner.effSw g) buf pos ch).len = ch.1 := by
          simp [Aligner.subGp, Gp.len]
          have : g.len = g.data.length := rfl
          omega
        have hsub := Aligner.sub_inLimits c.aligner hac g (Aligner.effSw g) buf pos ch hsl f3' f2 (by omega)
        obtain ⟨⟨e, q1⟩, q2, q3, -⟩ := bridge_any c hc junk resp attr (Aligner.subGp g (Aligner.effSw g) buf pos ch) hsub
          (by rw [hsl]; exact hcs)
          (by rw [hsl]; show g.addr + pos % Aligner.effSw g + c.baseOff + ch.1 ≤ _; omega) s
        rw [hsl] at q3
        change (T _ s).1.1.log = _ at q1
        change (T _ s).2.2 = _ at q2
        change (T _ s).2.1.length = _ at q3
        have ql : (T (Aligner.subGp g (Aligner.effSw g) buf pos ch) s).1.1.log.length = s.1.log.length + 1 := by
          rw [q1]; simp
        by_cases hs : (T (Aligner.subGp g (Aligner.effSw g) buf pos ch) s).2.2 = .ok
        · rw [if_neg (by simp [hs])]
          refine ih (pos + ch.1) ch.2 _ _ _ (by omega) (by omega) (by simp [q3]; omega) (by omega) hsw (Or.inr (by omega)) ?_
            (fun _ => hs)
          intro i hi
          rw [ql] at hi
          by_cases hil : i = s.1.log.length
          · rw [hil, ← q2, hs]
          · exact hall i (by omega)
        · rw [if_pos hs]
          refine ⟨(T (Aligner.subGp g (Aligner.effSw g) buf pos ch) s).1.1, (T (Aligner.subGp g (Aligner.effSw g) buf pos ch) s).1.2,
            _, _, rfl, ⟨by omega, fun i hi => hall i (by omega), ?_⟩, by simp [q3]; omega⟩
          rw [q2, ql]
          rfl
  have hsw : 0 < Aligner.effSw g := by
    unfold Aligner.effSw; split <;> omega
  unfold transport Aligner.transport
  by_cases hf : Aligner.fastPath c.aligner g = true
  · rw [if_pos hf]
    have hac := aligner_ok c hc
    simp only [Aligner.fastPath, Bool.and_eq_true, beq_iff_eq, decide_eq_true_eq] at hf
    obtain ⟨⟨⟨hf1, hf2⟩, hf3⟩, hf4⟩ := hf
    have hsub : Aligner.InLimits c.aligner g := by
      have h : (Aligner.subGp g 1 g.data 0 (g.len, g.sw)).len = g.len := by simp [Aligner.subGp, Gp.len]
      have := Aligner.sub_inLimits c.aligner hac g 1 g.data 0 (g.len, g.sw) h hne
        (by simp only [Nat.mod_one, Nat.add_zero]; omega) (by simp only [Nat.mod_one, Nat.add_zero]; omega)
      obtain ⟨a1, a2, a3, a4⟩ := this
      rw [h] at a1 a2 a3 a4
      exact ⟨a1, a2, by simpa [Aligner.subGp, Nat.mod_one] using a3, by simpa [Aligner.subGp, Nat.mod_one] using a4⟩
    have hs : g.sw = 0 ∨ g.len ≤ g.sw := by
      unfold Aligner.effSw at hf4
      by_cases h : g.sw = 0
      · exact Or.inl h
      · rw [if_neg h] at hf4; right; omega
    obtain ⟨⟨e, q1⟩, q2, q3, -⟩ := bridge_any c hc junk resp attr g hsub hs hfit (⟨some m, []⟩, b)
    have q1' : (bridge c (hw c.db c.lite junk resp) attr g (⟨some m, []⟩, b)).1.1.log.length = 1 := by rw [q1]; simp
    refine ⟨(bridge c (hw c.db c.lite junk resp) attr g (⟨some m, []⟩, b)).1.1,
      (bridge c (hw c.db c.lite junk resp) attr g (⟨some m, []⟩, b)).1.2,
      (bridge c (hw c.db c.lite junk resp) attr g (⟨some m, []⟩, b)).2.1,
      (bridge c (hw c.db c.lite junk resp) attr g (⟨some m, []⟩, b)).2.2, rfl, ⟨by omega, fun i hi => by omega, ?_⟩, q3⟩
    rw [q2, q1']
    rfl
  · rw [if_neg hf]
    exact key g.len 0 g.sw _ g.data st (by omega) (by omega) rfl (fun _ => rfl) hsw (Or.inl hne)
      (by intro i hi; simp at hi) (by intro h; omega)

/-- A write of two bursts whose second one meets a decode error. -/
example : (transport ⟨4, false, 255, 0⟩ (hw 4 false (fun _ _ => 0) fun k => if k = 1 then .decerr else .okay) none
    { cmd := .write, addr := 3, data := [1, 2, 3], sw := 3 } (⟨some fun _ => 0, []⟩, ⟨fun _ => 0, fun _ => 0, fun _ => 0⟩)
    .incomplete).map (fun r => (r.1.1.log.length, r.2.2)) = some (2, .address) := by
  decide +kernel

/-! ## Findings -/

/-- The security attribute is sent inverted: a secure access is marked non-secure on
the bus, and a non-secure one secure. -/
theorem security_inverted (a : Attr) : axprotNonSecure (computeAttr (some a)) = a.secure := by
  unfold axprotNonSecure computeAttr
  cases h : a.secure <;> simp [h]

theorem security_wrong : ∃ a : Attr, a.secure = true ∧ axprotNonSecure (computeAttr (some a) ||| 1) = true :=
  ⟨⟨true, false, 0, 0⟩, rfl, by decide⟩

/-- An exclusive access goes out as a normal one. -/
theorem exclusive_dropped : ∃ a : Attr, a.exclusive = true ∧ axlock (computeAttr (some a) ||| 1) = false :=
  ⟨⟨false, true, 0, 0⟩, rfl, by decide⟩

/-- An access with the command `IGNORE` is carried out as a write. -/
theorem ignore_writes : ∃ (c : Cfg) (g : Gp), c.Ok ∧ g.cmd = .ignore ∧
    (transport c (hw c.db c.lite (fun _ _ => 0) fun _ => .okay) none g
      (⟨some fun _ => 0, []⟩, ⟨fun _ => 0, fun _ => 0, fun _ => 0⟩) .incomplete).map
        (fun r => (r.1.1.mem.map fun m => m 0, r.2.2)) = some (some 7, .ok) :=
  ⟨⟨4, false, 255, 0⟩, { cmd := .ignore, addr := 0, data := [7], sw := 1 },
    ⟨Or.inl rfl, by decide, by decide, (fun h => by cases h), by decide⟩, rfl, by decide +kernel⟩

/-- With an offset that is not a multiple of the access size the aligner's split no
longer fits: the second of two bytes is not written, and the access answered OK. -/
theorem offset_loses_bytes : ∃ (c : Cfg) (g : Gp), Bus c.db ∧ c.baseOff = 1 ∧ g.cmd = .write ∧
    ((transport c (hw c.db c.lite (fun _ _ => 0) fun _ => .okay) none g
      (⟨some fun _ => 0, []⟩, ⟨fun _ => 0, fun _ => 0, fun _ => 0⟩) .incomplete).map
        (fun r => (r.1.1.mem.map fun m => (m 1, m 2), r.2.2)) = some (some (7, 0), .ok)) ∧
    ((((c.shifted g).run fun _ => 0).1 1, ((c.shifted g).run fun _ => 0).1 2) = (7, 8)) :=
  ⟨⟨4, false, 255, 1⟩, { cmd := .write, addr := 0, data := [7, 8], sw := 2 }, Or.inl rfl, rfl, rfl,
    by decide +kernel, by decide +kernel⟩

/-- … and a 4-byte write goes out with strobes outside its addresses. -/
theorem offset_breaks_protocol : ∃ (c : Cfg) (g : Gp), Bus c.db ∧ c.baseOff = 2 ∧ g.cmd = .write ∧
    (transport c (hw c.db c.lite (fun _ _ => 0) fun _ => .okay) none g
      (⟨some fun _ => 0, []⟩, ⟨fun _ => 0, fun _ => 0, fun _ => 0⟩) .incomplete).map
        (fun r => (r.1.1.mem.isSome, r.2.2)) = some (false, .ok) :=
  ⟨⟨4, false, 255, 2⟩, { cmd := .write, addr := 0, data := [1, 2, 3, 4], sw := 4 }, Or.inl rfl, rfl, rfl,
    by decide +kernel⟩

/-- An access made before the bridge has been probed is split for the widest bus and
waits for the probe afterwards: over a 32-bit bus, 2048 bytes become one burst of
1024. -/
theorem early_access_short : ∃ (c : Cfg) (g : Gp), c.Ok ∧ g.len = 2048 ∧
    (Aligner.transport alignerEarly (bridge c (hw c.db c.lite (fun _ _ => 0) fun _ => .okay) none) g
      (⟨some fun _ => 0, []⟩, ⟨fun _ => 0, fun _ => 0, fun _ => 0⟩) .incomplete).map
        (fun r => (r.1.1.log.map fun e => e.1.beats * e.1.nb, r.2.2)) = some ([1024], .ok) :=
  ⟨⟨4, false, 255, 0⟩, { cmd := .read, addr := 0, data := List.replicate 2048 0, sw := 2048 },
    ⟨Or.inl rfl, by decide, by decide, (fun h => by cases h), by decide⟩, List.length_replicate .., by decide +kernel⟩

/-- A bridge constructed without the aligner does not survive its first reset. -/
theorem no_aligner_crash (c : Cfg) : resetAligner false c = none := rfl

end Verif.HwMaster
