import Verif.AceHw.Props
import Verif.HwMaster.Props

/-! # C65: TLM accesses as bursts of the hardware's master -/

namespace Verif.AceHw
open Verif Verif.Axi
open Verif.HwMaster (write32 read32 axsizeOf statusOf)
open Verif.HwSlave (writes applyWrites)

theorem burst_sent (bm : Nat) (h : bm = 0x1 ∨ bm = 0x3) (a : Attr) (b : Burst) (hb : b ≠ .wrap ∨ bm = 0x3) :
    burstOf (genAttr bm { a with burst := burstCode b }) = b := by
  have hbit : ∀ i, i < 2 → (genAttr bm { a with burst := burstCode b }).getLsbD i = (genF 0 bm (burstCode b)).getLsbD i := by
    intro i hi
    unfold genAttr
    simp only [BitVec.getLsbD_or, genF1, genF3, genF7, genFF]
    have : i = 0 ∨ i = 1 := by omega
    rcases this with rfl | rfl <;> simp
  have hx : (genAttr bm { a with burst := burstCode b }).extractLsb' 0 2 = (genF 0 bm (burstCode b)).extractLsb' 0 2 := by
    apply BitVec.eq_of_getLsbD_eq
    intro i hi
    rw [BitVec.getLsbD_extractLsb', BitVec.getLsbD_extractLsb', Nat.zero_add, hbit i hi]
  unfold burstOf
  rw [hx]
  rcases h with rfl | rfl
  · cases b with
    | fixed => decide
    | incr => decide
    | wrap => rcases hb with h | h
              · exact absurd rfl h
              · cases h
  · cases b <;> decide

/-- The burst an access turns into. -/
def burstFor (db : Nat) (g : Gp) : Ax :=
  { addr := g.addr, nb := db, beats := (g.len + db - 1) / db, burst := if g.len ≤ g.sw then .incr else .fixed }

section
set_option linter.unusedSectionVars false
variable {db : Nat} {g : Gp} (hbus : Bus db) (hf : Fits db g)
include hbus hf

theorem bus_pos : 0 < db := by rcases hbus with h | h | h <;> omega

theorem beats_eq : ∃ k, 0 < k ∧ k ≤ 256 ∧ (burstFor db g).beats = k ∧
    ((g.len = k * db) ∨ (k = 1 ∧ g.cmd = .write ∧ g.len < db)) := by
  have hp := bus_pos hbus hf
  have h0 := hf.nonempty
  have hs := hf.short
  show ∃ k, 0 < k ∧ k ≤ 256 ∧ (g.len + db - 1) / db = k ∧ _
  rcases hf.whole with h | ⟨h1, h2⟩
  · refine ⟨g.len / db, ?_, ?_, ?_, Or.inl ?_⟩
    · rcases hbus with h | h | h <;> subst h <;> omega
    · rcases hbus with h | h | h <;> subst h <;> omega
    · rcases hbus with h | h | h <;> subst h <;> omega
    · rcases hbus with h | h | h <;> subst h <;> omega
  · exact ⟨1, by omega, by omega, by rcases hbus with h | h | h <;> subst h <;> omega, Or.inr ⟨rfl, h1, h2⟩⟩

theorem lanes (n l : Nat) (hl : l < db) : (burstFor db g).laneOk db n l ∧
    (n * db + l < g.len → (burstFor db g).laneAddr db n l = g.addr + (n * db + l) % g.sw) := by
  have hp := bus_pos hbus hf
  have ha := hf.aligned
  have hbase : (burstFor db g).beatAddr n = g.addr + (if g.len ≤ g.sw then n * db else 0) := by
    unfold Ax.beatAddr burstFor
    by_cases h : g.len ≤ g.sw
    · simp only [h, if_true]
      by_cases hn : n = 0
      · subst hn; simp
      · rw [if_neg hn]
        have := Nat.div_add_mod g.addr db
        rw [ha, Nat.mul_comm] at this
        omega
    · simp [h]
  have hmod : (burstFor db g).beatAddr n % db = 0 := by
    rw [hbase]
    by_cases h : g.len ≤ g.sw
    · rw [if_pos h, Nat.add_mul_mod_self_right]; exact ha
    · rw [if_neg h]; exact ha
  have hdiv : (burstFor db g).beatAddr n / db * db = (burstFor db g).beatAddr n := by
    have := Nat.div_add_mod ((burstFor db g).beatAddr n) db
    rw [hmod, Nat.mul_comm] at this
    omega
  refine ⟨⟨?_, ?_⟩, ?_⟩
  · unfold Ax.lower; rw [hmod]; omega
  · unfold Ax.upper
    show l ≤ (burstFor db g).beatAddr n / db * db + (db - 1) - (burstFor db g).beatAddr n / db * db
    omega
  · intro hlt
    unfold Ax.laneAddr
    rw [hdiv, hbase]
    by_cases h : g.len ≤ g.sw
    · rw [if_pos h, Nat.mod_eq_of_lt (by omega)]; omega
    · have hsw : g.sw = db := by rcases hf.walk with h' | h'; exact absurd h' h; exact h'
      rw [if_neg h, hsw, Nat.add_comm (n * db), Nat.add_mul_mod_self_right, Nat.mod_eq_of_lt hl]
      omega

theorem setup_ok : setupBurst ⟨db⟩ g.len g.sw false bw = some ((burstFor db g).burst, bw) := by
  unfold setupBurst burstFor
  rw [if_neg (by simp)]
  by_cases h : g.len ≤ g.sw
  · rw [if_pos h, if_pos h]
  · have hsw : g.sw = db := by rcases hf.walk with h' | h'; exact absurd h' h; exact h'
    rw [if_neg h, if_pos hsw, if_neg h]

theorem valid_ok : validate g.addr g.len g.sw db = true := by
  have hp := bus_pos hbus hf
  have h0 := hf.nonempty
  have hs := hf.short
  have hn : numBeats g.addr g.len db ≤ 256 := by
    unfold numBeats
    have := Nat.div_add_mod g.addr db
    rw [hf.aligned, Nat.mul_comm] at this
    rw [show g.addr - g.addr / db * db = 0 by omega]
    rcases hbus with h | h | h <;> subst h <;> omega
  have hx : (axsizeOf db).isSome = true := by rcases hbus with h | h | h <;> subst h <;> rfl
  have hsw : g.sw ≠ 0 := by rcases hf.walk with h | h <;> omega
  unfold validate
  rw [hx, decide_eq_true (show g.len ≠ 0 by omega), decide_eq_true hsw, decide_eq_true hn]
  rfl

theorem hwAx_eq (x size : Nat) (attr : BitVec 32) (strbs : Bool) (hx : axsizeOf db = some x)
    (hsize : size = g.len ∨ (size = db ∧ g.len < db ∧ g.cmd = .write)) (hs2 : g.len < db → size = db)
    (hattr : burstOf attr = (burstFor db g).burst) :
    hwAx db { addr := g.addr, size := size, axsize := x, attr := attr, strbs := strbs } = burstFor db g := by
  have hnb : 2 ^ x = db := by
    rcases hbus with h | h | h <;> subst h <;> (injection hx with hx; subst hx; rfl)
  obtain ⟨k, hk0, hk, hb, hlen⟩ := beats_eq hbus hf
  unfold hwAx
  simp only [hnb, hattr]
  have : (size / db + 255) % 256 + 1 = (burstFor db g).beats := by
    rw [hb]
    rcases hlen with h | ⟨h1, h2, h3⟩
    · have hge : ¬ g.len < db := by
        have := Nat.mul_le_mul_right db hk0
        omega
      have : size = k * db := by omega
      rw [this, Nat.mul_div_cancel _ (bus_pos hbus hf)]
      omega
    · rw [hs2 h3, Nat.div_self (bus_pos hbus hf), h1]
  rw [this]
  rfl

end

/-! ## Strobes -/

theorem strobe_bit (db : Nat) (hbus : Bus db) (len : Nat) (be : List Bool) (f : Nat → Byte) (i : Nat)
    (hi : i < len ∨ i < db) (hlen : len % db = 0 ∨ len < db) :
    (if (strobeBytes ⟨db⟩ len be).isSome then (pushBytes f 0 ((strobeBytes ⟨db⟩ len be).getD []) i).getLsbD 0 else true) =
      (decide (i < len) && beEnabled be i) := by
  have hp : 0 < db := by rcases hbus with h | h | h <;> omega
  unfold strobeBytes
  by_cases hbe : be = []
  · subst hbe
    rw [HwMaster.beEnabled_nil, Bool.and_true]
    simp only [ne_eq, not_true_eq_false, if_false]
    by_cases hl : len < db
    · simp only [if_pos hl]
      rw [Option.isSome_some, if_pos rfl, Option.getD_some, pushBytes_get _ _ _ _ _ (Nat.le_refl _)]
      rw [if_pos (by simp; omega)]
      rw [List.getD_eq_getElem?_getD, List.getElem?_map, List.getElem?_range (by omega)]
      by_cases h : i < len <;> simp [h]
    · simp only [if_neg hl]
      rw [Option.isSome_none, if_neg (by simp)]
      rw [decide_eq_true (by omega)]
  · rw [if_pos hbe, Option.isSome_some, if_pos rfl, Option.getD_some, pushBytes_get _ _ _ _ _ (Nat.le_refl _)]
    simp only [List.length_append, List.length_map, List.length_range, List.length_replicate]
    rw [if_pos (by omega), List.getD_eq_getElem?_getD, Nat.sub_zero]
    by_cases h : i < len
    · rw [List.getElem?_append_left (by simp; omega), List.getElem?_map, List.getElem?_range h]
      rw [decide_eq_true h, Bool.true_and, ← HwMaster.beEnabled_getD be hbe]
      simp only [Option.map_some, Option.getD_some]
      cases be.getD (i % be.length) false <;> rfl
    · rw [List.getElem?_append_right (by simp; omega), List.getElem?_replicate]
      rw [decide_eq_false h, Bool.false_and]
      split <;> rfl

/-! ## Writes -/

theorem write_core (db : Nat) (hbus : Bus db) (g : Gp) (hf : Fits db g) (d : Desc) (b : Bufs) (m : Mem)
    (hd : hwAx db d = burstFor db g)
    (hstrb : ∀ i, i < g.len ∨ i < db → (if d.strbs then (b.wstrb i).getLsbD 0 else true) = (decide (i < g.len) && beEnabled g.be i))
    (hdata : ∀ i, i < g.len → b.wdata i = g.data.getD i 0) :
    ((hwAx db d).slaveWrite db (hwBeats db d b)).map (applyWrites m) = some (writeFrom m g.addr g.sw g.be 0 g.data) := by
  have hp := bus_pos hbus hf
  obtain ⟨k, hk0, hk, hb, hlen⟩ := beats_eq hbus hf
  let cell : Nat → HwSlave.Cell := fun i => (b.wdata i, if d.strbs then (b.wstrb i).getLsbD 0 else true)
  have hin : ∀ i, i < k * db → i < g.len ∨ i < db := by
    intro i hi
    rcases hlen with h | ⟨h1, _, _⟩
    · left; omega
    · right; rw [h1] at hi; omega
  have hcell : ∀ n l, n < k → l < db → (cell (n * db + l)).2 = true → n * db + l < g.len := by
    intro n l hn hl hc
    have hlt : n * db + l < k * db := by
      have : (n + 1) * db ≤ k * db := Nat.mul_le_mul_right _ hn
      rw [Nat.succ_mul] at this
      omega
    have := hstrb _ (hin _ hlt)
    simp only [cell] at hc
    rw [this] at hc
    simp at hc
    exact hc.1
  have hS := HwMaster.slaveFrom_writes db (burstFor db g) (fun i => g.addr + i % g.sw) cell (by
    intro n l hn hl hc
    rw [hb] at hn
    have := lanes hbus hf n l hl
    exact ⟨this.1, this.2 (hcell n l hn hl hc)⟩) (burstFor db g).beats 0 (by omega)
  have e : (hwAx db d).slaveWrite db (hwBeats db d b) = some (writes (fun i => g.addr + i % g.sw) cell 0 (k * db)) := by
    rw [Nat.zero_mul] at hS
    unfold Ax.slaveWrite hwBeats
    rw [hd, ← hb, ← hS]
    simp only [List.range_eq_range', cell]
  rw [e, Option.map_some]
  congr 1
  have hle : g.len ≤ k * db := by
    rcases hlen with h | ⟨h1, _, h3⟩
    · omega
    · rw [h1]; omega
  rw [show k * db = g.len + (k * db - g.len) by omega, HwSlave.writes_append, HwMaster.writes_nil _ _ (0 + g.len), List.append_nil]
  · have hl : g.len = g.data.length := rfl
    rw [HwSlave.writeFrom_writes (fun i => g.addr + i % g.sw) (fun i => (g.data.getD i 0, beEnabled g.be i)) g.addr g.sw g.be g.data m 0
      (by intro j hj; refine ⟨rfl, fun _ => ⟨by simp, rfl⟩⟩), ← hl]
    congr 1
    apply HwSlave.writes_congr
    intro j hj
    refine ⟨?_, fun _ => ⟨?_, rfl⟩⟩
    · simp only [cell]
      rw [hstrb _ (Or.inl (by omega)), decide_eq_true (by omega), Bool.true_and]
    · simp only [cell]
      rw [hdata _ (by omega)]
  · intro j hj
    simp only [cell]
    rw [hstrb _ (hin _ (by omega)), decide_eq_false (by omega), Bool.false_and]

theorem readFrom_all (m : Mem) (a sw : Nat) (be : List Bool) : ∀ (d : List Byte) (i : Nat),
    (∀ j, i ≤ j → j < i + d.length → beEnabled be j = true) →
    readFrom m a sw be i d = (List.range' i d.length).map fun j => m (a + j % sw) := by
  intro d
  induction d with
  | nil => intro i _; rfl
  | cons x d ih =>
    intro i h
    rw [readFrom, h i (Nat.le_refl _) (by simp), if_pos rfl, ih (i + 1) (by
      intro j h1 h2
      exact h j (by omega) (by rw [List.length_cons]; omega)), List.length_cons, List.range'_succ, List.map_cons]

/-! ## The theorem -/

/-- **C65, TLM to ACE.** An access the bridge can take — whole bus words from an
aligned address, or a write of less than one; counting up, or starting again each
bus word — does to the memory behind the hardware and to the caller's buffer exactly
what it means, whatever the memories of the hardware held before, wherever the
hardware puts the read data and whatever unused lanes carry; it is one burst of that
address, full-width beats and the right type, without protocol violations; and the
status is the one of the burst's response (`L` are the bursts before).  What is missing: all other accesses
(see the theorems below). -/
theorem access_right_partial (db : Nat) (hbus : Bus db) (bw : Nat) (hbw : bw = 0 ∨ bw = db) (at' : Attr)
    (junk : Nat → Nat → Byte) (alloc : Nat → Nat) (resp : Nat → AxiResp.Resp) (g : Gp) (hf : Fits db g) (m : Mem) (L : List (Ax × Bool)) (b : Bufs) :
    (bridge ⟨db⟩ (hw db junk alloc resp) false bw at' g (⟨some m, L⟩, b)).map (fun r => (r.1.1, r.2.1, r.2.2)) =
      some (⟨some (g.run m).1, L ++ [(burstFor db g, decide (g.cmd = .write))]⟩, (g.run m).2, statusOf (resp L.length)) := by
  have hp := bus_pos hbus hf
  obtain ⟨k, hk0, hk, hb, hlen⟩ := beats_eq hbus hf
  have hw' : burstWidth ⟨db⟩ bw = db := by
    unfold burstWidth
    rcases hbw with h | h
    · rw [if_pos h]
    · rw [h, if_neg (by omega)]
  obtain ⟨x, hx⟩ : ∃ x, axsizeOf db = some x := by
    rcases hbus with h | h | h <;> subst h <;> exact ⟨_, rfl⟩
  have hnw : (burstFor db g).burst ≠ .wrap := by
    unfold burstFor
    by_cases h : g.len ≤ g.sw <;> simp [h]
  unfold bridge
  rw [setup_ok hbus hf]
  simp only [hw', valid_ok hbus hf, hx]
  cases hc : g.cmd with
  | ignore => exact absurd hc hf.cmd
  | read =>
    simp only [Bool.true_eq_false, false_or, reduceCtorEq, if_false, if_true]
    have hlk : g.len = k * db := by
      rcases hlen with h | ⟨_, h, _⟩
      · exact h
      · rw [hc] at h; cases h
    have hnl : ¬ g.len < db := by
      have := Nat.mul_le_mul_right db hk0
      omega
    have hax : ∀ attr, burstOf attr = (burstFor db g).burst →
        hwAx db { addr := g.addr, size := readSize false g.len, axsize := x, attr := attr, strbs := false } = burstFor db g := by
      intro attr h
      exact hwAx_eq hbus hf x _ attr false hx (Or.inl rfl) (fun h' => absurd h' hnl) h
    have hatt := burst_sent arBurstMask (Or.inr rfl) at' (burstFor db g).burst (Or.inr rfl)
    unfold hw
    simp only [Bool.false_eq_true, if_false, hax _ hatt, HwMaster.setAxiResp_status]
    have hrun : g.run m = (m, readFrom m g.addr g.sw g.be 0 g.data) := by unfold Gp.run; rw [hc]
    rw [hrun]
    have hdata : ∀ f : Nat → Byte, (∀ i, i < g.len → f (alloc L.length * db + i) = m (g.addr + i % g.sw)) →
        popBytes f (alloc L.length * db) g.len = readFrom m g.addr g.sw g.be 0 g.data := by
      intro f hfi
      rw [popBytes_eq _ _ _ (Or.inl hf.nonempty), readFrom_all _ _ _ _ _ _ (by
        intro j _ h
        exact hf.plain hc j (by rw [Nat.zero_add] at h; exact h)), List.range_eq_range']
      apply List.map_congr_left
      intro i hi
      rw [List.mem_range'_1] at hi
      exact hfi i (by omega)
    rw [hdata]
    · simp
    · intro i hi
      have hi' : i < k * db := by omega
      have e1 : (alloc L.length * db + i - alloc L.length * db) = i := by omega
      have e2 : (alloc L.length * db + i) % db = i % db := by rw [Nat.add_comm, Nat.add_mul_mod_self_right]
      have hdm := Nat.div_add_mod i db
      rw [Nat.mul_comm] at hdm
      have hl := lanes hbus hf (i / db) (i % db) (Nat.mod_lt _ hp)
      rw [if_pos ⟨by omega, by rw [hb, Nat.add_mul]; omega⟩, e1, e2, if_pos hl.1]
      rw [hl.2 (by omega), hdm]
      rfl
  | write =>
    simp only [Bool.true_eq_false, false_or, reduceCtorEq, if_false]
    have hsz : writeSize ⟨db⟩ false g.len = g.len ∨ (writeSize ⟨db⟩ false g.len = db ∧ g.len < db ∧ g.cmd = .write) := by
      unfold writeSize
      by_cases h : g.len < db
      · right; simp [h, hc]
      · left; simp [h]
    have hatt := burst_sent awBurstMask (Or.inl rfl) at' (burstFor db g).burst (Or.inl hnw)
    have hax := hwAx_eq hbus hf x (writeSize ⟨db⟩ false g.len) _ (strobeBytes ⟨db⟩ g.len g.be).isSome hx hsz
      (by intro h; unfold writeSize; simp [h]) hatt
    have hcore := write_core db hbus g hf _ { b with wdata := pushBytes b.wdata 0 g.data, wstrb := pushBytes b.wstrb 0 ((strobeBytes ⟨db⟩ g.len g.be).getD []) }
      m hax (by
        intro i hi
        exact strobe_bit db hbus g.len g.be b.wstrb i hi (by rcases hf.whole with h | h; exact Or.inl h; exact Or.inr h.2))
      (by
        intro i hi
        show pushBytes b.wdata 0 g.data i = _
        rw [pushBytes_get _ _ _ _ _ (Nat.le_refl _), if_pos (by have : g.len = g.data.length := rfl; omega), Nat.sub_zero])
    unfold hw
    simp only [if_true, Option.bind_some, HwMaster.setAxiResp_status]
    rw [hcore, hax]
    have hrun : g.run m = (writeFrom m g.addr g.sw g.be 0 g.data, g.data) := by unfold Gp.run; rw [hc]
    rw [hrun]
    simp

end Verif.AceHw
