import Verif.HwSlave.Geometry

namespace Verif.HwSlave
open Verif Verif.Axi
open Verif.Aligner (memT)

theorem Geo.find {db : Nat} {a : Ax} {Q L lane A : Nat → Nat} (g : Geo db a Q L lane A) :
    ∀ k, k ≤ a.beats → ∀ i, i < Q k → ∃ n j, n < k ∧ j < L n ∧ i = Q n + j := by
  intro k
  induction k with
  | zero => intro _ i h; rw [g.first] at h; omega
  | succ k ih =>
    intro hk i hi
    by_cases h : i < Q k
    · obtain ⟨n, j, h1, h2, h3⟩ := ih (by omega) i h
      exact ⟨n, j, by omega, h2, h3⟩
    · have := g.next k (by omega)
      exact ⟨k, i - Q k, by omega, by omega, by omega⟩

theorem hwBuf_at (db : Nat) (bs : List WBeat) (old : Buf) (n l : Nat) (w : WBeat) (hl : l < db) (hw : bs[n]? = some w) :
    hwBuf db bs old (n * db + l) = (w.data l, w.strb l) := by
  have hdb : 0 < db := by omega
  unfold hwBuf
  have h1 : (n * db + l) / db = n := by
    rw [Nat.add_comm, Nat.add_mul_div_right _ _ hdb, Nat.div_eq_of_lt hl, Nat.zero_add]
  have h2 : (n * db + l) % db = l := by
    rw [Nat.add_comm, Nat.add_mul_mod_self_right, Nat.mod_eq_of_lt hl]
  rw [h1, h2, hw]

theorem getD_map_range {α : Type} (f : Nat → α) (k i : Nat) (d : α) (h : i < k) : ((List.range k).map f).getD i d = f i := by
  rw [List.getD_eq_getElem?_getD, List.getElem?_map, List.getElem?_range h]
  rfl

theorem beEnabled_map (f : Nat → Bool) (k i : Nat) (h : i < k) : beEnabled ((List.range k).map f) i = f i := by
  unfold beEnabled
  rw [List.length_map, List.length_range, Nat.mod_eq_of_lt h, List.getElem?_map, List.getElem?_range h]
  rfl

/-- What the target makes of a payload holding the burst's bytes. -/
theorem write_core {db : Nat} {a : Ax} {Q L lane A : Nat → Nat} (g : Geo db a Q L lane A) (bs : List WBeat)
    (ws : List (Nat × Byte)) (hs : a.slaveWrite db bs = some ws) (old f : Buf) (m : Mem)
    (hoff : offsetOf db a.addr = lane 0) (hpos : 0 < Q a.beats)
    (hf : ∀ n, n < a.beats → ∀ j, j < L n → f (lane 0 + Q n + j) = hwBuf db bs old (n * db + lane n + j))
    (hA : ∀ i, i < Q a.beats → A i =
      if a.burst = .wrap then WrapExpander.wrapAddr a.addr (Q a.beats) i
      else a.addr + i % (if a.burst = .fixed then firstLen a else Q a.beats)) :
    ∃ d, issue (a.burst = .wrap) memT (payload db (hwWrite db a bs) f (lane 0 + Q a.beats)) m =
      some (applyWrites m ws, d, .ok) := by
  have hlen : bs.length = a.beats := by
    have := slave_short db a bs 0 ws hs
    omega
  have hcell : ∀ n w, bs[n]? = some w → ∀ j, j < L n → f (lane 0 + (Q n + j)) = (w.data (lane n + j), w.strb (lane n + j)) := by
    intro n w hw j hj
    have hn : n < a.beats := by
      rw [← hlen]; exact (List.getElem?_eq_some_iff.1 hw).1
    rw [← Nat.add_assoc, hf n hn j hj, Nat.add_assoc, hwBuf_at db bs old n _ w (by have := g.fits n hn; omega) hw]
  have hws : writes A (fun i => f (lane 0 + i)) 0 (Q a.beats) = ws := by
    have := slave_writes g (fun i => f (lane 0 + i)) bs 0 ws hs (by
      intro k w hk j hj
      rw [Nat.zero_add] at hj ⊢
      exact hcell k w hk j hj)
    rw [g.first, Nat.sub_zero] at this
    exact this
  -- every byte of the payload is enabled exactly when its strobe was set
  have hbe : ∀ i, i < Q a.beats → beEnabled (payload db (hwWrite db a bs) f (lane 0 + Q a.beats)).be i = (f (lane 0 + i)).2 := by
    intro i hi
    unfold payload hwWrite
    simp only [hoff, Nat.add_sub_cancel_left, true_and]
    cases hp : bs.any fun w => (List.range db).any fun l => !w.strb l with
    | true =>
      rw [if_pos rfl, beEnabled_map _ _ _ hi]
    | false =>
      simp only [Bool.false_eq_true, if_false]
      obtain ⟨n, j, h1, h2, h3⟩ := g.find a.beats (Nat.le_refl _) i hi
      have hnl : n < bs.length := by omega
      have hw : bs[n]? = some bs[n] := List.getElem?_eq_getElem hnl
      rw [h3, hcell n bs[n] hw j h2]
      rw [List.any_eq_false] at hp
      have := hp bs[n] (List.getElem_mem hnl)
      rw [Bool.not_eq_true, List.any_eq_false] at this
      have := this (lane n + j) (by rw [List.mem_range]; have := g.fits n h1; omega)
      simp only [Bool.not_eq_true', Bool.not_eq_false] at this
      rw [this]
      rfl
  have hd : (payload db (hwWrite db a bs) f (lane 0 + Q a.beats)).data = (List.range (Q a.beats)).map fun i => (f (lane 0 + i)).1 := by
    unfold payload hwWrite
    simp only [hoff, Nat.add_sub_cancel_left]
  have hdl : (payload db (hwWrite db a bs) f (lane 0 + Q a.beats)).data.length = Q a.beats := by
    rw [hd, List.length_map, List.length_range]
  have hsw : (payload db (hwWrite db a bs) f (lane 0 + Q a.beats)).sw = if a.burst = .fixed then firstLen a else Q a.beats := by
    unfold payload hwWrite
    simp only [hoff, Nat.add_sub_cancel_left]
  have hadr : (payload db (hwWrite db a bs) f (lane 0 + Q a.beats)).addr = a.addr := rfl
  have hcmd : (payload db (hwWrite db a bs) f (lane 0 + Q a.beats)).cmd = .write := rfl
  generalize payload db (hwWrite db a bs) f (lane 0 + Q a.beats) = p at *
  unfold issue
  by_cases hw : a.burst = .wrap
  · have hsw' : p.sw = Q a.beats := by rw [hsw, if_neg (by rw [hw]; simp)]
    have hpl : p.len = Q a.beats := hdl
    refine ⟨p.data, ?_⟩
    rw [if_pos (by rw [hw]; rfl), WrapExpander.wrap_equivalent p m (by omega) (Or.inr (by omega))]
    unfold WrapExpander.wrapRun
    rw [hcmd]
    simp only [Option.map_some]
    rw [wrapWrite_writes A (fun i => f (lane 0 + i)), hdl, hws]
    intro j hj
    rw [hdl] at hj
    rw [Nat.zero_add, hbe j hj]
    refine ⟨rfl, fun _ => ⟨?_, ?_⟩⟩
    · rw [hd, getD_map_range _ _ _ _ hj]
    · rw [hA j hj, if_pos hw, hadr, hpl]
  · refine ⟨p.data, ?_⟩
    rw [if_neg (by simp [hw])]
    unfold Verif.Aligner.memT Gp.run
    rw [hcmd]
    simp only []
    rw [writeFrom_writes A (fun i => f (lane 0 + i)), hdl, hws]
    intro j hj
    rw [hdl] at hj
    rw [Nat.zero_add, hbe j hj]
    refine ⟨rfl, fun _ => ⟨?_, ?_⟩⟩
    · rw [hd, getD_map_range _ _ _ _ hj]
    · rw [hA j hj, if_neg hw, hadr, hsw]

theorem readFrom_getD (m : Mem) (a sw : Nat) : ∀ (d : List Byte) (i j : Nat), j < d.length →
    (readFrom m a sw [] i d).getD j 0 = m (a + (i + j) % sw) := by
  intro d
  induction d with
  | nil => intro i j h; simp at h
  | cons x d ih =>
    intro i j h
    rw [readFrom]
    cases j with
    | zero => rw [List.getD_cons_zero]; rfl
    | succ j =>
      rw [List.getD_cons_succ, ih (i + 1) j (by simpa using h), show i + 1 + j = i + (j + 1) by omega]

theorem wrapRead_getD (m : Mem) (a len : Nat) : ∀ (d : List Byte) (i j : Nat), j < d.length →
    (WrapExpander.wrapRead m a len [] i d).getD j 0 = m (WrapExpander.wrapAddr a len (i + j)) := by
  intro d
  induction d with
  | nil => intro i j h; simp at h
  | cons x d ih =>
    intro i j h
    rw [WrapExpander.wrapRead]
    cases j with
    | zero => rw [List.getD_cons_zero]; rfl
    | succ j =>
      rw [List.getD_cons_succ, ih (i + 1) j (by simpa using h), show i + 1 + j = i + (j + 1) by omega]

theorem wrapRead_length (m : Mem) (a len : Nat) (be : List Bool) : ∀ (d : List Byte) (i : Nat),
    (WrapExpander.wrapRead m a len be i d).length = d.length := by
  intro d
  induction d with
  | nil => intro i; rfl
  | cons x d ih => intro i; rw [WrapExpander.wrapRead, List.length_cons, List.length_cons, ih]

/-- What the target makes of a read payload of `len` bytes. -/
theorem read_core (db : Nat) (a : Ax) (f : Buf) (m : Mem) (tx : Nat) (hpos : offsetOf db a.addr < tx) :
    ∃ d, issue (a.burst = .wrap) memT (payload db (hwRead db a) f tx) m = some (m, d, .ok) ∧
      d.length = tx - offsetOf db a.addr ∧
      ∀ i, i < tx - offsetOf db a.addr → d.getD i 0 = m (
        if a.burst = .wrap then WrapExpander.wrapAddr a.addr (tx - offsetOf db a.addr) i
        else a.addr + i % (if a.burst = .fixed then firstLen a else tx - offsetOf db a.addr)) := by
  have hdl : (payload db (hwRead db a) f tx).data.length = tx - offsetOf db a.addr := by
    unfold payload hwRead
    rw [List.length_map, List.length_range]
  have hsw : (payload db (hwRead db a) f tx).sw = if a.burst = .fixed then firstLen a else tx - offsetOf db a.addr := rfl
  have hadr : (payload db (hwRead db a) f tx).addr = a.addr := rfl
  have hcmd : (payload db (hwRead db a) f tx).cmd = .read := rfl
  have hbe : (payload db (hwRead db a) f tx).be = [] := by
    unfold payload hwRead
    simp
  generalize payload db (hwRead db a) f tx = p at *
  unfold issue
  by_cases hw : a.burst = .wrap
  · have hsw' : p.sw = tx - offsetOf db a.addr := by rw [hsw, if_neg (by rw [hw]; simp)]
    have hpl : p.len = tx - offsetOf db a.addr := hdl
    refine ⟨WrapExpander.wrapRead m p.addr p.len p.be 0 p.data, ?_, ?_, ?_⟩
    · rw [if_pos (by rw [hw]; rfl), WrapExpander.wrap_equivalent p m (by omega) (Or.inr (by omega))]
      unfold WrapExpander.wrapRun
      rw [hcmd]
      rfl
    · rw [wrapRead_length, hdl]
    · intro i hi
      rw [if_pos hw, hbe, wrapRead_getD m _ _ _ _ _ (by omega), Nat.zero_add, hadr, hpl]
  · refine ⟨readFrom m p.addr p.sw p.be 0 p.data, ?_, ?_, ?_⟩
    · rw [if_neg (by simp [hw])]
      unfold Verif.Aligner.memT Gp.run
      rw [hcmd]
    · rw [readFrom_length, hdl]
    · intro i hi
      rw [if_neg hw, hbe, readFrom_getD m _ _ _ _ _ (by omega), Nat.zero_add, hadr, hsw]

end Verif.HwSlave
