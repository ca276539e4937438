import Verif.Ace.Progress2
import Verif.Ace.Quiet

/-!
# The pieces of a request are its bytes, and the sum of the distances
-/

namespace Verif.Ace

theorem enabled_map (be : List Bool) (data : List Byte) (G : Nat → Byte → Acc) (F : Nat → List Acc) :
    ∀ (n lo pos : Nat), (∀ j, j < n → F (pos + j) =
      if beEnabled be (pos + j) then [G (lo + j) (data.getD (pos + j) 0)] else []) →
    (enabled be data lo pos n).map (fun w => G w.1 w.2) = (List.range' pos n).flatMap F
  | 0, _, _, _ => rfl
  | n + 1, lo, pos, h => by
    have h0 := h 0 (by omega)
    have ih := enabled_map be data G F n (lo + 1) (pos + 1) (fun j hj => by
      rw [show pos + 1 + j = pos + (j + 1) by omega, show lo + 1 + j = lo + (j + 1) by omega]
      exact h (j + 1) (by omega))
    simp only [Nat.add_zero] at h0
    rw [List.range'_succ, List.flatMap_cons, ← ih, h0]
    simp only [enabled, List.map_append]
    split <;> rfl

theorem chunks_map (L addr len : Nat) (hL : 0 < L) (data : List Byte) (be : List Bool) (sec : Bool)
    (G : LineId → Nat → Byte → Acc) (F : Nat → List Acc)
    (hF : ∀ i, F i = if beEnabled be i then [G ((addr + i) / L, sec) ((addr + i) % L) (data.getD i 0)] else []) :
    ∀ (fuel pos : Nat), len - pos ≤ fuel →
    (chunksFrom L addr len data be sec fuel pos).flatMap (fun k => k.ws.map fun w => G k.key w.1 w.2) =
      (List.range' pos (len - pos)).flatMap F
  | 0, pos, h => by
    rw [show len - pos = 0 by omega]; rfl
  | fuel + 1, pos, h => by
    unfold chunksFrom
    split
    · rename_i hp
      have hm := Nat.mod_lt (addr + pos) hL
      have hn : 0 < chunkLen L addr len pos ∧ chunkLen L addr len pos ≤ len - pos ∧
          (addr + pos) % L + chunkLen L addr len pos ≤ L := by unfold chunkLen; omega
      have ih := chunks_map L addr len hL data be sec G F hF fuel (pos + chunkLen L addr len pos) (by omega)
      dsimp only
      rw [List.flatMap_cons, ih]
      dsimp only
      have e : len - pos = chunkLen L addr len pos + (len - (pos + chunkLen L addr len pos)) := by omega
      rw [e, ← List.range'_append_1, List.flatMap_append]
      congr 1
      refine enabled_map be data (G ((addr + pos) / L, sec)) F _ _ _ (fun j hj => ?_)
      rw [hF]
      have h1 : addr + (pos + j) = (addr + pos) % L + j + L * ((addr + pos) / L) := by
        have := Nat.mod_add_div (addr + pos) L; omega
      have h2 : (addr + (pos + j)) / L = (addr + pos) / L := by
        rw [h1, Nat.add_mul_div_left _ _ hL, Nat.div_eq_of_lt (by omega), Nat.zero_add]
      have h3 : (addr + (pos + j)) % L = (addr + pos) % L + j := by
        rw [h1, Nat.add_mul_mod_self_left, Nat.mod_eq_of_lt (by omega)]
      rw [h2, h3]
    · rw [show len - pos = 0 by omega]; rfl

/-- Cutting a request into lines loses and adds nothing. -/
theorem job_accs (c : Cfg) (hL : 0 < c.lineSz) (op : Op) : (op.job c).accs = op.accs c.lineSz := by
  cases op with
  | load addr len be sec =>
    show (chunks c.lineSz addr (List.replicate len 0) be sec).flatMap Chunk.rds = _
    unfold chunks Op.accs
    dsimp only
    rw [List.range_eq_range']
    refine (chunks_map c.lineSz addr _ hL _ be sec (fun k o _ => .rd k o)
      (fun i => if beEnabled be i then [.rd ((addr + i) / c.lineSz, sec) ((addr + i) % c.lineSz)] else [])
      (fun _ => rfl) _ 0 (by omega)).trans ?_
    simp
  | store addr data be sec =>
    show (chunks c.lineSz addr data be sec).flatMap Chunk.wrs = _
    unfold chunks Op.accs
    dsimp only
    rw [List.range_eq_range']
    refine (chunks_map c.lineSz addr _ hL _ be sec (fun k o x => .wr k o x)
      (fun i => if beEnabled be i then
        [.wr ((addr + i) / c.lineSz, sec) ((addr + i) % c.lineSz) (data.getD i 0)] else [])
      (fun _ => rfl) _ 0 (by omega)).trans ?_
    simp
  | maint cmd addr sec => rfl

theorem chunks_pos (L addr len : Nat) (hL : 0 < L) (data : List Byte) (be : List Bool) (sec : Bool) :
    ∀ (fuel pos : Nat) (k : Chunk), k ∈ chunksFrom L addr len data be sec fuel pos → 0 < k.n
  | 0, _, _, h => by simp [chunksFrom] at h
  | fuel + 1, pos, k, h => by
    unfold chunksFrom at h
    split at h
    · rcases List.mem_cons.1 h with rfl | h
      · have := Nat.mod_lt (addr + pos) hL
        dsimp only; unfold chunkLen; omega
      · exact chunks_pos L addr len hL data be sec fuel _ k h
    · simp at h

variable {c : Cfg} {s : State} {p : Nat}

theorem goes_start (hL : 0 < c.lineSz) {op : Op} (hop : op.Wf) :
    Goes c p s (op.job c) (3 * (op.job c).pieces.length + 2) (go c p s (op.job c)) := by
  cases op with
  | load addr len be sec =>
    exact (goes_load hL _ s (chunks_pos _ _ _ hL _ _ _ _ _)).mono (Nat.le_succ _)
  | store addr data be sec => exact goes_store hL _ s (chunks_pos _ _ _ hL _ _ _ _ _)
  | maint cmd addr sec =>
    refine (goes_maint hL _ ?_).mono (by omega)
    rcases hop with rfl | rfl | rfl <;> rfl

/-- Accepting a request. -/
theorem start_result (hL : 0 < c.lineSz) (h : Wf c s.core) {op : Op} (hop : op.Wf) (q : Nat) :
    Wf c (startStep c s p op).core ∧
    served (startStep c s p op).log q ++ pend ((startStep c s p op).core.act q) =
      served s.log q ++ pend (s.core.act q) ++
        (if p = q ∧ (s.ports p).act.isNone then op.accs c.lineSz else []) := by
  unfold startStep
  by_cases hn : (s.ports p).act.isNone = true
  · rw [if_pos hn]
    have hp : s.core.act p = none := Option.isNone_iff_eq_none.1 hn
    obtain ⟨r1, r2, r3, -⟩ := (goes_start (s := s) (p := p) hL hop).result h hp
    refine ⟨r1, ?_⟩
    by_cases e : p = q
    · subst e
      rw [r3, if_pos ⟨rfl, hn⟩, job_accs c hL, hp]; simp [pend]
    · rw [if_neg (fun h => e h.1), (r2 q (Ne.symm e)).1, (r2 q (Ne.symm e)).2, List.append_nil]
  · rw [if_neg hn, if_neg (fun h => hn h.2), List.append_nil]
    exact ⟨h, rfl⟩

/-! ## The whole distance -/

def total (c : Cfg) (N : Nat) (s : State) : Nat := ((List.range N).map fun q => dist c (s.core.act q)).sum

theorem sum_le {f g : Nat → Nat} (h : ∀ q, f q ≤ g q) : ∀ l : List Nat, (l.map f).sum ≤ (l.map g).sum
  | [] => Nat.le_refl _
  | q :: l => by
    simp only [List.map_cons, List.sum_cons]
    have := sum_le h l; have := h q; omega

theorem sum_lt {f g : Nat → Nat} (h : ∀ q, f q ≤ g q) {q : Nat} (hq : f q < g q) : ∀ l : List Nat, q ∈ l →
    (l.map f).sum < (l.map g).sum
  | r :: l, hm => by
    simp only [List.map_cons, List.sum_cons]
    rcases List.mem_cons.1 hm with rfl | hm
    · have := sum_le h l; omega
    · have := sum_lt h hq l hm; have := h r; omega

theorem Moved.total {s' : State} (h : Moved c s s') {N : Nat} (hN : ∀ q, N ≤ q → Quiet q s) :
    total c N s' < total c N s := by
  obtain ⟨q, hq⟩ := h.lt
  refine sum_lt h.le hq _ (List.mem_range.2 ?_)
  by_cases e : q < N
  · exact e
  · have : s.core.act q = none := hN q (by omega)
    rw [this] at hq; simp [dist] at hq

theorem Moved.ne {s' : State} (h : Moved c s s') : s' ≠ s := by
  intro e
  obtain ⟨q, hq⟩ := h.lt
  rw [e] at hq; omega

end Verif.Ace
