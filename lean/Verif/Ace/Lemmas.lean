import Verif.Ace.Steps3

/-!
# The pieces of a request
-/

namespace Verif.Ace

variable {c : Cfg} {w : Bool} {m0 : LineId → Mem} {s : State}

theorem enabled_mem (be : List Bool) (data : List Byte) : ∀ (n lo pos : Nat) (e : Nat × Byte),
    e ∈ enabled be data lo pos n → lo ≤ e.1 ∧ e.1 < lo + n
  | 0, _, _, _, h => by simp [enabled] at h
  | n + 1, lo, pos, e, h => by
    simp only [enabled, List.mem_append] at h
    rcases h with h | h
    · split at h
      · simp only [List.mem_singleton] at h; subst h; simp only; omega
      · simp at h
    · have := enabled_mem be data n (lo + 1) (pos + 1) e h; omega

theorem enabled_covers (be : List Bool) (data : List Byte) : ∀ (n lo pos o : Nat),
    lo ≤ o → o < lo + n → beEnabled be (pos + (o - lo)) = true → ∃ b, (o, b) ∈ enabled be data lo pos n
  | 0, _, _, _, _, _, _ => by omega
  | n + 1, lo, pos, o, h1, h2, h3 => by
    by_cases e : o = lo
    · subst e
      simp only [Nat.sub_self, Nat.add_zero] at h3
      exact ⟨data.getD pos 0, by simp [enabled, h3]⟩
    · have e' : pos + 1 + (o - (lo + 1)) = pos + (o - lo) := by omega
      obtain ⟨b, hb⟩ := enabled_covers be data n (lo + 1) (pos + 1) o (by omega) (by omega) (by rw [e']; exact h3)
      exact ⟨b, by simp only [enabled, List.mem_append]; exact Or.inr hb⟩

theorem enabled_length_le (be : List Bool) (data : List Byte) : ∀ (n lo pos : Nat),
    (enabled be data lo pos n).length ≤ n
  | 0, _, _ => by simp [enabled]
  | n + 1, lo, pos => by
    have := enabled_length_le be data n (lo + 1) (pos + 1)
    simp only [enabled, List.length_append]
    split <;> simp <;> omega

theorem enabled_full (be : List Bool) (data : List Byte) : ∀ (n lo pos : Nat),
    (enabled be data lo pos n).length = n → ∀ i, i < n → beEnabled be (pos + i) = true
  | 0, _, _, _, _, h => by omega
  | n + 1, lo, pos, hl, i, hi => by
    have hle := enabled_length_le be data n (lo + 1) (pos + 1)
    simp only [enabled, List.length_append] at hl
    by_cases hb : beEnabled be pos = true
    · rw [if_pos hb] at hl
      rcases i with _ | i
      · exact hb
      · have := enabled_full be data n (lo + 1) (pos + 1) (by simp at hl; omega) i (by omega)
        rw [show pos + (i + 1) = pos + 1 + i by omega]; exact this
    · rw [if_neg hb] at hl
      simp at hl; omega

theorem enabled_length (be : List Bool) (data : List Byte) : ∀ (n lo pos : Nat),
    (∀ i, i < n → beEnabled be (pos + i) = true) → (enabled be data lo pos n).length = n
  | 0, _, _, _ => rfl
  | n + 1, lo, pos, h => by
    have h0 := h 0 (by omega)
    have := enabled_length be data n (lo + 1) (pos + 1) (fun i hi => by
      rw [show pos + 1 + i = pos + (i + 1) by omega]; exact h (i + 1) (by omega))
    simp only [enabled, List.length_append, this]
    rw [if_pos (by simpa using h0)]
    simp; omega

theorem chunkLen_le (L addr len pos : Nat) (hL : 0 < L) :
    (addr + pos) % L + chunkLen L addr len pos ≤ L ∧ chunkLen L addr len pos ≤ len - pos := by
  have := Nat.mod_lt (addr + pos) hL
  unfold chunkLen
  omega

/-- Where the pieces of a payload come from. -/
theorem chunksFrom_mem (L addr len : Nat) (data : List Byte) (be : List Bool) (sec : Bool) :
    ∀ (fuel pos : Nat) (k : Chunk), k ∈ chunksFrom L addr len data be sec fuel pos →
    ∃ pos', pos ≤ pos' ∧ pos' < len ∧ k =
      { key := ((addr + pos') / L, sec), lo := (addr + pos') % L, n := chunkLen L addr len pos', pos := pos'
        ws := enabled be data ((addr + pos') % L) pos' (chunkLen L addr len pos') } ∧
      (L ∣ addr → L ∣ len → L ∣ pos → L ∣ pos')
  | 0, _, _, h => by simp [chunksFrom] at h
  | fuel + 1, pos, k, h => by
    unfold chunksFrom at h
    split at h
    · rename_i hp
      simp only [List.mem_cons] at h
      rcases h with rfl | h
      · exact ⟨pos, Nat.le_refl _, hp, rfl, fun _ _ h => h⟩
      · obtain ⟨pos', h1, h2, h3, h4⟩ := chunksFrom_mem L addr len data be sec fuel _ k h
        refine ⟨pos', by omega, h2, h3, fun ha hl hpos => h4 ha hl ?_⟩
        have hm : (addr + pos) % L = 0 := Nat.mod_eq_zero_of_dvd (Nat.dvd_add ha hpos)
        obtain ⟨a, rfl⟩ := hl
        obtain ⟨b, rfl⟩ := hpos
        have hab : b < a := Nat.lt_of_mul_lt_mul_left hp
        have : L * a - L * b = L * (a - b) := (Nat.mul_sub ..).symm
        have h1 : L * 1 ≤ L * (a - b) := Nat.mul_le_mul_left L (by omega)
        unfold chunkLen
        rw [hm, this]
        have : min (L * (a - b)) (L - 0) = L := by omega
        rw [this]
        exact ⟨b + 1, by rw [Nat.mul_add, Nat.mul_one]⟩
    · simp at h

theorem chunk_whole {L addr len pos : Nat} (ha : L ∣ addr) (hl : L ∣ len) (hp : L ∣ pos)
    (hlt : pos < len) : (addr + pos) % L = 0 ∧ chunkLen L addr len pos = L := by
  have hm : (addr + pos) % L = 0 := Nat.mod_eq_zero_of_dvd (Nat.dvd_add ha hp)
  refine ⟨hm, ?_⟩
  obtain ⟨a, rfl⟩ := hl
  obtain ⟨b, rfl⟩ := hp
  have hab : b < a := Nat.lt_of_mul_lt_mul_left hlt
  have : L * a - L * b = L * (a - b) := (Nat.mul_sub ..).symm
  have h1 : L * 1 ≤ L * (a - b) := Nat.mul_le_mul_left L (by omega)
  unfold chunkLen
  rw [hm, this]
  omega

theorem jobOk_of_opOk (hL : 0 < c.lineSz) {p : Nat} : ∀ {op : Op}, OpOk c w p op → JobOk c w p (op.job c)
  | .load addr len be sec, ⟨h1, h2⟩ => by
    intro k hk
    obtain ⟨pos, -, hlt, rfl, hal⟩ := chunksFrom_mem _ _ _ _ _ _ _ _ _ hk
    have hc := chunkLen_le c.lineSz addr (List.replicate len (0 : Byte)).length pos hL
    refine ⟨⟨h1, fun e he => ?_⟩, fun hm => ?_⟩
    · have := enabled_mem _ _ _ _ _ _ he; omega
    · obtain ⟨a1, a2⟩ := h2 hm
      have d1 := Nat.dvd_of_mod_eq_zero a1
      have d2 : c.lineSz ∣ (List.replicate len (0 : Byte)).length := by
        rw [List.length_replicate]; exact Nat.dvd_of_mod_eq_zero a2
      exact chunk_whole d1 d2 (hal d1 d2 (Nat.dvd_zero _)) hlt
  | .store addr data be sec, ⟨h1, h2, h3, h4⟩ => by
    intro k hk
    obtain ⟨pos, -, hlt, rfl, hal⟩ := chunksFrom_mem _ _ _ _ _ _ _ _ _ hk
    have hc := chunkLen_le c.lineSz addr data.length pos hL
    have cov : chunkLen c.lineSz addr data.length pos = c.lineSz →
        (∀ i, i < c.lineSz → beEnabled be (pos + i) = true) →
        Covers c.lineSz (enabled be data ((addr + pos) % c.lineSz) pos (chunkLen c.lineSz addr data.length pos)) := by
      intro hn he o ho
      have h0 : (addr + pos) % c.lineSz = 0 := by omega
      rw [h0, hn]
      exact enabled_covers _ _ _ _ _ _ (Nat.zero_le _) (by omega) (by simpa using he o ho)
    refine ⟨⟨h1, fun e he => ?_⟩, fun hm => ?_, fun hn hl => ?_, fun hm hw hn => ?_, fun hm hw => ?_⟩
    · have := enabled_mem _ _ _ _ _ _ he; omega
    · obtain ⟨a1, a2⟩ := h3 hm
      have d1 := Nat.dvd_of_mod_eq_zero a1
      have d2 := Nat.dvd_of_mod_eq_zero a2
      exact chunk_whole d1 d2 (hal d1 d2 (Nat.dvd_zero _)) hlt
    · exact cov hn (fun i hi => enabled_full _ _ _ _ _ hl i (by simp only at hn; omega))
    · refine cov hn (fun i hi => ?_)
      have h0 : (addr + pos) % c.lineSz = 0 := by simp only at hn; omega
      have hd : (addr + pos) / c.lineSz * c.lineSz = addr + pos := Nat.div_mul_cancel (Nat.dvd_of_mod_eq_zero h0)
      have := h2 hm hw ((addr + pos) / c.lineSz) (by omega)
        (by rw [Nat.add_mul, hd]; simp only at hn; omega) i hi
      rw [hd] at this
      rw [show pos + i = addr + pos + i - addr by omega]; exact this
    · obtain ⟨a1, a2⟩ := h3 (Or.inr hw)
      have d1 := Nat.dvd_of_mod_eq_zero a1
      have d2 := Nat.dvd_of_mod_eq_zero a2
      have hw1 := chunk_whole d1 d2 (hal d1 d2 (Nat.dvd_zero _)) hlt
      show (enabled _ _ _ _ (chunkLen c.lineSz addr data.length pos)).length = chunkLen c.lineSz addr data.length pos ∨
        pos < chunkLen c.lineSz addr data.length pos
      by_cases hpos : pos < c.lineSz
      · right; omega
      · left
        exact enabled_length _ _ _ _ _ (fun i hi => h4 hm hw _ (by omega) (by omega))
  | .maint .., h => h

theorem Inv.step (h : Inv c w m0 s) (hL : 0 < c.lineSz) (hsp : c.split = false ∨ w = true) (a : Action)
    (ha : ∀ p op, a = .start p op → OpOk c w p op) : Inv c w m0 (step c s a) := by
  cases a with
  | start p op => exact h.startStep hL p op (jobOk_of_opOk hL (ha p op rfl))
  | snoop p q => exact h.snoopStep p q
  | final p => exact h.finalStep p
  | ds => exact h.dsStep hsp
  | resume p => exact h.resumeStep hL p

theorem Inv.run (hL : 0 < c.lineSz) (hsp : c.split = false ∨ w = true) : ∀ (as : List Action) (s : State),
    Inv c w m0 s → ScheduleOk c w as → Inv c w m0 (run c s as)
  | [], _, h, _ => h
  | a :: as, s, h, ha =>
    Inv.run hL hsp as _ (h.step hL hsp a (fun p op e => ha p op (by simp [e])))
      (fun p op hm => ha p op (by simp [hm]))

end Verif.Ace
