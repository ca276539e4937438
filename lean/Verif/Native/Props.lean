import Verif.Native.Model
/-!
C40: the native-memory bridge is a memory. The specification is the reference
memory target `Gp.run` of `Verif.Base.Tlm`, and for histories `lastByte`.
-/
namespace Verif.Native
open Verif

/-- The effective streaming width: 0 means the whole access. -/
def effSw (g : Gp) : Nat := if g.sw = 0 then g.len else g.sw

theorem doAccess_eq (be : List Bool) (pos : Nat) :
    (if be.length ≠ 0 then be.getD (pos % be.length) false else true) = beEnabled be pos := by
  unfold beEnabled
  by_cases h : be.length = 0
  · have : be = [] := List.length_eq_zero_iff.1 h
    subst this
    simp
  · rw [if_pos h]
    have hl : pos % be.length < be.length := Nat.mod_lt _ (by omega)
    rw [List.getElem?_eq_getElem hl]
    simp [hl]

theorem slow_read {cap addr sw : Nat} {be : List Bool} {m : Mem} (h64 : cap ≤ 2 ^ 64) :
    ∀ (d : List Byte) (pos : Nat), (∀ k, k < d.length → addr + (pos + k) % sw < cap) →
    slow cap .read addr sw be m pos d = some (m, readFrom m addr sw be pos d)
  | [], pos, _ => rfl
  | b :: bs, pos, h => by
    have h0 := h 0 (by simp)
    simp only [Nat.add_zero] at h0
    have ih := slow_read h64 bs (pos + 1) (be := be) (m := m) (fun k hk => by
      have := h (k + 1) (by simpa using hk)
      rwa [show pos + (k + 1) = pos + 1 + k by omega] at this)
    simp only [slow, doAccess_eq, readFrom]
    rw [Nat.mod_eq_of_lt (Nat.lt_of_lt_of_le h0 h64)]
    split
    · rename_i he
      rw [if_pos trivial, ih]
      simp
    · rename_i he
      rw [ih]
      simp

theorem slow_write {cap addr sw : Nat} {be : List Bool} {cmd : Cmd} (hc : cmd ≠ .read) (h64 : cap ≤ 2 ^ 64) :
    ∀ (d : List Byte) (m : Mem) (pos : Nat), (∀ k, k < d.length → addr + (pos + k) % sw < cap) →
    slow cap cmd addr sw be m pos d = some (writeFrom m addr sw be pos d, d)
  | [], m, pos, _ => rfl
  | b :: bs, m, pos, h => by
    have h0 := h 0 (by simp)
    simp only [Nat.add_zero] at h0
    have h' : ∀ k, k < bs.length → addr + (pos + 1 + k) % sw < cap := fun k hk => by
      have := h (k + 1) (by simpa using hk)
      rwa [show pos + (k + 1) = pos + 1 + k by omega] at this
    simp only [slow, doAccess_eq, writeFrom]
    rw [Nat.mod_eq_of_lt (Nat.lt_of_lt_of_le h0 h64)]
    split
    · rename_i he
      rw [slow_write hc h64 bs _ (pos + 1) h']
      simp
    · rename_i he
      rw [slow_write hc h64 bs _ (pos + 1) h']
      simp

/-- Reads and writes, with any byte enables and streaming width, whose address
range does not wrap around the 64-bit address space: performed exactly as the
reference memory does if they fit the mapped size, rejected (simulation stops)
otherwise. Nothing outside the mapped memory is ever touched. -/
theorem native_exact {size : Nat} (h64 : size ≤ 2 ^ 64) (hs : 0 < size) {g : Gp} (m : Mem)
    (hc : g.cmd ≠ .ignore) (hw : g.addr + min g.len (effSw g) < 2 ^ 64) :
    transport size size m g =
      if g.addr + min g.len (effSw g) ≤ size then
        .ok (Gp.run { g with sw := effSw g } m).1 (Gp.run { g with sw := effSw g } m).2
      else .fatal := by
  unfold transport
  change (if (g.addr + min g.len (effSw g)) % 2 ^ 64 > size ∧ size > 0 then Out.fatal
    else if g.be.length ≠ 0 ∨ effSw g ≠ 0 then
      match slow size g.cmd g.addr (effSw g) g.be m 0 g.data with
      | none => .ub
      | some (m', buf) => .ok m' buf
    else .ok m g.data) = _
  rw [Nat.mod_eq_of_lt hw]
  by_cases hle : g.addr + min g.len (effSw g) ≤ size
  · rw [if_neg (by omega), if_pos hle]
    by_cases h0 : g.data = []
    · have hr : Gp.run { g with sw := effSw g } m = (m, []) := by
        unfold Gp.run
        rw [h0]
        cases g.cmd <;> rfl
      rw [hr, h0]
      split <;> rfl
    · have hlen : 0 < g.len := List.length_pos_iff.2 h0
      have hsw : effSw g ≠ 0 := by unfold effSw; split <;> omega
      rw [if_pos (Or.inr hsw)]
      have hb : ∀ k, k < g.data.length → g.addr + (0 + k) % effSw g < size := by
        intro k hk
        have h1 : k % effSw g < effSw g := Nat.mod_lt _ (by omega)
        have h2 : k % effSw g ≤ k := Nat.mod_le _ _
        have : k < g.len := hk
        rw [Nat.zero_add]
        omega
      cases hcm : g.cmd with
      | read =>
        rw [slow_read h64 g.data 0 hb]
        simp [Gp.run]
      | write =>
        rw [slow_write (by simp) h64 g.data m 0 hb]
        simp [Gp.run]
      | ignore => exact absurd hcm hc
  · rw [if_pos ⟨by omega, hs⟩, if_neg hle]

example : (⟨.write, 3, [1#8, 2#8, 3#8, 4#8, 5#8], [true, false], 3⟩ : Gp).cmd ≠ .ignore ∧
    (3 : Nat) + min 5 3 < 2 ^ 64 ∧ (3 : Nat) + min 5 3 ≤ 6 := by decide

/-! ### Histories -/

/-- The value an access leaves at address `a`: that of the last enabled byte of a
write that falls on it. -/
def lastByteFrom (addr sw : Nat) (be : List Bool) (a : Nat) : Nat → List Byte → Option Byte
  | _, [] => none
  | i, b :: bs =>
    match lastByteFrom addr sw be a (i + 1) bs with
    | some v => some v
    | none => if beEnabled be i ∧ addr + i % sw = a then some b else none

def lastByte (g : Gp) (a : Nat) : Option Byte :=
  if g.cmd = .write then lastByteFrom g.addr (effSw g) g.be a 0 g.data else none

/-- The value at `a` after a history: the last value written to it. -/
def lastOf (init : Mem) (a : Nat) : List Gp → Byte
  | [] => init a
  | g :: gs =>
    match lastByte g a with
    | some v => lastOf (init.set a v) a gs
    | none => lastOf init a gs

theorem writeFrom_last (addr sw : Nat) (be : List Bool) (a : Nat) : ∀ (d : List Byte) (m : Mem) (i : Nat),
    writeFrom m addr sw be i d a = (lastByteFrom addr sw be a i d).getD (m a)
  | [], m, i => rfl
  | b :: bs, m, i => by
    simp only [writeFrom, lastByteFrom]
    rw [writeFrom_last addr sw be a bs]
    cases hl : lastByteFrom addr sw be a (i + 1) bs with
    | some v => simp
    | none =>
      by_cases he : beEnabled be i = true
      · by_cases ha : addr + i % sw = a
        · simp [he, ha, Mem.set]
        · have : a ≠ addr + i % sw := fun h => ha h.symm
          simp [he, ha, Mem.set, this]
      · simp [he]

theorem lastOf_congr {m m' : Mem} {a : Nat} (h : m a = m' a) : ∀ gs, lastOf m a gs = lastOf m' a gs
  | [] => h
  | g :: gs => by
    simp only [lastOf]
    split
    · exact lastOf_congr (by simp [Mem.set]) gs
    · exact lastOf_congr h gs

theorem run_at (g : Gp) (m : Mem) (a : Nat) :
    (Gp.run { g with sw := effSw g } m).1 a = (lastByte g a).getD (m a) := by
  unfold Gp.run lastByte
  cases hcm : g.cmd with
  | read => simp
  | write => simp [writeFrom_last]
  | ignore => simp

/-- After any history of accepted reads and writes, every byte of the memory (and
hence what a read returns, by `native_exact`) is the last value written to it. -/
theorem last_write_wins {size : Nat} (h64 : size ≤ 2 ^ 64) (hs : 0 < size) :
    ∀ {gs : List Gp} {m m' : Mem},
      (∀ g ∈ gs, g.cmd ≠ .ignore ∧ g.addr + min g.len (effSw g) < 2 ^ 64) →
      exec size size m gs = some m' → ∀ a, m' a = lastOf m a gs
  | [], m, m', _, h, a => by
    simp only [exec, Option.some.injEq] at h
    subst h
    rfl
  | g :: gs, m, m', hg, h, a => by
    obtain ⟨hc, hw⟩ := hg g List.mem_cons_self
    have e := native_exact h64 hs m hc hw
    simp only [exec] at h
    rw [e] at h
    split at h
    · rename_i m1 b he
      split at he
      · simp only [Out.ok.injEq] at he
        rw [last_write_wins h64 hs (fun x hx => hg x (List.mem_cons_of_mem _ hx)) h a]
        simp only [lastOf]
        have r := run_at g m a
        rw [he.1] at r
        cases hl : lastByte g a with
        | none => rw [hl] at r; exact lastOf_congr r gs
        | some v =>
          rw [hl] at r
          exact lastOf_congr (by simpa [Mem.set] using r) gs
      · exact absurd he (by simp)
    · exact absurd h (by simp)

/-- Written bytes are read back. -/
theorem read_back {size : Nat} (h64 : size ≤ 2 ^ 64) (hs : 0 < size) (m : Mem) {addr : Nat}
    {d junk : List Byte} (hl : junk.length = d.length) (hf : addr + d.length ≤ size) (hlt : size < 2 ^ 64) :
    ∃ m', transport size size m ⟨.write, addr, d, [], d.length⟩ = .ok m' d ∧
      transport size size m' ⟨.read, addr, junk, [], d.length⟩ = .ok m' d := by
  refine ⟨writeFrom m addr d.length [] 0 d, ?_, ?_⟩
  · have hs' : effSw ⟨.write, addr, d, [], d.length⟩ = d.length := by
      unfold effSw Gp.len; split <;> simp_all
    rw [native_exact h64 hs m (by simp) (by rw [hs']; simp only [Gp.len]; omega), hs',
      if_pos (by simp only [Gp.len]; omega)]
    rfl
  · have hs' : effSw ⟨.read, addr, junk, [], d.length⟩ = d.length := by
      unfold effSw Gp.len; split <;> simp_all
    rw [native_exact h64 hs _ (by simp) (by rw [hs']; simp only [Gp.len]; omega), hs',
      if_pos (by simp only [Gp.len]; omega)]
    simp only [Gp.run]
    congr 1
    have key : ∀ (d junk : List Byte) (m : Mem) (i n : Nat), junk.length = d.length → i + d.length ≤ n →
        readFrom (writeFrom m addr n [] i d) addr n [] i junk = d := by
      intro d
      induction d with
      | nil =>
        intro junk m i n h _
        have : junk = [] := List.length_eq_zero_iff.1 (by simpa using h)
        subst this
        rfl
      | cons b bs ih =>
        intro junk m i n h hn
        cases junk with
        | nil => simp at h
        | cons j js =>
          simp only [List.length_cons] at h hn
          have he : beEnabled [] i = true := rfl
          simp only [readFrom, writeFrom, he, if_true]
          rw [ih js _ (i + 1) n (by omega) (by omega)]
          congr 1
          rw [writeFrom_last]
          have : lastByteFrom addr n [] (addr + i % n) (i + 1) bs = none := by
            have gen : ∀ (l : List Byte) (k : Nat), i < k → k + l.length ≤ n →
                lastByteFrom addr n [] (addr + i % n) k l = none := by
              intro l
              induction l with
              | nil => intros; rfl
              | cons c cs ihc =>
                intro k hk hkn
                simp only [List.length_cons] at hkn
                simp only [lastByteFrom]
                rw [ihc (k + 1) (by omega) (by omega)]
                simp only
                rw [if_neg]
                rw [Nat.mod_eq_of_lt (show k < n by omega), Nat.mod_eq_of_lt (show i < n by omega)]
                omega
            exact gen bs (i + 1) (by omega) (by omega)
          rw [this]
          simp [Mem.set]
    exact key d junk m 0 d.length hl (by omega)

/-- Direct memory access is granted for exactly the mapped range. -/
theorem dmi_range {size : Nat} (hs : 0 < size) (a : Nat) :
    ((dmi size).1 ≤ a ∧ a ≤ (dmi size).2) ↔ a < size := by
  unfold dmi
  rw [if_pos hs]
  simp only
  omega

/-- FINDING. The range check wraps around: an access at the very top of the
address space passes it and leaves the memory. -/
theorem wrapping_access_unchecked :
    transport 4096 4096 (fun _ => 0#8) ⟨.write, 2 ^ 64 - 2, [1#8, 2#8, 3#8, 4#8], [], 4⟩ = .ub := by
  rfl

/-- FINDING. An access that should be ignored writes the memory. -/
theorem ignore_writes :
    ∃ m b, transport 16 16 (fun _ => 0#8) ⟨.ignore, 4, [9#8], [], 1⟩ = .ok m b ∧ m 4 = 9#8 :=
  ⟨_, _, rfl, rfl⟩

/-- FINDING. With the size left at its "unknown" value 0 nothing is checked. -/
theorem unsized_unchecked (cap : Nat) (m : Mem) (g : Gp) : transport 0 cap m g ≠ .fatal := by
  unfold transport
  simp only
  generalize (if g.sw = 0 then g.len else g.sw) = sw
  rw [if_neg (by omega)]
  split
  · cases slow cap g.cmd g.addr sw g.be m 0 g.data <;> simp
  · simp

end Verif.Native
