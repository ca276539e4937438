import Verif.WrapExpander.Model
import Verif.Aligner.Props

/-! # C12: wrapping accesses -/

namespace Verif.WrapExpander
open Verif
open Verif.Aligner (Target beWindow memT beWindow_enabled)

/-! ## Specification: a wrapping access, byte by byte -/

/-- Address of byte `i` of a wrapping access of `len` bytes at `addr`: the block
of size `len` containing `addr`, starting at `addr` and wrapping at its end. -/
def wrapAddr (addr len i : Nat) : Nat :=
  let base := addr / len * len
  base + (addr - base + i) % len

def wrapWrite (m : Mem) (addr len : Nat) (be : List Bool) : Nat → List Byte → Mem
  | _, [] => m
  | i, b :: bs =>
    wrapWrite (if beEnabled be i then m.set (wrapAddr addr len i) b else m) addr len be (i + 1) bs

def wrapRead (m : Mem) (addr len : Nat) (be : List Bool) : Nat → List Byte → List Byte
  | _, [] => []
  | i, b :: bs => (if beEnabled be i then m (wrapAddr addr len i) else b) :: wrapRead m addr len be (i + 1) bs

/-- The specified effect of a wrapping access. -/
def wrapRun (g : Gp) (m : Mem) : Mem × List Byte :=
  match g.cmd with
  | .read => (m, wrapRead m g.addr g.len g.be 0 g.data)
  | .write => (wrapWrite m g.addr g.len g.be 0 g.data, g.data)
  | .ignore => (m, g.data)

/-! ## Lemmas -/

theorem wrapWrite_append (m : Mem) (a l : Nat) (be : List Bool) (i : Nat) (d e : List Byte) :
    wrapWrite m a l be i (d ++ e) = wrapWrite (wrapWrite m a l be i d) a l be (i + d.length) e := by
  induction d generalizing m i with
  | nil => rfl
  | cons b bs ih =>
    simp only [List.cons_append, wrapWrite, ih, List.length_cons]
    congr 1; omega

theorem wrapRead_append (m : Mem) (a l : Nat) (be : List Bool) (i : Nat) (d e : List Byte) :
    wrapRead m a l be i (d ++ e) = wrapRead m a l be i d ++ wrapRead m a l be (i + d.length) e := by
  induction d generalizing i with
  | nil => rfl
  | cons b bs ih =>
    simp only [List.cons_append, wrapRead, ih, List.length_cons]
    congr 3; omega

theorem write_eq (m : Mem) {a sw : Nat} {be be' : List Bool} {i j addr len : Nat} (d : List Byte)
    (he : ∀ k, k < d.length → beEnabled be (i + k) = beEnabled be' (j + k))
    (ha : ∀ k, k < d.length → a + (i + k) % sw = wrapAddr addr len (j + k)) :
    writeFrom m a sw be i d = wrapWrite m addr len be' j d := by
  induction d generalizing m i j with
  | nil => rfl
  | cons b bs ih =>
    simp only [writeFrom, wrapWrite]
    have e0 := he 0 (by simp)
    have a0 := ha 0 (by simp)
    simp only [Nat.add_zero] at e0 a0
    rw [e0, a0]
    apply ih
    · intro k hk
      have := he (k + 1) (by simpa using hk)
      simpa [Nat.add_assoc, Nat.add_comm 1 k] using this
    · intro k hk
      have := ha (k + 1) (by simpa using hk)
      simpa [Nat.add_assoc, Nat.add_comm 1 k] using this

theorem read_eq (m : Mem) {a sw : Nat} {be be' : List Bool} {i j addr len : Nat} (d : List Byte)
    (he : ∀ k, k < d.length → beEnabled be (i + k) = beEnabled be' (j + k))
    (ha : ∀ k, k < d.length → a + (i + k) % sw = wrapAddr addr len (j + k)) :
    readFrom m a sw be i d = wrapRead m addr len be' j d := by
  induction d generalizing i j with
  | nil => rfl
  | cons b bs ih =>
    simp only [readFrom, wrapRead]
    have e0 := he 0 (by simp)
    have a0 := ha 0 (by simp)
    simp only [Nat.add_zero] at e0 a0
    rw [e0, a0]
    congr 1
    apply ih
    · intro k hk
      have := he (k + 1) (by simpa using hk)
      simpa [Nat.add_assoc, Nat.add_comm 1 k] using this
    · intro k hk
      have := ha (k + 1) (by simpa using hk)
      simpa [Nat.add_assoc, Nat.add_comm 1 k] using this

theorem base_le (a l : Nat) : a / l * l ≤ a := Nat.div_mul_le_self a l

theorem pos_lt (a l : Nat) (h : 0 < l) : a - a / l * l < l := by
  have := Nat.mod_lt a h
  have h2 := Nat.div_add_mod a l
  rw [Nat.mul_comm] at h2
  omega

theorem wrapAddr_first (a l i : Nat) (hi : i < l - (a - a / l * l)) : wrapAddr a l i = a + i := by
  have := base_le a l
  unfold wrapAddr
  simp only []
  rw [Nat.mod_eq_of_lt (by omega)]; omega

theorem wrapAddr_second (a l i : Nat) (h : 0 < l) (hi : i < a - a / l * l) :
    wrapAddr a l (l - (a - a / l * l) + i) = a / l * l + i := by
  have := base_le a l
  have := pos_lt a l h
  unfold wrapAddr
  simp only []
  generalize a / l * l = b at *
  have e : a - b + (l - (a - b) + i) = i + l := by omega
  rw [e, Nat.add_mod_right, Nat.mod_eq_of_lt (by omega)]

/-- Streaming width does not matter when it is zero or at least the length. -/
theorem mod_sw (sw len k : Nat) (h : sw = 0 ∨ len ≤ sw) (hk : k < len) : k % sw = k := by
  rcases h with h | h
  · rw [h, Nat.mod_zero]
  · exact Nat.mod_eq_of_lt (by omega)

/-! ## Theorems -/

/-- **C12.** In the two-access configuration, every non-empty wrapping access to
a memory - any command, address, length and byte-enable pattern - moves byte `i`
to or from `base + (addr - base + i) mod len` under byte enable `i`, touches
nothing else, answers OK and leaves the initiator's address alone. -/
theorem wrap_equivalent (g : Gp) (m : Mem) (hne : 0 < g.len) (hsw : g.sw = 0 ∨ g.len ≤ g.sw) :
    transport true true memT g m = some ((wrapRun g m).1, (wrapRun g m).2, .ok, g.addr) := by
  have hb := base_le g.addr g.len
  have hp := pos_lt g.addr g.len hne
  have hl : g.len = g.data.length := rfl
  unfold transport
  rw [if_pos rfl, if_neg (by omega)]
  simp only []
  by_cases hz : g.addr - g.addr / g.len * g.len = 0
  · rw [if_neg (by simp [hz])]
    have hba : g.addr / g.len * g.len = g.addr := by omega
    rw [hba]
    have hadr : ∀ k, k < g.data.length → g.addr + (0 + k) % g.sw = wrapAddr g.addr g.len (0 + k) := by
      intro k hk
      rw [Nat.zero_add, mod_sw _ _ _ hsw (by omega), wrapAddr_first _ _ _ (by omega)]
    simp only [memT, Gp.run, wrapRun]
    cases g.cmd with
    | read => simp only []; rw [read_eq m g.data (fun _ _ => rfl) hadr]
    | write => simp only []; rw [write_eq m g.data (fun _ _ => rfl) hadr]
    | ignore => simp only []
  · rw [if_pos ⟨trivial, hz⟩]
    generalize hpos : g.addr - g.addr / g.len * g.len = pos at *
    have hlen1 : (g.data.take (g.len - pos)).length = g.len - pos := by simp; omega
    have hlen2 : (g.data.drop (g.len - pos)).length = pos := by simp; omega
    have hsplit : g.data = g.data.take (g.len - pos) ++ g.data.drop (g.len - pos) := (List.take_append_drop _ _).symm
    have hok : ∀ x y, (memT x y).2.2 = .ok := fun _ _ => rfl
    rw [hok, if_pos rfl]
    have hd1 : ((memT { g with data := g.data.take (g.len - pos) } m).2.1).length = g.len - pos := by
      simp only [memT, Gp.run]
      cases g.cmd <;> simp <;> omega
    have hdrop : ((memT { g with data := g.data.take (g.len - pos) } m).2.1 ++ g.data.drop (g.len - pos)).drop
        (g.len - pos) = g.data.drop (g.len - pos) := by
      rw [List.drop_append_of_le_length (by omega), List.drop_of_length_le (by omega), List.nil_append]
    have htake : ((memT { g with data := g.data.take (g.len - pos) } m).2.1 ++ g.data.drop (g.len - pos)).take
        (g.len - pos) = (memT { g with data := g.data.take (g.len - pos) } m).2.1 := by
      rw [List.take_append_of_le_length (by omega), List.take_of_length_le (by omega)]
    rw [hdrop, htake, List.take_of_length_le (by omega)]
    have ha1 : ∀ k, k < (g.data.take (g.len - pos)).length →
        g.addr + (0 + k) % g.sw = wrapAddr g.addr g.len (0 + k) := by
      intro k hk
      rw [Nat.zero_add, mod_sw _ _ _ hsw (by omega), wrapAddr_first _ _ _ (by omega)]
    have ha2 : ∀ k, k < (g.data.drop (g.len - pos)).length →
        g.addr / g.len * g.len + (0 + k) % g.sw = wrapAddr g.addr g.len (g.len - pos + k) := by
      intro k hk
      rw [Nat.zero_add, mod_sw _ _ _ hsw (by omega), ← hpos, wrapAddr_second _ _ _ hne (by omega)]
    have he2 : ∀ k, k < (g.data.drop (g.len - pos)).length →
        beEnabled (beWindow g.be (g.len - pos)) (0 + k) = beEnabled g.be (g.len - pos + k) := by
      intro k _; rw [Nat.zero_add, beWindow_enabled]
    simp only [memT, Gp.run, wrapRun]
    cases hcmd : g.cmd with
    | read =>
      simp only []
      rw [read_eq m _ (fun _ _ => rfl) ha1, read_eq m _ he2 ha2]
      have := wrapRead_append m g.addr g.len g.be 0 (g.data.take (g.len - pos)) (g.data.drop (g.len - pos))
      rw [hlen1, Nat.zero_add, ← hsplit] at this
      rw [this]
    | write =>
      simp only []
      rw [write_eq m _ (fun _ _ => rfl) ha1, write_eq _ _ he2 ha2]
      have := wrapWrite_append m g.addr g.len g.be 0 (g.data.take (g.len - pos)) (g.data.drop (g.len - pos))
      rw [hlen1, Nat.zero_add, ← hsplit] at this
      rw [this]
      simp
    | ignore => simp

example : ∃ g : Gp, 0 < g.len ∧ (g.sw = 0 ∨ g.len ≤ g.sw) ∧ g.addr - g.addr / g.len * g.len ≠ 0 ∧
    (transport true true memT g (fun a => BitVec.ofNat 8 a)).map (fun r => r.2.1) = some [6, 0xaa, 4, 5] :=
  ⟨{ cmd := .read, addr := 6, data := [0xaa, 0xaa, 0xaa, 0xaa], be := [true, false, true, true], sw := 4 },
    by decide, by decide, by decide, by decide +kernel⟩

/-- **C12, errors.** An error of the first access is reported and the second is
not issued: the target's state is the one after the first access alone. -/
theorem wrap_first_error {σ : Type} (T : Target σ) (g : Gp) (s : σ) (hne : 0 < g.len)
    (hpos : g.addr % g.len ≠ 0)
    (herr : (T { g with data := g.data.take (g.len - g.addr % g.len) } s).2.2 ≠ .ok) :
    ∃ d, transport true true T g s =
      some ((T { g with data := g.data.take (g.len - g.addr % g.len) } s).1, d,
        (T { g with data := g.data.take (g.len - g.addr % g.len) } s).2.2, g.addr) := by
  have hm : g.addr - g.addr / g.len * g.len = g.addr % g.len := by
    have := Nat.div_add_mod g.addr g.len
    rw [Nat.mul_comm] at this; omega
  unfold transport
  rw [if_pos rfl, if_neg (by omega)]
  simp only []
  rw [hm, if_pos ⟨trivial, hpos⟩, if_neg herr]
  exact ⟨_, rfl⟩

example : ∃ (T : Target Nat) (g : Gp), 0 < g.len ∧ g.addr % g.len ≠ 0 ∧
    (T { g with data := g.data.take (g.len - g.addr % g.len) } 0).2.2 ≠ .ok :=
  ⟨fun g n => (n + 1, g.data, .address), { cmd := .read, addr := 6, data := [0, 0, 0, 0], sw := 4 }, by decide⟩

/-- Without the wrap attribute the access is passed on unchanged. -/
theorem no_wrap_forwarded {σ : Type} (two : Bool) (T : Target σ) (g : Gp) (s : σ) :
    transport two false T g s = some ((T g s).1, (T g s).2.1, (T g s).2.2, g.addr) := rfl

/-- In the one-access configuration the data is *not* rotated: byte `i` goes to
`base + i`, so C12's addresses hold only for wrap-aligned accesses; and the
initiator's payload is left with the block address. -/
theorem one_access_not_rotated :
    ∃ (g : Gp) (m m' : Mem) (d : List Byte) (a : Nat), 0 < g.len ∧ g.sw = g.len ∧
      transport false true memT g m = some (m', d, .ok, a) ∧ a ≠ g.addr ∧ m' 4 = 1 ∧ (wrapRun g m).1 4 = 3 := by
  refine ⟨{ cmd := .write, addr := 6, data := [1, 2, 3, 4], sw := 4 }, fun _ => 0, _, _, _, by decide, rfl, rfl,
    by decide, by decide +kernel, by decide +kernel⟩

end Verif.WrapExpander
