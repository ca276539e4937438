import Verif.Tlm2Axi.Plans

/-! # C23 and C24: bytes moved through the TLM-to-AXI bridge -/

namespace Verif.Tlm2Axi
open Verif Verif.Axi

/-! ## Writes -/

/-- **C23, incrementing bursts.** For every bus of `db` bytes, every burst width
that divides it, and every address, length and byte-enable pattern: an AXI slave
that follows the specification performs exactly the byte writes of the TLM
access, and sees neither a stray strobe, a misplaced `WLAST` nor a wrong number of
beats. -/
theorem write_incr (db : Nat) (p : Gp) (t : Tr) (hdb : 0 < db) (ht : mkTr db p = some t) (hw : p.wrap = false)
    (hlen : 0 < p.len) (hsw : p.len ≤ p.sw) (hdvd : t.bw ∣ db) (hsmall : p.len + 2 * db < 2 ^ 32) :
    t.ax.slaveWrite db (writeBeats db t) = some (specWrites p) := by
  obtain ⟨h, rfl⟩ := good_incr db p t hdb ht hw hlen hsw hdvd hsmall
  refine h.write hdb (Or.inl ?_)
  unfold mkTr at ht
  rw [show setupBurstType db t.gp = some (.incr, t.gp.burstWidth) by
    unfold setupBurstType; rw [if_neg (by simp [hw]), if_pos hsw]] at ht
  simp only [Option.some.injEq] at ht
  rw [← ht]; simp

/-- **C23, wrapping bursts.** A wrapping access that starts on a beat boundary and
whose block is a whole number of bus words.  Smaller blocks go wrong:
`narrow_wrap_misplaced`. -/
theorem write_wrap_partial (db : Nat) (p : Gp) (t : Tr) (hdb : 0 < db) (ht : mkTr db p = some t) (hw : p.wrap = true)
    (hlen : 0 < p.len) (hsw : p.sw = p.len) (hdvd : t.bw ∣ db) (hblk : db ∣ p.len) (hal : p.addr % t.bw = 0)
    (hsmall : p.len + 2 * db < 2 ^ 32) :
    t.ax.slaveWrite db (writeBeats db t) = some (specWrites p) := by
  obtain ⟨h, rfl⟩ := good_wrap db p t hdb ht hw hlen hsw hdvd hblk hal hsmall
  refine h.write hdb (Or.inl ?_)
  unfold mkTr at ht
  rw [show setupBurstType db t.gp = some (.wrap, t.gp.burstWidth) by
    unfold setupBurstType; rw [if_pos ⟨hsw, hw⟩]] at ht
  simp only [Option.some.injEq] at ht
  rw [← ht]; simp

/-- **C23, fixed bursts.** A streaming access whose width is the beat width,
starting on a beat boundary, with byte enables (if any) that repeat with the beat.
Without these conditions it goes wrong: `fixed_enables_ignored`,
`fixed_unaligned_misplaced`, `fixed_wide_beats_mismatch`. -/
theorem write_fixed_partial (db : Nat) (p : Gp) (t : Tr) (hdb : 0 < db) (ht : mkTr db p = some t) (hw : p.wrap = false)
    (hsw0 : 0 < p.sw) (hsw : p.sw < p.len) (hbs : t.bw = p.sw) (hfx : t.burst = .fixed) (hdvd : p.sw ∣ db) (hal : p.addr % p.sw = 0)
    (hbe : p.be.length ∣ p.sw) (hsmall : p.len + 2 * db < 2 ^ 32) :
    t.ax.slaveWrite db (writeBeats db t) = some (specWrites p) := by
  obtain ⟨h, rfl⟩ := good_fixed db p t hdb ht hw hsw0 hsw hbs hfx hdvd hal hsmall
  exact h.write hdb (Or.inr hbe)

/-! ## Reads -/

/-- Beats a well-behaved slave with memory `mem` sends for the announced burst:
enough of them, with the right lanes, `RLAST` on no beat but the last. -/
def ReadAnswer (db : Nat) (a : Ax) (mem : Nat → Byte) (bs : List RBeat) : Prop :=
  ∀ n, n < a.beats → ∃ b, bs[n]? = some b ∧ a.readBeatOk db mem n b.data ∧ (b.last = true → n + 1 = a.beats)

/-- **C24, incrementing bursts.** The buffer ends up holding exactly what a TLM
read of the slave's memory gives (disabled bytes untouched), the beats of the
burst are used up and no others, and the response is that of the last beat. -/
theorem read_incr (db : Nat) (p : Gp) (t : Tr) (hdb : 0 < db) (ht : mkTr db p = some t) (hw : p.wrap = false)
    (hlen : 0 < p.len) (hsw : p.len ≤ p.sw) (hdvd : t.bw ∣ db) (hsmall : p.len + 2 * db < 2 ^ 32)
    (mem : Nat → Byte) (bs : List RBeat) (hbs : ReadAnswer db t.ax mem bs) (bl : RBeat) (hbl : bs[t.ax.beats - 1]? = some bl) :
    readBeats db t bs = some (specRead p mem, bl.resp, bs.drop t.ax.beats) := by
  obtain ⟨h, rfl⟩ := good_incr db p t hdb ht hw hlen hsw hdvd hsmall
  exact h.read mem bs hbs bl hbl

/-- **C24, wrapping bursts**, under the conditions of `write_wrap_partial`. -/
theorem read_wrap_partial (db : Nat) (p : Gp) (t : Tr) (hdb : 0 < db) (ht : mkTr db p = some t) (hw : p.wrap = true)
    (hlen : 0 < p.len) (hsw : p.sw = p.len) (hdvd : t.bw ∣ db) (hblk : db ∣ p.len) (hal : p.addr % t.bw = 0)
    (hsmall : p.len + 2 * db < 2 ^ 32)
    (mem : Nat → Byte) (bs : List RBeat) (hbs : ReadAnswer db t.ax mem bs) (bl : RBeat) (hbl : bs[t.ax.beats - 1]? = some bl) :
    readBeats db t bs = some (specRead p mem, bl.resp, bs.drop t.ax.beats) := by
  obtain ⟨h, rfl⟩ := good_wrap db p t hdb ht hw hlen hsw hdvd hblk hal hsmall
  exact h.read mem bs hbs bl hbl

/-- **C24, fixed bursts.**  Here any byte enables work. -/
theorem read_fixed_partial (db : Nat) (p : Gp) (t : Tr) (hdb : 0 < db) (ht : mkTr db p = some t) (hw : p.wrap = false)
    (hsw0 : 0 < p.sw) (hsw : p.sw < p.len) (hbs' : t.bw = p.sw) (hfx : t.burst = .fixed) (hdvd : p.sw ∣ db) (hal : p.addr % p.sw = 0)
    (hsmall : p.len + 2 * db < 2 ^ 32)
    (mem : Nat → Byte) (bs : List RBeat) (hbs : ReadAnswer db t.ax mem bs) (bl : RBeat) (hbl : bs[t.ax.beats - 1]? = some bl) :
    readBeats db t bs = some (specRead p mem, bl.resp, bs.drop t.ax.beats) := by
  obtain ⟨h, rfl⟩ := good_fixed db p t hdb ht hw hsw0 hsw hbs' hfx hdvd hal hsmall
  exact h.read mem bs hbs bl hbl

/-- **C24 (violation).** The status reflects the last beat only: whatever the
earlier beats answered, the outcome is the same. -/
theorem earlier_errors_ignored (db : Nat) (t : Tr) (f : Nat → Nat) :
    ∀ (bs : List RBeat) (b : RBeat) (ap pos len : Nat) (buf : Nat → Byte), len ≠ readlen db t ap len → readlen db t ap len ≤ len →
    readLoop db t (b :: bs) ap pos len buf = readLoop db t ({ b with resp := f b.resp } :: bs) ap pos len buf := by
  intro bs b ap pos len buf h hle
  rw [readLoop, readLoop]
  simp only []
  rw [if_neg (show ¬(len - readlen db t ap len = 0) by omega)]
  rw [if_neg (show ¬(len - readlen db t ap len = 0) by omega)]

/-! ## What is accepted -/

/-- **C23.** Every accepted access announces a legal beat size and burst length. -/
theorem accepted_announcement (mx : Nat) (t : Tr) (hv : validate mx t = true) :
    t.bw ∈ [1, 2, 4, 8, 16, 32, 64, 128] ∧ t.numBeats ≤ mx ∧ 0 < t.gp.len ∧ 0 < t.gp.sw := by
  unfold validate at hv
  split at hv
  · cases hv
  split at hv
  · cases hv
  split at hv
  · cases hv
  split at hv
  · cases hv
  rename_i h1 h2 h3 h4
  refine ⟨?_, by omega, by omega, by omega⟩
  have : validWidth t.bw = true := by simpa using h3
  unfold validWidth at this
  exact List.contains_iff_mem.mp this

/-- Writing the bytes 0, 1, 2, … -/
def demo (addr len sw bw : Nat) (wrap : Bool) (be : List Bool) : Gp :=
  { addr := addr, len := len, sw := sw, data := fun i => BitVec.ofNat 8 i, be := be, wrap := wrap, burstWidth := bw }

/-- What a slave makes of the demo write, and whether the bridge accepts it. -/
def slaveView (db : Nat) (p : Gp) : Option (Bool × Nat × Option (List (Nat × Byte))) :=
  (mkTr db p).map fun t => (validate 256 t, t.numBeats, t.ax.slaveWrite db (writeBeats db t))

/-- **C23 (violation).** A burst width larger than the bus is accepted: one beat
is announced and two are sent. -/
theorem wide_burst_protocol_error : slaveView 4 (demo 0 8 8 8 false []) = some (true, 1, none) := by decide +kernel

/-- **C23 (violation).** On fixed bursts the byte enables of the first beat are
used for every beat. -/
theorem fixed_enables_ignored :
    slaveView 2 (demo 0 4 2 0 false [true, true, false, false]) = some (true, 2, some [(0, 0), (1, 1), (0, 2), (1, 3)]) ∧
      specWrites (demo 0 4 2 0 false [true, true, false, false]) = [(0, 0), (1, 1)] := by decide +kernel

/-- **C23 (violation).** A fixed burst from an unaligned address drops to the
bytes up to the next boundary per beat, so bytes go to the wrong addresses. -/
theorem fixed_unaligned_misplaced :
    slaveView 4 (demo 1 6 4 0 false []) = some (true, 2, some [(1, 0), (2, 1), (3, 2), (1, 3), (2, 4), (3, 5)]) ∧
      specWrites (demo 1 6 4 0 false []) = [(1, 0), (2, 1), (3, 2), (4, 3), (1, 4), (2, 5)] := by decide +kernel

/-- **C23 (violation).** With a burst width above the streaming width, fewer beats
are announced than sent. -/
theorem fixed_wide_beats_mismatch : slaveView 8 (demo 0 8 2 4 false []) = some (true, 2, none) := by decide +kernel

/-- **C23 (violation).** With a burst width below a bus-wide streaming width, every
byte goes to the first beat's addresses. -/
theorem fixed_narrow_misplaced :
    slaveView 4 (demo 0 8 4 2 false []) = some (true, 4, some [(0, 0), (1, 1), (0, 2), (1, 3), (0, 4), (1, 5), (0, 6), (1, 7)]) ∧
      specWrites (demo 0 8 4 2 false []) = [(0, 0), (1, 1), (2, 2), (3, 3), (0, 4), (1, 5), (2, 6), (3, 7)] := by decide +kernel

/-- **C23 (violation).** An odd streaming width is rounded down and the bytes
scattered. -/
theorem odd_width_misplaced :
    slaveView 4 (demo 0 6 3 0 false []) = some (true, 3, some [(0, 0), (1, 1), (0, 2), (1, 3), (0, 4), (1, 5)]) ∧
      specWrites (demo 0 6 3 0 false []) = [(0, 0), (1, 1), (2, 2), (0, 3), (1, 4), (2, 5)] := by decide +kernel

/-- **C23 (violation).** A wrapping burst over a block smaller than the bus drives
the lanes of the unwrapped addresses, which the slave must reject. -/
theorem narrow_wrap_misplaced : slaveView 8 (demo 2 4 4 2 true []) = some (true, 2, none) := by decide +kernel

/-- **C23 (violation).** The beat count is computed in 32 bits: an access of
almost 4 GiB is accepted with a count of 0. -/
theorem huge_length_accepted :
    (mkTr 4 (demo 0 (2 ^ 32 - 2) (2 ^ 32 - 2) 0 false [])).map (fun t => (validate 256 t, t.numBeats)) = some (true, 0) := by
  decide +kernel

/-! ## The hypotheses can be met -/

example : slaveView 4 (demo 3 6 6 2 false [true, false, true]) =
    some (true, 4, some (specWrites (demo 3 6 6 2 false [true, false, true]))) := by decide +kernel
example : slaveView 4 (demo 8 16 16 0 true []) = some (true, 4, some (specWrites (demo 8 16 16 0 true []))) := by decide +kernel
example : specWrites (demo 8 16 16 0 true []) = [(8, 0), (9, 1), (10, 2), (11, 3), (12, 4), (13, 5), (14, 6), (15, 7), (0, 8), (1, 9), (2, 10), (3, 11), (4, 12), (5, 13), (6, 14), (7, 15)] := by
  decide +kernel
example : slaveView 4 (demo 2 5 2 0 false [true, false]) = some (true, 3, some (specWrites (demo 2 5 2 0 false [true, false]))) := by
  decide +kernel
example (mem : Nat → Byte) (t : Tr) (ht : mkTr 4 (demo 3 6 6 2 false []) = some t) :
    ReadAnswer 4 t.ax mem ((List.range 4).map fun n => ⟨fun l => mem (t.ax.laneAddr 4 n l), 0, 0, n + 1 = 4⟩) := by
  have : t.ax.beats = 4 := by
    have h : (mkTr 4 (demo 3 6 6 2 false [])).map (fun t => t.ax.beats) = some 4 := by decide +kernel
    rw [ht] at h; simpa using h
  intro n hn
  rw [this] at hn ⊢
  exact ⟨_, by rw [List.getElem?_map, List.getElem?_range hn]; rfl, fun l _ _ => rfl, by simp⟩

/-- **C24 (short bursts).** A read is completed only from a burst whose end
marker is on its last beat or later: no beat before the last one used carries it,
and the response reported is that of the last beat used. -/
theorem read_completes_unless_early_last (db : Nat) (t : Tr) (bs rest : List RBeat) (buf : Nat → Byte) (resp : Nat)
    (h : readBeats db t bs = some (buf, resp, rest)) :
    ∃ used b, bs = used ++ b :: rest ∧ (∀ x ∈ used, x.last = false) ∧ resp = b.resp := by
  unfold readBeats at h
  generalize t.gp.data = d at h
  generalize t.gp.len = len at h
  revert h
  suffices ∀ (ap pos : Nat) (len : Nat) (d : Nat → Byte), readLoop db t bs ap pos len d = some (buf, resp, rest) →
      ∃ used b, bs = used ++ b :: rest ∧ (∀ x ∈ used, x.last = false) ∧ resp = b.resp from this 0 0 len d
  induction bs with
  | nil => intro ap pos len d h; simp [readLoop] at h
  | cons b bs ih =>
    intro ap pos len d h
    rw [readLoop] at h
    split at h
    · cases h
    · rename_i hl
      split at h
      · simp only [Option.some.injEq, Prod.mk.injEq] at h
        obtain ⟨-, rfl, rfl⟩ := h
        exact ⟨[], b, rfl, by simp, rfl⟩
      · rename_i hz
        obtain ⟨used, b', e1, e2, e3⟩ := ih _ _ _ _ h
        refine ⟨b :: used, b', by rw [e1]; rfl, ?_, e3⟩
        intro x hx
        rcases List.mem_cons.mp hx with e | e
        · subst e
          cases hx : x.last with
          | false => rfl
          | true => exact absurd ⟨hx, hz⟩ hl
        · exact e2 x e

end Verif.Tlm2Axi
