import Verif.Qdma.Regs

/-! # C49: a concrete queue, and where the code leaves the property -/

namespace Verif.Qdma

/-! ### A concrete queue

Queue 0, host to card, 64 descriptors of 32 bytes at `0x10000`, status write-back
on.  Descriptor 0 copies eight bytes from `0x2000` to `0x3000`, descriptor 1 one byte
from `0x2000` to `0x4000`. -/

/-- A software context: ring and descriptor size codes, arm, write-back and interrupt
bits, vector and aggregation (CPM5 layout), base address. -/
def mkSw (ring size : Nat) (irq wb : Bool) (vec : Nat) (aggr : Bool) (base : Nat) : Ctx :=
  let b := fun x : Bool => if x then 1 else 0
  let c : Ctx := setF 0 16 1 (b irq)
  let c := setF c 32 1 1
  let c := setF c 44 4 ring
  let c := setF c 48 2 size
  let c := setF c 52 1 (b wb)
  let c := setF c 53 1 (b irq)
  let c := setF c 64 32 base
  let c := setF c 128 11 vec
  setF c 139 1 (b aggr)

/-- An interrupt context (CPM5 layout): valid, colour 1, base page, one page. -/
def mkInt (vector page : Nat) : Ctx :=
  let c : Ctx := setF 0 0 1 1
  let c := setF c 1 11 vector
  let c := setF c 14 1 1
  setF c 15 52 page

def exHost : Mem :=
  (Mem.store (fun _ => 0) 0x10000 (leEnc 8 0x2000 ++ leEnc 8 8 ++ leEnc 8 0x3000)).store 0x10020
    (leEnc 8 0x2000 ++ leEnc 8 1 ++ leEnc 8 0x4000) |>.store 0x2000 [1, 2, 3, 4, 5, 6, 7, 8]

def exS (sw ic : Ctx) (cidx : Nat) : S where
  regs _ := 0
  axi _ := 0
  ctx q sel := if q = 0 ∧ sel = 1 then sw else if q = 0 ∧ sel = 3 then setF 0 0 16 cidx
    else if q = 0 ∧ sel = 8 then ic else 0
  slot _ := 0
  host := exHost
  card _ := 0
  log := []

/-- The call returned, in a state with the given property. -/
def holds {α : Type} (r : Except Fault α) (p : α → Bool) : Bool :=
  match r with
  | .ok a => p a
  | .error _ => false

/-- How the call failed. -/
def fails {α : Type} : Except Fault α → Option Fault
  | .ok _ => none
  | .error e => some e

def allOk : Env := ⟨fun _ _ _ => true, fun _ _ _ => true, 0⟩

instance (s : S) (q : Nat) (h2c : Bool) : Decidable (Ready s q h2c) :=
  if h : q < 2 ∧ s.cidx q h2c < s.ringSize q h2c ∧ 32 ≤ s.descSize q h2c ∧
      s.base q h2c + s.descSize q h2c * (s.ringSize q h2c + 1) ≤ 2 ^ 64 then
    isTrue ⟨h.1, h.2.1, h.2.2.1, h.2.2.2⟩
  else isFalse fun r => h ⟨r.queue, r.cidx, r.size, r.fits⟩

instance (v : Ver) (s : S) (q : Nat) (h2c : Bool) : Decidable (IrqOk v s q h2c) :=
  inferInstanceAs (Decidable (_ → _))

/-- The hypotheses of `doorbell_polled` and `doorbell_succeeds` hold together. -/
example : Ready (exS (mkSw 1 2 false true 0 false 0x10000) 0 0) 0 true ∧
    (execAll true 0x10000 32 (ringWalk 64 0 1) ⟨exHost, fun _ => 0⟩).isSome = true ∧
    IrqOk .cpm5 (exS (mkSw 1 2 false true 0 false 0x10000) 0 0) 0 true ∧
    (exS (mkSw 1 2 false true 0 false 0x10000) 0 0).wbEn 0 true = true ∧
    (exS (mkSw 1 2 false true 0 false 0x10000) 0 0).ringSize 0 true = 64 := by
  refine ⟨?_, ?_, ?_, ?_, ?_⟩ <;> decide +kernel

/-- Those of `doorbell_direct`. -/
example : Ready (exS (mkSw 1 2 true true 5 false 0x10000) 0 0) 0 true ∧
    IrqOk .cpm5 (exS (mkSw 1 2 true true 5 false 0x10000) 0 0) 0 true ∧
    (exS (mkSw 1 2 true true 5 false 0x10000) 0 0).irqArm 0 true = true ∧
    (exS (mkSw 1 2 true true 5 false 0x10000) 0 0).irqEn 0 true = true ∧
    (exS (mkSw 1 2 true true 5 false 0x10000) 0 0).aggr .cpm5 0 true = false ∧
    (exS (mkSw 1 2 true true 5 false 0x10000) 0 0).vec .cpm5 0 true = 5 := by
  refine ⟨?_, ?_, ?_, ?_, ?_, ?_⟩ <;> decide +kernel

/-- Those of `doorbell_ring_partial` and, with a ring of 8192 descriptors and a
consumer index near its end, of `entry_pidx_truncated`. -/
example : Ready (exS (mkSw 1 2 true true 0 true 0x10000) (mkInt 3 0x50) 0) 0 true ∧
    IrqOk .cpm5 (exS (mkSw 1 2 true true 0 true 0x10000) (mkInt 3 0x50) 0) 0 true ∧
    (exS (mkSw 1 2 true true 0 true 0x10000) (mkInt 3 0x50) 0).aggr .cpm5 0 true = true ∧
    Ready (exS (mkSw 13 2 true true 0 true 0x10000) (mkInt 3 0x50) 5000) 0 true ∧
    IrqOk .cpm5 (exS (mkSw 13 2 true true 0 true 0x10000) (mkInt 3 0x50) 5000) 0 true ∧
    (execAll true 0x10000 32 (ringWalk 8192 5000 5001) ⟨exHost, fun _ => 0⟩).isSome = true := by
  refine ⟨?_, ?_, ?_, ?_, ?_, ?_⟩ <;> decide +kernel

/-- A history as `ring_history` and `irq_ring_history` range over: it succeeds, posts
two descriptors and writes two entries. -/
def exRun (os : List Op) : Except Fault S :=
  hist .cpm5 (exS (mkSw 1 2 true true 0 true 0x10000) (mkInt 3 0x50) 0) os

def exOps : List Op :=
  [.cfg allOk (bell .cpm5 0 true 1), .cfg allOk (rd 0), .cfg allOk (bell .cpm5 0 true 2)]

example : holds (exRun exOps) (fun s => descsOf 0 true s.log = [0, 1] ∧
    (entriesOf 0 s.log).map (·.1) = [0x50000, 0x50008] ∧ s.cidx 0 true = 2) = true := by decide +kernel

/-! ### Lengths that are not whole words -/

/-- **A copy of a few bytes writes whole words.**  A host-to-card copy of `n` bytes
writes `n` rounded up to a multiple of four, with whatever lies behind the source. -/
theorem copy_rounds_up (env : Env) (s s' : S) (a b n : Nat) (ha : a + 4 * ((n + 3) / 4) ≤ 2 ^ 64)
    (hb : b + 4 * ((n + 3) / 4) ≤ 2 ^ 64) (h : doMmDma env s a b n true = .ok s') :
    s'.card = s.card.store b (s.host.range a (4 * ((n + 3) / 4))) := by
  unfold doMmDma at h
  simp only [if_true] at h
  cases hc : copy (env.hostOk .read · 4) (env.cardOk .write · 4) s.host ((n + 3) / 4) a b s.card with
  | error e => rw [hc] at h; cases h
  | ok m =>
    rw [hc] at h
    injection h with h
    rw [← h]
    exact copy_eq _ _ _ _ _ _ _ _ ha hb hc

/-- A one-byte descriptor changes four bytes of card memory. -/
theorem one_byte_writes_four : (descAt exHost 0x10020).len = 1 ∧
    holds (cfg .cpm5 allOk (bell .cpm5 0 true 2) (exS (mkSw 1 2 false true 0 false 0x10000) 0 1))
      (fun r => r.1.card.range 0x4000 5 = [1, 2, 3, 4, 0]) = true := by decide +kernel

/-! ### Queues and vectors that do not exist -/

/-- **The doorbell of queue 2 runs outside the arrays**: there are two queues, but the
register range and the check both let the third one through. -/
theorem queue2_oob (v : Ver) (env : Env) (s : S) (h2c : Bool) (x : Nat) :
    cfg v env (bell v 2 h2c x) s = .error .oob := by
  rw [cfg_bell _ _ _ _ _ _ (by decide)]
  rfl

/-- **A context command for an interrupt ring that does not exist is not checked**
(those for queues are: they fail an assert). -/
theorem irq_command_oob (v : Ver) (env : Env) (s : S) (r c : Nat) (hr : 2 ≤ r) (hr' : r < 8192) (hc : c < 4) :
    cfg v env (ctxOp v r intSel c) s = .error .oob := by
  obtain ⟨f1, f2, f3⟩ := ctxWord r intSel c (by omega) hc (by decide)
  rw [cfg_ctxOp]
  unfold ctxCmd irqCtxCmd
  simp only [f1, f2, f3]
  rw [if_pos trivial, if_pos (by unfold queueCount; omega)]

example (v : Ver) (env : Env) (s : S) : cfg v env (ctxOp v 2 intSel 1) s = .error .oob :=
  irq_command_oob v env s 2 1 (by decide) (by decide) (by decide)

theorem queue_command_asserts (v : Ver) (env : Env) (s : S) (q sel c : Nat) (hq : 2 ≤ q) (hq' : q < 8192)
    (hc : c < 4) (hs : sel < 16) (hn : sel ≠ intSel) :
    cfg v env (ctxOp v q sel c) s = .error .assert := by
  obtain ⟨f1, f2, f3⟩ := ctxWord q sel c (by omega) hc hs
  rw [cfg_ctxOp]
  unfold ctxCmd
  simp only [f1, f2, f3]
  rw [if_neg hn, if_pos (by unfold queueCount; omega)]

/-- **A vector above seven** (the field has room for 2048) indexes outside the eight
interrupt lines, and an aggregated queue naming ring two or above outside the
contexts. -/
theorem bad_vector_oob (v : Ver) (env : Env) (q p : Nat) (h2c : Bool) (s : S) (ha : s.irqArm q h2c = true)
    (he : s.irqEn q h2c = true) (hv : 8 ≤ s.vec v q h2c) : signal v env q h2c p s = .error .oob := by
  unfold signal aggregate notify nrIrq queueCount
  rw [ha, he]
  simp only [Bool.not_true, Bool.or_self, Bool.false_eq_true, if_false]
  split
  · rw [if_pos (by omega)]
  · rw [if_neg (by omega)]

/-- Seen from the driver. -/
example : fails (cfg .cpm5 allOk (bell .cpm5 0 true 1) (exS (mkSw 1 2 true true 9 false 0x10000) 0 0)) =
    some .oob := by decide +kernel

/-- **Accesses behind the last register** go outside the register arrays. -/
theorem register_oob (v : Ver) (env : Env) (s : S) (w : Nat) (x : BitVec 32) (h : 0x18000 ≤ w) :
    cfg v env (rd w) s = .error .oob ∧ cfg v env (wr w x) s = .error .oob := by
  have hd : dmap v ≤ 0x18000 := by cases v <;> decide
  have hc : cmdReg v ≤ 0x211 := by cases v <;> decide
  refine ⟨?_, ?_⟩
  · unfold cfg
    rw [rd_refused]
    have : cfgRead v (4 * w) s = .error .oob := by
      unfold cfgRead nRegs
      rw [if_neg (by omega), if_neg (by omega)]
    simp only [Bool.false_eq_true, if_false, rd, this]
  · rw [cfg_wr]
    have : cfgWrite v env (4 * w) x s = .error .oob := by
      unfold cfgWrite nRegs queueCount
      simp only
      rw [if_neg (by omega), if_neg (by omega), if_neg (by omega), if_neg (by omega), if_neg (by omega)]
    rw [this]

theorem user_oob (s : S) (w : Nat) (x : BitVec 32) (h : 0xA8 ≤ w) :
    user (rd w) s = .error .oob ∧ user (wr w x) s = .error .oob := by
  refine ⟨?_, ?_⟩
  · unfold user
    rw [rd_refused]
    simp only [Bool.false_eq_true, if_false, rd]
    exact if_neg (by show ¬ 4 * w / 4 < 0xA8; omega)
  · unfold user
    rw [wr_refused]
    simp only [Bool.false_eq_true, if_false, wr]
    exact if_neg (by show ¬ 4 * w / 4 < 0xA8; omega)

/-- Both are reachable addresses of the BARs. -/
example : cfg .cpm5 allOk (rd 0x18000) (exS 0 0 0) = .error .oob ∧ user (rd 0xA8) (exS 0 0 0) = .error .oob :=
  ⟨(register_oob _ _ _ _ 0 (by decide)).1, (user_oob _ _ 0 (by decide)).1⟩

/-! ### Descriptors and indices -/

/-- **Short descriptors are read past their end**: rings of 8- or 16-byte descriptors
use a destination address that was never fetched. -/
theorem short_descriptor_uninit (env : Env) (q : Nat) (h2c : Bool) (s : S)
    (hh : ∀ c a n, env.hostOk c a n = true) (hs : s.descSize q h2c < 24) :
    one env q h2c s = .error .uninit := by
  unfold one
  obtain ⟨d, hd⟩ := fetch_ok env hh s.host (s.descSize q h2c / 4) (s.descAddr q h2c (s.cidx q h2c))
  have hl := fetch_length _ _ _ _ _ hd
  rw [descSize_mul] at hl
  simp only [hd]
  have : parse d = .error .uninit := by
    unfold parse
    rw [if_pos (by omega)]
  show (parse d >>= _) = _
  rw [this]
  rfl

example : (exS (mkSw 1 1 false false 0 false 0x10000) 0 0).descSize 0 true = 16 := by decide +kernel

/-- **A consumer index outside the ring is walked from**: nothing checks it, and the
device executes whatever lies behind the ring until the 16-bit index wraps. -/
theorem stale_cidx_leaves_ring (v : Ver) (env : Env) (q p : Nat) (h2c : Bool) (f : Nat) (s s' : S)
    (hne : s.pidx q h2c ≠ s.cidx q h2c)
    (h1 : one env q h2c s = .ok s') : .desc q h2c (s.cidx q h2c) ∈ s'.log ∧
    (s'.pidx q h2c ≠ s'.cidx q h2c → loop v env q h2c p (f + 1) s = loop v env q h2c p f s') := by
  obtain ⟨m, hm, _⟩ := one_inv env q h2c s s' h1
  refine ⟨by rw [hm]; simp [S.upd], fun hn => ?_⟩
  simp only [loop]
  rw [if_neg hne, h1]
  simp only
  rw [if_neg hn]

/-- Descriptor 65535 of a ring of 64 is executed. -/
example : holds
    (cfg .cpm5 allOk (bell .cpm5 0 true 1) (exS (mkSw 1 2 false false 0 false 0x10000) 0 65535))
    (fun r => r.1.log = [.desc 0 true 65535, .desc 0 true 0]) = true := by decide +kernel

/-- **A disabled queue runs all the same**: the enable bit of the software context is
never looked at. -/
theorem disabled_queue_runs :
    let sw := setF (mkSw 1 2 false false 0 false 0x10000) 32 1 0
    getF sw 32 1 = 0 ∧
    holds (cfg .cpm5 allOk (bell .cpm5 0 true 1) (exS sw 0 0)) (fun r =>
      r.1.log = [.desc 0 true 0] ∧ r.1.card.range 0x3000 8 = [1, 2, 3, 4, 5, 6, 7, 8]) = true := by
  decide +kernel

/-! ### Narrow accesses -/

/-- **A byte read gives byte 0** of the register, whichever byte is addressed. -/
theorem byte_read_low (v : Ver) (env : Env) (s : S) (w k : Nat) (hw : w < 0x18000) (hn : w ≠ 0x4D)
    (hk : k < 4) :
    cfg v env ⟨.read, 4 * w + k, [0], [], 1⟩ s = .ok (s, .ok, [BitVec.ofNat 8 (s.regs w).toNat]) := by
  have : cfgRead v (4 * w + k) s = .ok (s.regs w) := by
    unfold cfgRead nRegs
    rw [show (4 * w + k) / 4 = w by omega, if_neg (by omega), if_pos hw]
  unfold cfg
  rw [if_neg (by simp [refused, Gp.len])]
  simp only [this]
  rfl

/-- **A byte write clears the rest** of the register, and lands in byte 0. -/
theorem byte_write_clears (v : Ver) (env : Env) (s : S) (w k : Nat) (x : Byte) (h : Plain v w) (hk : k < 4) :
    ∃ s', cfg v env ⟨.write, 4 * w + k, [x], [], 1⟩ s = .ok (s', .ok, [x]) ∧
      s'.regs w = x.setWidth 32 := by
  obtain ⟨h1, h2, h3, h4, h5, h6⟩ := h
  have hd : dmap v % 16 = 0 := by cases v <;> rfl
  have : cfgWrite v env (4 * w + k) (wordOf [x]) s = .ok (s.setReg w (wordOf [x])) := by
    unfold cfgWrite nRegs queueCount
    simp only
    rw [show (4 * w + k) / 4 = w by omega, if_neg (by omega), if_neg h5, if_neg (by omega),
      if_neg (by omega), if_pos h1]
  refine ⟨s.setReg w (wordOf [x]), ?_, ?_⟩
  · unfold cfg
    rw [if_neg (by simp [refused, Gp.len])]
    simp only [this]
  · rw [setReg_same]
    unfold wordOf
    apply BitVec.eq_of_toNat_eq
    simp [leDec]

/-- Byte 1 of a register holding `0x04030201`. -/
example (env : Env) : ∃ s', cfg .cpm5 env (wr 0x201 0x04030201) (exS 0 0 0) = .ok (s', .ok, [1, 2, 3, 4]) ∧
    cfg .cpm5 env ⟨.read, 4 * 0x201 + 1, [0], [], 1⟩ s' = .ok (s', .ok, [1]) := by
  obtain ⟨s', h, _, _, h2⟩ := register_roundtrip .cpm5 env env 0x201 0x04030201 (exS 0 0 0)
    (by unfold Plain; decide)
  refine ⟨s', h, ?_⟩
  rw [byte_read_low _ _ _ _ _ (by decide) (by decide) (by decide)]
  have : s'.regs 0x201 = 0x04030201 := by
    rw [cfg_wr, cfgWrite_plain _ _ _ _ _ (by unfold Plain; decide)] at h
    injection h with h
    obtain ⟨e, _⟩ := Prod.mk.inj h
    rw [← e, setReg_same]
  rw [this]
  rfl

/-! ### Stack contents in host memory -/

/-- **CPM4 entries carry stack contents**: the twelve bits from 39 to 50 of an interrupt
entry, among them the one that marks an error interrupt, are whatever the stack held. -/
theorem cpm4_entry_junk (junk : BitVec 64) (q : Nat) (h2c : Bool) (color cidx pidx : Nat) :
    getF (mkEntry .cpm4 junk q h2c color cidx pidx) 39 12 = getF junk 39 12 := by
  simp only [mkEntry]
  rw [getF_setF_disj _ 0 _ _ _ _ (by decide) (by decide),
    getF_setF_disj _ 16 _ _ _ _ (by decide) (by decide),
    getF_setF_disj _ 32 _ _ _ _ (by decide) (by decide),
    getF_setF_disj _ 33 _ _ _ _ (by decide) (by decide),
    getF_setF_disj _ 35 _ _ _ _ (by decide) (by decide),
    getF_setF_disj _ 63 _ _ _ _ (by decide) (by decide),
    getF_setF_disj _ 51 _ _ _ _ (by decide) (by decide),
    getF_setF_disj _ 52 _ _ _ _ (by decide) (by decide)]

/-! ### Strobes -/

/-- **Requests during a strobe are lost**: for every two requests less than 10 ns
apart the line rises once. -/
theorem strobe_merged (tie : Nat → Bool) (t d : Nat) (hd : d < 10) : strobe tie 0 [t, t + d] = [t] := by
  simp only [strobe]
  rw [if_neg (by omega), if_pos (by omega)]

end Verif.Qdma
