import Verif.Mcdma.Lemmas
/-! C35, receive side, interrupts and findings. -/
namespace Verif.Mcdma
open Verif

/-! ### Receiving -/

/-- A packet that fits into an open descriptor: exactly its bytes are stored in the
descriptor's buffer, the status word says completed and gives the length, the
channel moves on, and goes idle at the tail. -/
theorem s2mm_exact {s : Rx} {pkt : List Byte} (hne : pkt ≠ [])
    (h1 : s.ccr.getLsbD 0 = true) (h2 : s.chen = true) (h3 : s.ch.cr.getLsbD 0 = true) (h4 : s.ch.sr.getLsbD 1 = false)
    {buf next : Nat} (hb : leDec (s.mem.range (s.ch.cur + 8) 8) = buf) (hx : leDec (s.mem.range s.ch.cur 8) = next)
    (hfit : pkt.length ≤ leDec (s.mem.range (s.ch.cur + 20) 4) % 2 ^ 26)
    (hopen : (leDec (s.mem.range (s.ch.cur + 24) 4)).testBit 31 = false)
    (hsep : s.ch.cur + 52 ≤ buf ∨ buf + pkt.length ≤ s.ch.cur) :
    ∃ s', receive s pkt = some (s', true) ∧ s'.ch.cur = next ∧
      s'.mem = (s.mem.store buf pkt).store (s.ch.cur + 24) (leEnc 4 (rxDone pkt.length)) ∧
      s'.ch.sr.getLsbD 1 = decide (s.ch.cur = s.ch.tail) ∧ s'.ch.sr.getLsbD 5 = true ∧
      s'.ch.tail = s.ch.tail ∧ s'.ch.cr = s.ch.cr ∧ s'.ccr = s.ccr ∧ s'.chen = s.chen := by
  have f := range_field s.mem s.ch.cur 52
  have f0 := f 0 8 (by omega)
  rw [Nat.add_zero, hx] at f0
  have f8 := f 8 8 (by omega)
  rw [hb] at f8
  have f20 := f 20 4 (by omega)
  have f24 := f 24 4 (by omega)
  have hlt : next < 2 ^ 64 := by
    have := leDec_lt (s.mem.range s.ch.cur 8)
    rw [hx, Mem.range_length] at this
    have e : (256 : Nat) ^ 8 = 2 ^ 64 := by decide
    omega
  unfold receive
  rw [if_neg hne, if_neg (by rw [h1, h2, h3, h4]; simp)]
  dsimp only
  rw [f20, f24, f8, f0, hopen, if_neg (Nat.not_lt.2 hfit), if_neg (by simp)]
  rw [store_back s.mem (s.mem.store buf pkt) s.ch.cur 24 _ (by simp) (by omega) (by
    intro i hi
    unfold Mem.store
    rw [if_neg (by omega)])]
  refine ⟨_, rfl, ?_, ?_, ?_, ?_, ?_, ?_, ?_, ?_⟩ <;> dsimp only
  · rw [(irq_rest _).1, goto_cur _ _ hlt]
  · rw [irq_idleRx, (goto_rest _ _).1]
    split
    · next ht => rw [setIdleRx_idle, decide_eq_true ht]
    · next ht => rw [h4, decide_eq_false ht]
  · rw [irq_ioc]
  · rw [(irq_rest _).2.2, (goto_rest _ _).2.2]; split
    · exact (setIdleRx_rest _ _).2.2
    · rfl
  · rw [(irq_rest _).2.1, (goto_rest _ _).2.1]; split
    · exact (setIdleRx_rest _ _).2.1
    · rfl

/-- The status word of a received packet: completed, start of frame, end of frame
and the length, nothing else. -/
theorem received_status (len : Nat) (h : len < 2 ^ 26) : rxDone len = 2 ^ 31 + 2 ^ 27 + 2 ^ 26 + len := by
  unfold rxDone
  rw [show 2 ^ 31 ||| 2 ^ 27 ||| 2 ^ 26 = 2 ^ 26 * 35 by decide, ← Nat.two_pow_add_eq_or_of_lt h]

example : rxDone 1514 = 0x8c0005ea := by decide

/-- Packets for a stopped, disabled or idle channel are dropped and change nothing. -/
theorem s2mm_dropped {s : Rx} {pkt : List Byte} (hne : pkt ≠ [])
    (h : s.ccr.getLsbD 0 = false ∨ s.chen = false ∨ s.ch.cr.getLsbD 0 = false ∨ s.ch.sr.getLsbD 1 = true) :
    receive s pkt = some (s, false) := by
  unfold receive
  rw [if_neg hne, if_pos]
  rcases h with h | h | h | h <;> rw [h] <;> simp only [Bool.not_false, Bool.true_or, Bool.or_true]

/-! ### Interrupts -/

/-- The interrupt status has exactly the bits of the channels with an enabled
interrupt pending. -/
theorem intr_exact (ch : Nat → Ch) (old : BitVec 32) (n : Nat) (hn : n ≤ 32) (c : Nat) :
    (intrStatus ch old n).getLsbD c =
      if c < n then decide ((ch c).sr &&& 0xe0#32 &&& ((ch c).cr &&& 0xe0#32) ≠ 0) else old.getLsbD c := by
  have one : ∀ (b : Bool) (i : Nat), (if b then 1#32 else 0#32).getLsbD i = (b && decide (i = 0)) := by
    intro b i; cases b
    · simp
    · simp
  induction n with
  | zero => simp [intrStatus]
  | succ n ih =>
    have ih := ih (by omega)
    have e : intrStatus ch old (n + 1) = (intrStatus ch old n &&& ~~~ (1#32 <<< n)) |||
      ((if decide ((ch n).sr &&& 0xe0#32 &&& ((ch n).cr &&& 0xe0#32) ≠ 0) then 1#32 else 0#32) <<< n) := rfl
    have p1 := one true (c - n)
    rw [if_pos rfl] at p1
    rw [e, BitVec.getLsbD_or, BitVec.getLsbD_and, BitVec.getLsbD_not, BitVec.getLsbD_shiftLeft,
      BitVec.getLsbD_shiftLeft, ih, one, p1]
    by_cases hc : c = n
    · subst hc
      rw [if_neg (Nat.lt_irrefl _), if_pos (Nat.lt_add_one _), Nat.sub_self]
      have : c < 32 := by omega
      generalize decide ((ch c).sr &&& 0xe0#32 &&& ((ch c).cr &&& 0xe0#32) ≠ 0) = q
      cases q <;> simp [this]
    · by_cases h2 : c < n
      · rw [if_pos h2, if_pos (show c < n + 1 by omega)]
        have h3 : c < 32 := by omega
        generalize decide ((ch c).sr &&& 0xe0#32 &&& ((ch c).cr &&& 0xe0#32) ≠ 0) = q
        simp [h2, h3]
      · rw [if_neg h2, if_neg (show ¬ c < n + 1 by omega)]
        have h4 : ¬ c - n = 0 := by omega
        by_cases h3 : c < 32
        · simp [h3, h4]
        · have := BitVec.getLsbD_of_ge old c (by omega)
          simp [h4, this]

/-! ### Findings -/

/-- FINDING. The length field allows 64 MiB but the buffer on the thread's stack has
128 KiB: every longer descriptor overruns it. -/
theorem long_descriptor_overruns {s : St} {c : Nat}
    (hopen : (leDec (s.mem.range ((s.ch c).cur + 28) 4)).testBit 31 = false)
    (h : 128 * 1024 < leDec (s.mem.range ((s.ch c).cur + 20) 4) % 2 ^ 26) : process s c = none := by
  unfold process
  dsimp only
  rw [range_field _ _ _ _ _ (by omega), range_field _ _ _ _ _ (by omega), hopen, if_neg (by simp),
    if_pos (by unfold bufSize; exact h)]

/-- FINDING. The completed length is or-ed into the status word: stale bits stay. -/
theorem stale_status_bits : (0x5 ||| 2 ^ 31 ||| 0x2 : Nat) % 2 ^ 26 = 7 := by decide

/-- FINDING. The tail register of the 16th channel starts nothing: the register range
tested ends with the 15th. -/
theorem channel16_never_starts (s : St) (v : BitVec 32) :
    writeTailMsb s .asleep 15 v = (s.setCh 15 { s.ch 15 with tailH := v }, .asleep) := by
  unfold writeTailMsb
  rw [if_neg (by simp)]

/-- Any other running channel is made ready and a sleeping thread is woken. -/
theorem tail_starts (s : St) (c : Nat) (v : BitVec 32) (hc : c < 15) (hr : (s.ch c).cr.getLsbD 0 = true) :
    (writeTailMsb s .asleep c v).2 = .scan 0 false ∧
    ((writeTailMsb s .asleep c v).1.ch c).sr.getLsbD 0 = false ∧
    ((writeTailMsb s .asleep c v).1.ch c).tailH = v := by
  unfold writeTailMsb
  rw [if_pos ⟨hc, hr⟩]
  refine ⟨rfl, ?_, ?_⟩
  · simp only [St.setCh, if_true]; exact setIdle_idle _ _
  · simp only [St.setCh, if_true, Ch.setIdle]

/-- Channel 0 idle, channel 1 at a completed descriptor at 0x200. -/
def lwSt : St :=
  { ccr := 1#32, chen := 3#32, mem := fun a => if a = 0x21f then 0x80#8 else 0#8, out := []
    ch := fun c => if c = 0 then ⟨1#32, 1#32, 0x100#32, 0#32, 0x100#32, 0#32⟩
      else ⟨1#32, 0#32, 0x200#32, 0#32, 0x200#32, 0#32⟩ }

/-- FINDING. Lost wake-up. Channel 1 is at a descriptor already completed; while the
thread waits for that descriptor to be loaded, software writes the tail of channel
0, which the thread has already passed. The notification finds nobody waiting, the
round ends without a running channel, and the thread sleeps although channel 0 is
active. -/
theorem lost_wakeup :
    ∃ (s s2 : St), move 2 s (.scan 0 false) = some (s, .scan 1 false) ∧
      move 2 s (.scan 1 false) = some (s, .loading 1 false) ∧
      (move 2 (writeTailMsb s (.loading 1 false) 0 0#32).1 (writeTailMsb s (.loading 1 false) 0 0#32).2) =
        some (s2, .scan 2 false) ∧
      move 2 s2 (.scan 2 false) = some (s2, .asleep) ∧
      active s2 0 = true := by
  refine ⟨lwSt, (lwSt.setCh 0 (((lwSt.setCh 0 { lwSt.ch 0 with tailH := 0#32 }).ch 0).setIdle false)).setCh 1
    ((lwSt.ch 1).setIdle true), ?_, ?_, ?_, ?_, ?_⟩
  · simp only [move]; rw [if_pos (by decide), if_neg (by decide)]
  · simp only [move]; rw [if_pos (by decide), if_pos (by decide)]
  · have hw : writeTailMsb lwSt (.loading 1 false) 0 0#32 =
        (lwSt.setCh 0 (((lwSt.setCh 0 { lwSt.ch 0 with tailH := 0#32 }).ch 0).setIdle false), .loading 1 false) := by
      unfold writeTailMsb
      rw [if_pos (by decide), if_neg (by decide)]
      congr 1
      unfold St.setCh
      dsimp only
      congr 1
      funext i
      split <;> rfl
    rw [hw]
    generalize hs1 : lwSt.setCh 0 (((lwSt.setCh 0 { lwSt.ch 0 with tailH := 0#32 }).ch 0).setIdle false) = s1
    have h1 : s1.ch 1 = lwSt.ch 1 := by rw [← hs1]; rfl
    have h2 : s1.mem = lwSt.mem := by rw [← hs1]; rfl
    simp only [move, process]
    rw [h1, h2, if_pos (by decide +kernel)]
    rfl
  · simp only [move]; rw [if_neg (by decide)]; rfl
  · decide +kernel

/-- A channel at a completed descriptor at 0x100 with a buffer at 0x1000. -/
def dpRx : Rx := ⟨1#32, true, ⟨1#32, 0#32, 0x100#32, 0#32, 0x100#32, 0#32⟩,
    fun a => if a = 0x109 then 0x10#8 else if a = 0x114 then 4#8 else if a = 0x11b then 0x80#8 else 0#8⟩

/-- FINDING. A packet that meets a completed descriptor is dropped, but only after its
bytes have been written over the buffer software is reading. -/
theorem dropped_packet_overwrites :
    ∃ (s s' : Rx), receive s [0xAA#8] = some (s', false) ∧ s.mem 0x1000 = 0#8 ∧ s'.mem 0x1000 = 0xAA#8 := by
  refine ⟨dpRx, { dpRx with ch := dpRx.ch.setIdleRx true, mem := dpRx.mem.store 0x1000 [0xAA#8] }, ?_, ?_, ?_⟩
  · have e : field (dpRx.mem.range dpRx.ch.cur 52) 8 8 = 0x1000 := by decide +kernel
    unfold receive
    rw [if_neg (by simp), if_neg (by decide)]
    dsimp only
    rw [if_neg (by decide +kernel), if_pos (by decide +kernel), e]
  · decide +kernel
  · decide +kernel

/-- FINDING. A packet longer than its descriptor fails an assertion. -/
theorem long_packet_asserts {s : Rx} {pkt : List Byte} (hne : pkt ≠ [])
    (h1 : s.ccr.getLsbD 0 = true) (h2 : s.chen = true) (h3 : s.ch.cr.getLsbD 0 = true) (h4 : s.ch.sr.getLsbD 1 = false)
    (h : leDec (s.mem.range (s.ch.cur + 20) 4) % 2 ^ 26 < pkt.length) : receive s pkt = none := by
  unfold receive
  rw [if_neg hne, h1, h2, h3, h4, if_neg (by simp)]
  dsimp only
  rw [range_field _ _ _ _ _ (by omega), if_pos h]

end Verif.Mcdma
