import Verif.AceHw.Faults
import Verif.Aligner.Aligned

/-! # C65: the bridge with its aligner

The bridge is built with a `tlm_aligner` in front of it by default
(tlm2ace-hw-bridge.h 1154-1176). -/

namespace Verif.AceHw
open Verif Verif.Axi
open Verif.HwMaster (statusOf)

/-- The aligner's parameters (1155-1160): pieces of at most 256 bus words, inside 4 KB
pages, naturally aligned. -/
def alignerOf (db : Nat) : Aligner.Cfg := { busWidth := 8 * db, maxLen := 256 * (8 * db) / 8, boundary := 4 * 1024, natural := true, validator := none }

/-- `b_transport` as the aligner's target.  The reported error is not an outcome of
TLM; it is given the state and status of a refused access here (the theorem below
never gets there). -/
def target (db : Nat) (h : Hw HwMaster.Slave) (at' : Attr) : Aligner.Target (HwMaster.Slave × Bufs) := fun g s =>
  match bridge ⟨db⟩ h false 0 at' g s with
  | some r => r
  | none => (s, g.data, .generic)

/-- `b_transport_proxy` (630-633). -/
def transport (db : Nat) (h : Hw HwMaster.Slave) (at' : Attr) (g : Gp) (s : HwMaster.Slave × Bufs) (st : Status) :
    Option ((HwMaster.Slave × Bufs) × List Byte × Status) :=
  Aligner.transport (alignerOf db) (target db h at') g s st

/-- What holds between the bridge with a memory behind it and the memory. -/
structure Rel (db : Nat) (wr : Bool) (s : HwMaster.Slave × Bufs) (m : Mem) : Prop where
  mem : s.1.mem = some m
  legal : ∀ e ∈ s.1.log, HwSlave.Legal db e.1 ∧ e.2 = wr

theorem target_of {db : Nat} {h : Hw HwMaster.Slave} {at' : Attr} {g : Gp} {s : HwMaster.Slave × Bufs} {sl : HwMaster.Slave} {d : List Byte} {st : Status}
    (hb : (bridge ⟨db⟩ h false 0 at' g s).map (fun r => (r.1.1, r.2.1, r.2.2)) = some (sl, d, st)) :
    (target db h at' g s).1.1 = sl ∧ (target db h at' g s).2 = (d, st) := by
  unfold target
  cases e : bridge ⟨db⟩ h false 0 at' g s with
  | none => rw [e] at hb; cases hb
  | some r =>
    rw [e, Option.map_some] at hb
    injection hb with hb
    injection hb with h1 h2
    injection h2 with h2 h3
    exact ⟨h1, Prod.ext h2 h3⟩

/-- **C65, through the aligner.** Every read or write of whole bus words from a
bus-aligned address — of any length, counting up or starting again after any number
of whole bus words, writes with any byte enables — does to the memory behind the
hardware and to the caller's buffer exactly what it means and is answered OK; every
burst it takes is legal, and none breaks the protocol.  Missing: other addresses and
lengths, byte enables of reads, and streaming width 0. -/
theorem access_through_aligner_partial (j db : Nat) (hdb : db = 2 ^ j) (hbus : Bus db) (at' : Attr) (junk : Nat → Nat → Byte) (alloc : Nat → Nat)
    (resp : Nat → AxiResp.Resp) (hresp : ∀ k, resp k = .okay ∨ resp k = .exokay) (g : Gp) (hcmd : g.cmd ≠ .ignore)
    (hg : Aligner.Whole j g) (hbe : g.cmd = .read → g.be = []) (hfit : g.addr + g.len ≤ 2 ^ 64) (m : Mem) (b : Bufs) (st : Status) :
    ∃ log b', transport db (hw db junk alloc resp) at' g (⟨some m, []⟩, b) st = some ((⟨some (g.run m).1, log⟩, b'), (g.run m).2, .ok) ∧
      ∀ e ∈ log, HwSlave.Legal db e.1 ∧ e.2 = decide (g.cmd = .write) := by
  have hp : 0 < db := by rcases hbus with h | h | h <;> omega
  have hml : (alignerOf db).maxLen = 256 * db := by
    show 256 * (8 * db) / 8 = _
    omega
  have hok : Aligner.Cfg.Ok (alignerOf db) := ⟨by rw [hml]; omega, by show 0 < 4 * 1024; decide, by show 8 ≤ 8 * db; omega⟩
  have hfor : Aligner.ForBus (alignerOf db) j := by
    refine ⟨?_, ?_, ?_, ?_, rfl⟩
    · show 8 * db / 8 = 2 ^ j
      omega
    · rw [hml, ← hdb]; exact Nat.mul_mod_left _ _
    · show 4 * 1024 % 2 ^ j = 0
      rw [← hdb]
      rcases hbus with h | h | h <;> subst h <;> decide
    · rw [hml]
      rcases hbus with h | h | h <;> subst h <;> decide
  obtain ⟨s', t', r, h1, h2, h3⟩ := Aligner.transport_whole (alignerOf db) hok j hfor g hg hfit
    (Rel db (decide (g.cmd = .write))) (target db (hw db junk alloc resp) at') Aligner.memT
    (by
      intro x s m hx hsw ha hl hxbe hxc hxe hR
      rw [← hdb] at ha hl
      have hf : Fits db x := ⟨by rw [hxc]; exact hcmd, hx.nonempty, ha, Or.inl hl, by rw [← hml]; exact hx.maxLen, Or.inl hsw, by
        intro hr i _
        rw [hxbe (hbe (by rw [← hxc]; exact hr))]
        exact HwMaster.beEnabled_nil i⟩
      obtain ⟨⟨mem, L⟩, bb⟩ := s
      have hmem : mem = some m := hR.mem
      subst hmem
      obtain ⟨e1, e2⟩ := target_of (access_right_partial db hbus 0 (Or.inl rfl) at' junk alloc resp x hf m L bb)
      have hst : statusOf (resp L.length) = .ok := by rcases hresp L.length with h | h <;> rw [h] <;> rfl
      rw [hst] at e2
      have hx0 := hx.nonempty
      refine ⟨⟨by rw [e1]; rfl, ?_⟩, by rw [e2]; rfl, ?_⟩
      · rw [e1]
        intro e he
        rcases List.mem_append.mp he with h | h
        · exact hR.legal e h
        · simp only [List.mem_singleton] at h
          subst h
          refine ⟨burst_legal_partial db hbus x hf ?_ (fun h => absurd hsw h), by rw [hxc]⟩
          intro _
          have hbd : (x.addr + (x.len - 1)) / 4096 = x.addr / 4096 := hx.boundary
          rw [← hbd, Nat.add_sub_assoc hx0]
      · show (x.run m).2.length = x.len
        unfold Gp.run
        split <;> simp [Gp.len])
    (⟨some m, []⟩, b) m st ⟨rfl, by intro e he; cases he⟩
  rw [Aligner.aligner_transparent (alignerOf db) hok g _ st hg.nonempty hfit] at h2
  cases h2
  obtain ⟨⟨mem', log'⟩, b'⟩ := s'
  have hm := h3.mem
  simp only at hm
  subst hm
  exact ⟨log', b', h1, h3.legal⟩

/-- The hypotheses hold for a write across a page, and it is made of two bursts. -/
example : let g : Gp := { cmd := .write, addr := 4088, data := List.replicate 40 1, be := [true, false, true], sw := 40 }
    g.cmd ≠ .ignore ∧ Aligner.Whole 3 g ∧ g.addr + g.len ≤ 2 ^ 64 ∧
    (transport 8 (hw0 8) ⟨0, 0, 0, 0, 0, 0, 0, 0, 0⟩ g (⟨some fun _ => 0, []⟩, ⟨fun _ => 0, fun _ => 0, fun _ => 0⟩) .incomplete).map
      (fun r => r.1.1.log.map fun e => (e.1.addr, e.1.beats)) = some [(4088, 1), (4096, 4)] := by
  refine ⟨by decide, ⟨by decide, by decide, by decide, by decide, by decide⟩, by decide, by decide +kernel⟩

/-- The aligner does not help where it leaves a piece that is not whole bus words: 24
bytes at address 0 are one naturally aligned piece, and four bytes at address 4 are
another. Streaming width 0, which means the length, is refused. -/
theorem aligner_does_not_help :
    (transport 16 (hw0 16) ⟨0, 0, 0, 0, 0, 0, 0, 0, 0⟩ { cmd := .write, addr := 0, data := List.replicate 24 1, sw := 24 }
      (⟨some fun _ => 0, []⟩, ⟨fun _ => 0, fun _ => 0, fun _ => 0⟩) .incomplete).map
      (fun r => (r.1.1.mem.map fun m => (m 15, m 16), r.2.2)) = some (some (1, 0), .ok) ∧
    (transport 8 (hw0 8) ⟨0, 0, 0, 0, 0, 0, 0, 0, 0⟩ { cmd := .write, addr := 4, data := [1, 2, 3, 4], sw := 4 }
      (⟨some fun _ => 0, []⟩, ⟨fun _ => 0, fun _ => 0, fun _ => 0⟩) .incomplete).map
      (fun r => (r.1.1.mem.isSome, r.2.2)) = some (false, .ok) ∧
    (transport 8 (hw0 8) ⟨0, 0, 0, 0, 0, 0, 0, 0, 0⟩ { cmd := .write, addr := 0, data := List.replicate 8 1, sw := 0 }
      (⟨some fun _ => 0, []⟩, ⟨fun _ => 0, fun _ => 0, fun _ => 0⟩) .incomplete).map
      (fun r => r.2.2) = some .generic := by
  refine ⟨?_, ?_, ?_⟩ <;> decide +kernel

end Verif.AceHw
