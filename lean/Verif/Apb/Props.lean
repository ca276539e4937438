import Verif.Apb.Model
/-!
C38: the APB bridge. The specification is the slave's side of the APB protocol: a
transfer happens at a rising edge with select, enable and ready
(`completed`), and is announced by a setup edge with select and without enable.
-/
namespace Verif.Apb
open Verif

/-- The transfers a slave performs: direction, address, write data. -/
def completed (es : List Edge) : List (Bool × Nat × Nat) :=
  (es.filter fun e => e.pins.psel && e.pins.penable && e.pready).map
    fun e => (e.pins.pwrite, e.pins.paddr, e.pins.pwdata)

theorem access_waits (cmd : Cmd) (pins : Pins) (h : pins.psel = true ∧ pins.penable = true)
    (fin : Sample) (hf : fin.pready = true) (rest : List Sample) : ∀ (ws : List Sample) (data : List Byte),
    (∀ s ∈ ws, s.pready = false) →
    accessPhase cmd pins data (ws ++ fin :: rest) =
      (List.replicate ws.length ⟨pins, false⟩ ++ [⟨pins, true⟩],
        { pins with psel := false, penable := false },
        .done .ok (if cmd = .read then leEnc 4 fin.prdata else data))
  | [], data, _ => by simp [accessPhase, hf]
  | w :: ws, data, hw => by
    have hp : { pins with psel := true, penable := true } = pins := by
      cases pins; simp_all
    have hw0 := hw w List.mem_cons_self
    simp only [List.cons_append, accessPhase, hw0, hp]
    rw [access_waits cmd pins h fin hf rest ws _ (fun s hs => hw s (List.mem_cons_of_mem _ hs))]
    simp only [List.length_cons, List.replicate_succ, List.cons_append]
    congr 3
    split <;> simp_all

/-- The protocol and the data of an accepted access, for every number of wait
states `ws` and whatever the slave drives meanwhile: setup edge(s) with select
and without enable, then the access phase with the same direction, address and
data until the slave is ready, then idle. Exactly one transfer is performed, and a
read returns what the slave drove with ready. `d` is the number of clock edges
that pass during the caller's time annotation. -/
theorem one_transfer {aw dw : Nat} {p : Pins} (hi : p.psel = false ∧ p.penable = false) {g : Gp}
    (hl : g.len = 4) (hs : 4 ≤ g.sw) (d : Nat) {ws : List Sample} (hw : ∀ s ∈ ws, s.pready = false)
    {fin : Sample} (hf : fin.pready = true) (rest : List Sample) :
    let r := transport aw dw p true g d (ws ++ fin :: rest)
    let pins : Pins := ⟨true, false, decide (g.cmd = .write), g.addr % 2 ^ aw,
      (if g.cmd = .write then leDec g.data else 0) % 2 ^ dw⟩
    r.1 = List.replicate (d + 1) ⟨pins, false⟩
        ++ List.replicate ws.length ⟨{ pins with penable := true }, false⟩
        ++ [⟨{ pins with penable := true }, true⟩] ∧
    r.2.1 = { pins with psel := false } ∧
    r.2.2 = .done .ok (if g.cmd = .read then leEnc 4 fin.prdata else g.data) ∧
    completed r.1 = [(pins.pwrite, pins.paddr, pins.pwdata)] := by
  have e : ∀ b : Bool, (if decide (g.cmd = .write) = true then leDec g.data else 0) =
      (if g.cmd = .write then leDec g.data else 0) := by intro b; simp
  have main : transport aw dw p true g d (ws ++ fin :: rest) =
      (List.replicate (d + 1) ⟨⟨true, false, decide (g.cmd = .write), g.addr % 2 ^ aw,
          (if g.cmd = .write then leDec g.data else 0) % 2 ^ dw⟩, false⟩
        ++ (List.replicate ws.length ⟨⟨true, true, decide (g.cmd = .write), g.addr % 2 ^ aw,
          (if g.cmd = .write then leDec g.data else 0) % 2 ^ dw⟩, false⟩
        ++ [⟨⟨true, true, decide (g.cmd = .write), g.addr % 2 ^ aw,
          (if g.cmd = .write then leDec g.data else 0) % 2 ^ dw⟩, true⟩]),
        ⟨false, false, decide (g.cmd = .write), g.addr % 2 ^ aw,
          (if g.cmd = .write then leDec g.data else 0) % 2 ^ dw⟩,
        .done .ok (if g.cmd = .read then leEnc 4 fin.prdata else g.data)) := by
    unfold transport
    simp only [Bool.not_true, Bool.false_eq_true, if_false]
    rw [if_neg (by omega), e true, hi.2,
      access_waits g.cmd _ ⟨rfl, rfl⟩ fin hf rest ws g.data hw]
  simp only [main]
  refine ⟨by simp [List.append_assoc], trivial, trivial, ?_⟩
  unfold completed
  rw [List.filter_append, List.filter_append, List.filter_eq_nil_iff.2, List.filter_eq_nil_iff.2]
  · simp
  · intro x hx; rw [List.eq_of_mem_replicate hx]; simp
  · intro x hx; rw [List.eq_of_mem_replicate hx]; simp

/-- While the slave is not ready the call does not return and nothing is
transferred. -/
theorem waits_for_ready {aw dw : Nat} {p : Pins} {g : Gp} (hl : g.len = 4) (hs : 4 ≤ g.sw) (d : Nat)
    {ws : List Sample} (hw : ∀ s ∈ ws, s.pready = false) :
    (transport aw dw p true g d ws).2.2 = .waiting ∧ completed (transport aw dw p true g d ws).1 = [] := by
  have key : ∀ (ws : List Sample) (pins : Pins) (data : List Byte), (∀ s ∈ ws, s.pready = false) →
      (accessPhase g.cmd pins data ws).2.2 = .waiting ∧
      ∀ e ∈ (accessPhase g.cmd pins data ws).1, e.pready = false := by
    intro ws
    induction ws with
    | nil => intro pins data _; exact ⟨rfl, fun e he => by simp [accessPhase] at he⟩
    | cons w ws ih =>
      intro pins data h
      have h0 := h w List.mem_cons_self
      have ih' := ih { pins with psel := true, penable := true }
        (if g.cmd = .read then leEnc 4 w.prdata else data) (fun s hs => h s (List.mem_cons_of_mem _ hs))
      simp only [accessPhase, h0, Bool.false_eq_true, if_false]
      refine ⟨ih'.1, ?_⟩
      intro e he
      simp only [List.mem_cons] at he
      rcases he with rfl | he
      · rfl
      · exact ih'.2 e he
  unfold transport
  simp only [Bool.not_true, Bool.false_eq_true, if_false]
  rw [if_neg (by omega)]
  refine ⟨(key _ _ _ hw).1, ?_⟩
  unfold completed
  rw [List.filter_eq_nil_iff.2]
  · rfl
  · intro e he
    simp only [List.mem_append] at he
    rcases he with he | he
    · rw [List.eq_of_mem_replicate he]; simp
    · rw [(key _ _ _ hw).2 e he]; simp

/-- Unsupported accesses are rejected: no clock edge, no signal change. -/
theorem rejected {aw dw : Nat} {p : Pins} {beNull : Bool} {g : Gp}
    (h : beNull = false ∨ g.len ≠ 4 ∨ g.sw < g.len) (d : Nat) (ss : List Sample) :
    ∃ st, st.isError = true ∧ transport aw dw p beNull g d ss = ([], p, .done st g.data) := by
  unfold transport
  cases beNull with
  | false => exact ⟨.byteEnable, rfl, rfl⟩
  | true =>
    have h' : g.len ≠ 4 ∨ g.sw < g.len := by simpa using h
    refine ⟨.burst, rfl, ?_⟩
    simp only [Bool.not_true, Bool.false_eq_true, if_false]
    rw [if_pos h']

/-- A 32-bit write survives on a bus of at least 32 bits. -/
theorem write_data {dw : Nat} (hd : 32 ≤ dw) {g : Gp} (hl : g.len = 4) :
    leEnc 4 (leDec g.data % 2 ^ dw) = g.data := by
  obtain ⟨c, a, data, be, sw⟩ := g
  simp only [Gp.len] at hl
  simp only
  match data, hl with
  | [x0, x1, x2, x3], _ =>
    have h0 := x0.isLt
    have h1 := x1.isLt
    have h2 := x2.isLt
    have h3 := x3.isLt
    have hp : (2 : Nat) ^ 32 ≤ 2 ^ dw := Nat.pow_le_pow_right (by omega) hd
    have hb : ∀ (n : Nat) (x : Byte), n % 256 = x.toNat → BitVec.ofNat 8 n = x := by
      intro n x h
      apply BitVec.eq_of_toNat_eq
      rw [BitVec.toNat_ofNat]
      exact h
    simp only [leDec]
    rw [Nat.mod_eq_of_lt (by omega)]
    simp only [leEnc]
    rw [hb _ x0 (by omega), hb _ x1 (by omega), hb _ x2 (by omega), hb _ x3 (by omega)]

/-- Three wait states; a read. -/
example : transport 32 32 idle true ⟨.read, 0x40, [0, 0, 0, 0], [], 4⟩ 0
      [⟨false, 1⟩, ⟨false, 2⟩, ⟨false, 3⟩, ⟨true, 0xAABBCCDD⟩] =
    ([⟨⟨true, false, false, 0x40, 0⟩, false⟩, ⟨⟨true, true, false, 0x40, 0⟩, false⟩,
      ⟨⟨true, true, false, 0x40, 0⟩, false⟩, ⟨⟨true, true, false, 0x40, 0⟩, false⟩,
      ⟨⟨true, true, false, 0x40, 0⟩, true⟩], ⟨false, false, false, 0x40, 0⟩,
      .done .ok [0xDD#8, 0xCC#8, 0xBB#8, 0xAA#8]) := by decide +kernel

/-- FINDING. The setup phase must last one clock; with a time annotation of some
clock periods on the call it lasts longer. -/
theorem long_setup :
    ((transport 32 32 idle true ⟨.write, 0x40, [1, 2, 3, 4], [], 4⟩ 2 [⟨true, 0⟩]).1.filter
      fun e => e.pins.psel && !e.pins.penable).length = 3 := by decide +kernel

/-- FINDING. An access that should be ignored performs a read transfer. -/
theorem ignore_reads :
    completed (transport 32 32 idle true ⟨.ignore, 0x40, [1, 2, 3, 4], [], 4⟩ 0 [⟨true, 0⟩]).1
      = [(false, 0x40, 0)] := by decide +kernel

/-- FINDING. On a bus narrower than 32 bits the upper bytes of a write are
dropped and the access still succeeds. -/
theorem narrow_bus_drops_bytes :
    ∃ es p, transport 32 16 idle true ⟨.write, 0x40, [1, 2, 3, 4], [], 4⟩ 0 [⟨true, 0⟩]
      = (es, p, .done .ok [1, 2, 3, 4]) ∧ completed es = [(true, 0x40, 0x0201)] :=
  ⟨_, _, rfl, by decide +kernel⟩

end Verif.Apb
