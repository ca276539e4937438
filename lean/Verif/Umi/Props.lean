import Verif.Umi.Model

/-! # C41: UMI bridges -/

namespace Verif.Umi
open Verif

/-! ## Specification -/

/-- Messages `(address, byte count)` that cover memory from `a` upwards without gap
or overlap. -/
def Consecutive : Nat → List (Nat × Nat) → Prop
  | _, [] => True
  | a, (b, n) :: l => b = a ∧ 0 < n ∧ Consecutive (a + n) l

/-- Number of bytes covered. -/
def total (l : List (Nat × Nat)) : Nat := (l.map (·.2)).sum

theorem Consecutive.snoc {l : List (Nat × Nat)} : ∀ {a b n : Nat}, Consecutive a l → b = a + total l → 0 < n →
    Consecutive a (l ++ [(b, n)]) := by
  induction l with
  | nil => intro a b n _ hb hn; exact ⟨by simpa [total] using hb, hn, trivial⟩
  | cons x l ih =>
    intro a b n h hb hn
    obtain ⟨x1, x2⟩ := x
    refine ⟨h.1, h.2.1, ih h.2.2 ?_ hn⟩
    rw [hb]; simp [total]; omega

theorem total_snoc (l : List (Nat × Nat)) (b n : Nat) : total (l ++ [(b, n)]) = total l + n := by
  simp [total]

/-! ## Byte counts -/

/-- **C41 (byte counts).** The byte count of an access of at least one byte survives
the size and length fields. -/
theorem count_roundtrip (lw t : Nat) (h0 : 0 < t) (h : t ≤ 2 ^ lw) : ((encLen lw t).2 + 1) <<< (encLen lw t).1 = t := by
  unfold encLen
  by_cases h1 : t = 2
  · subst h1; rfl
  rw [if_neg h1]
  by_cases h2 : t = 4
  · subst h2; rfl
  rw [if_neg h2]
  by_cases h3 : t = 8
  · subst h3; rfl
  rw [if_neg h3]
  by_cases h4 : t = 16
  · subst h4; rfl
  rw [if_neg h4]
  by_cases h5 : t = 32
  · subst h5; rfl
  rw [if_neg h5]
  by_cases h6 : t = 64
  · subst h6; rfl
  rw [if_neg h6]
  by_cases h7 : t = 128
  · subst h7; rfl
  rw [if_neg h7, Nat.shiftLeft_zero, show t + 2 ^ lw - 1 = (t - 1) + 2 ^ lw by omega, Nat.add_mod_right,
    Nat.mod_eq_of_lt (by omega)]
  omega

example : (encLen 8 256, encLen 8 64, encLen 8 3) = ((0, 255), (6, 0), (0, 2)) := by decide

/-- **C41 is violated for empty accesses**: an access of length 0 asks for as many
bytes as the length field can express. -/
theorem empty_access_asks_for_bytes (lw : Nat) (bw : Nat) (m : Mst) (h : m.buf = []) :
    nbytes (m.req bw lw) = 2 ^ lw := by
  have : m.tlen bw = 0 := by simp [Mst.tlen, h]
  have hp := Nat.two_pow_pos lw
  simp only [nbytes, Mst.req, this]
  simp [encLen]
  omega

/-! ## The master bridge against any slave -/

/-- What a slave may do at an edge: `req_ready`, `resp_valid` and the lanes. -/
abbrev MIn := Bool × Bool × List Byte

/-- A run of the master bridge; also the requests handed over (`req_valid` and
`req_ready`) and the lanes of the responses it took. -/
def mrun (bw lw : Nat) : Mst × List Msg × List (List Byte) → List MIn → Mst × List Msg × List (List Byte)
  | s, [] => s
  | (m, rq, rs), (rdy, vld, lanes) :: l =>
    mrun bw lw
      (mstep bw m rdy vld lanes,
       if m.reqValid && rdy then rq ++ [m.req bw lw] else rq,
       if m.phase == .wait && vld then rs ++ [lanes.take (m.tlen bw)] else rs) l

/-- The state of a fresh `b_transport` call. -/
def Mst.call (isWrite : Bool) (addr src : Nat) (buf : List Byte) : Mst :=
  { isWrite, addr, src, buf, pos := 0, phase := .start }

def covers (rq : List Msg) : List (Nat × Nat) := rq.map fun r => (r.dst, nbytes r)

structure MInv (bw lw : Nat) (m0 m : Mst) (rq : List Msg) (rs : List (List Byte)) : Prop where
  same : m.isWrite = m0.isWrite ∧ m.addr = m0.addr ∧ m.src = m0.src ∧ m.buf.length = m0.buf.length
  cons : Consecutive m0.addr (covers rq)
  tot : total (covers rq) = m.pos + (if m.phase = .wait then m.tlen bw else 0)
  opc : ∀ r ∈ rq, r.opc = if m0.isWrite then .reqWrite else .reqRead
  wr : m0.isWrite = true → m.buf = m0.buf ∧ (rq.map fun r => r.data.take (nbytes r)).flatten = m0.buf.take (total (covers rq))
  rd : m0.isWrite = false → m.buf = rs.flatten ++ m0.buf.drop m.pos ∧ rs.flatten.length = m.pos
  pos : m.pos ≤ m.buf.length
  live : m.phase = .start ∨ m.phase = .send ∨ m.phase = .wait → m.pos < m.buf.length
  fin : m.phase = .fin ∨ m.phase = .done → m.pos = m.buf.length

theorem req_nbytes {bw lw : Nat} (hb : 0 < bw) (hlw : bw ≤ 2 ^ lw) (m : Mst) (h : m.pos < m.buf.length) :
    nbytes (m.req bw lw) = m.tlen bw ∧ 0 < m.tlen bw ∧ m.tlen bw ≤ bw ∧ m.pos + m.tlen bw ≤ m.buf.length := by
  have h1 : 0 < m.tlen bw ∧ m.tlen bw ≤ bw ∧ m.pos + m.tlen bw ≤ m.buf.length := by unfold Mst.tlen; omega
  exact ⟨count_roundtrip lw (m.tlen bw) h1.1 (by omega), h1⟩

theorem fill_length {bw : Nat} (m : Mst) (lanes : List Byte) (hl : lanes.length = bw) (h : m.pos ≤ m.buf.length) :
    (m.fill bw lanes).length = m.buf.length := by
  unfold Mst.fill
  split
  · rfl
  · simp only [List.length_append, List.length_take, List.length_drop, hl, Mst.tlen]; omega

theorem minv_step {bw lw : Nat} (hb : 0 < bw) (hlw : bw ≤ 2 ^ lw) {m0 m : Mst} {rq : List Msg} {rs : List (List Byte)}
    (h : MInv bw lw m0 m rq rs) (rdy vld : Bool) (lanes : List Byte) (hl : lanes.length = bw) :
    MInv bw lw m0 (mstep bw m rdy vld lanes)
      (if m.reqValid && rdy then rq ++ [m.req bw lw] else rq)
      (if m.phase == .wait && vld then rs ++ [lanes.take (m.tlen bw)] else rs) := by
  obtain ⟨same, cons, tot, opc, wr, rd, pos, live, fin⟩ := h
  cases hp : m.phase with
  | start =>
    simp only [mstep, hp, Mst.reqValid]
    simp only [hp] at tot
    exact ⟨same, cons, tot, opc, wr, rd, pos, fun _ => live (.inl hp), fun h => by simp at h⟩
  | send =>
    have hlt := live (.inr (.inl hp))
    obtain ⟨n1, n2, n3, n4⟩ := req_nbytes hb hlw m hlt
    cases rdy with
    | false =>
      simp only [mstep, hp, Mst.reqValid]
      exact ⟨same, cons, by simpa [hp] using tot, opc, wr, rd, pos, fun _ => hlt, fun h => by simp [hp] at h⟩
    | true =>
      simp only [hp, reduceCtorEq, if_false, Nat.add_zero] at tot
      have ht : total (covers (rq ++ [m.req bw lw])) = m.pos + m.tlen bw := by
        rw [covers, List.map_append, List.map_cons, List.map_nil, total_snoc, ← covers, tot, n1]
      simp only [mstep, hp, Mst.reqValid, beq_self_eq_true, Bool.and_self, if_true]
      refine ⟨same, ?_, ht, ?_, ?_, rd, pos, fun _ => hlt, fun h => by simp at h⟩
      · rw [covers, List.map_append, List.map_cons, List.map_nil]
        refine cons.snoc ?_ (by omega)
        show m.addr + m.pos = _
        rw [same.2.1, tot]
      · intro r hr
        rcases List.mem_append.1 hr with hr | hr
        · exact opc r hr
        · simp only [List.mem_singleton] at hr
          subst hr; simp only [Mst.req, same.1]
      · intro hw
        obtain ⟨w1, w2⟩ := wr hw
        refine ⟨w1, ?_⟩
        rw [ht, List.map_append, List.flatten_append, w2, tot]
        simp only [List.map_cons, List.map_nil, List.flatten_cons, List.flatten_nil, List.append_nil, n1]
        have hd : (m.req bw lw).data = (m.buf.drop m.pos).take (m.tlen bw) ++ List.replicate (bw - m.tlen bw) 0 := by
          simp only [Mst.req, same.1, hw, if_true]
        rw [hd, List.take_append_of_le_length (by rw [List.length_take, List.length_drop]; omega), List.take_take,
          Nat.min_self, w1, ← List.take_add]
  | wait =>
    have hlt := live (.inr (.inr hp))
    obtain ⟨n1, n2, n3, n4⟩ := req_nbytes hb hlw m hlt
    cases vld with
    | false =>
      simp only [mstep, hp, Mst.reqValid]
      exact ⟨same, cons, by simpa [hp] using tot, opc, wr, rd, pos, fun _ => hlt, fun h => by simp [hp] at h⟩
    | true =>
      have hfl := fill_length (bw := bw) m lanes hl (by omega)
      have e0 : ∀ x : List Msg, (if ((MPhase.wait == MPhase.send) && rdy) = true then x else rq) = rq :=
        fun _ => if_neg (by simp)
      simp only [hp, if_true] at tot
      simp only [mstep, hp, Mst.reqValid, if_true, beq_self_eq_true, Bool.and_self]
      refine ⟨⟨same.1, same.2.1, same.2.2.1, by rw [hfl]; exact same.2.2.2⟩, by rw [e0]; exact cons, ?_, by rw [e0]; exact opc, ?_, ?_, ?_, ?_, ?_⟩
      · have hnw : (if m.pos + m.tlen bw < m.buf.length then MPhase.send else MPhase.fin) ≠ .wait := by
          split <;> simp
        rw [e0, tot, if_neg hnw]; rfl
      · intro hw
        rw [e0]
        refine ⟨?_, (wr hw).2⟩
        simp only [Mst.fill, same.1, hw, if_true]; exact (wr hw).1
      · intro hr
        obtain ⟨r1, r2⟩ := rd hr
        have hf : m.fill bw lanes = m.buf.take m.pos ++ lanes.take (m.tlen bw) ++ m.buf.drop (m.pos + m.tlen bw) := by
          simp only [Mst.fill, same.1, hr, Bool.false_eq_true, if_false]
        have e1 : m.buf.take m.pos = rs.flatten := by rw [r1, ← r2, List.take_left]
        have e2 : m.buf.drop (m.pos + m.tlen bw) = m0.buf.drop (m.pos + m.tlen bw) := by
          rw [r1, ← r2, ← List.drop_drop, List.drop_left, List.drop_drop]
        refine ⟨?_, ?_⟩
        · show m.fill bw lanes = _
          rw [hf, e1, e2]; simp
        · simp [r2, hl]; omega
      · show m.pos + m.tlen bw ≤ (m.fill bw lanes).length
        omega
      · intro h
        show m.pos + m.tlen bw < (m.fill bw lanes).length
        simp only at h
        split at h
        · omega
        · simp at h
      · intro h
        show m.pos + m.tlen bw = (m.fill bw lanes).length
        simp only at h
        split at h
        · simp at h
        · omega
  | fin =>
    simp only [mstep, hp, Mst.reqValid]
    simp only [hp] at tot
    exact ⟨same, cons, tot, opc, wr, rd, pos, fun h => by simp at h, fun _ => fin (.inl hp)⟩
  | done =>
    simp only [mstep, hp, Mst.reqValid]
    exact ⟨same, cons, by simpa [hp] using tot, opc, wr, rd, pos, fun h => by simp [hp] at h, fun _ => fin (.inr hp)⟩

theorem minv_run {bw lw : Nat} (hb : 0 < bw) (hlw : bw ≤ 2 ^ lw) (m0 : Mst) (l : List MIn)
    (hl : ∀ i ∈ l, i.2.2.length = bw) : ∀ (m : Mst) (rq : List Msg) (rs : List (List Byte)), MInv bw lw m0 m rq rs →
    MInv bw lw m0 (mrun bw lw (m, rq, rs) l).1 (mrun bw lw (m, rq, rs) l).2.1 (mrun bw lw (m, rq, rs) l).2.2 := by
  induction l with
  | nil => intro m rq rs h; exact h
  | cons i l ih =>
    intro m rq rs h
    obtain ⟨rdy, vld, lanes⟩ := i
    exact ih (fun j hj => hl j (List.mem_cons_of_mem _ hj)) _ _ _
      (minv_step hb hlw h rdy vld lanes (hl (rdy, vld, lanes) (by simp)))

/-- **C41 (requests).** Whatever the slave does, the requests handed over so far
cover the access from its start without gap or overlap, all with the right opcode;
write requests carry the access's bytes in order; when the access is done they
cover it exactly. -/
theorem requests_cover (bw lw : Nat) (hb : 0 < bw) (hlw : bw ≤ 2 ^ lw) (isWrite : Bool) (addr src : Nat)
    (buf : List Byte) (hne : buf ≠ []) (l : List MIn) (hl : ∀ i ∈ l, i.2.2.length = bw) :
    let r := mrun bw lw (Mst.call isWrite addr src buf, [], []) l
    Consecutive addr (covers r.2.1) ∧ total (covers r.2.1) ≤ buf.length ∧
    (∀ q ∈ r.2.1, q.opc = if isWrite then .reqWrite else .reqRead) ∧
    (isWrite = true → (r.2.1.map fun q => q.data.take (nbytes q)).flatten = buf.take (total (covers r.2.1))) ∧
    (r.1.phase = .done → total (covers r.2.1) = buf.length) := by
  have hpos : 0 < buf.length := List.length_pos_iff.2 hne
  have h0 : MInv bw lw (Mst.call isWrite addr src buf) (Mst.call isWrite addr src buf) [] [] :=
    ⟨⟨rfl, rfl, rfl, rfl⟩, trivial, rfl, by simp, fun _ => ⟨rfl, by simp [covers, total]⟩,
     fun _ => ⟨by simp [Mst.call], rfl⟩, Nat.zero_le _, fun _ => hpos, fun h => by simp [Mst.call] at h⟩
  have h := minv_run hb hlw _ l hl _ _ _ h0
  intro r
  change MInv bw lw _ r.1 r.2.1 r.2.2 at h
  have hlen : r.1.buf.length = buf.length := h.same.2.2.2
  refine ⟨h.cons, ?_, h.opc, fun hw => (h.wr hw).2, ?_⟩
  · rw [h.tot, ← hlen]
    split
    · next hp => exact (req_nbytes hb hlw r.1 (h.live (.inr (.inr hp)))).2.2.2
    · have := h.pos; omega
  · intro hd
    rw [h.tot, if_neg (by rw [hd]; simp), h.fin (.inr hd)]
    exact hlen

/-- **C41 (read data).** When a read is done, its buffer is the concatenation of
the bytes of the responses, in order; a write leaves its buffer alone. -/
theorem read_data (bw lw : Nat) (hb : 0 < bw) (hlw : bw ≤ 2 ^ lw) (isWrite : Bool) (addr src : Nat)
    (buf : List Byte) (hne : buf ≠ []) (l : List MIn) (hl : ∀ i ∈ l, i.2.2.length = bw)
    (hd : (mrun bw lw (Mst.call isWrite addr src buf, [], []) l).1.phase = .done) :
    let r := mrun bw lw (Mst.call isWrite addr src buf, [], []) l
    r.1.buf = if isWrite then buf else r.2.2.flatten := by
  have hpos : 0 < buf.length := List.length_pos_iff.2 hne
  have h0 : MInv bw lw (Mst.call isWrite addr src buf) (Mst.call isWrite addr src buf) [] [] :=
    ⟨⟨rfl, rfl, rfl, rfl⟩, trivial, rfl, by simp, fun _ => ⟨rfl, by simp [covers, total]⟩,
     fun _ => ⟨by simp [Mst.call], rfl⟩, Nat.zero_le _, fun _ => hpos, fun h => by simp [Mst.call] at h⟩
  have h := minv_run hb hlw _ l hl _ _ _ h0
  intro r
  change MInv bw lw _ r.1 r.2.1 r.2.2 at h
  change r.1.phase = .done at hd
  cases isWrite with
  | true => exact (h.wr rfl).1
  | false =>
    obtain ⟨r1, r2⟩ := h.rd rfl
    have hf : r.1.pos = buf.length := by rw [h.fin (.inr hd)]; exact h.same.2.2.2
    simp only [Bool.false_eq_true, if_false]
    rw [r1, hf]
    simp [Mst.call]

/-! ## The slave bridge against any master -/

/-- What the property asks of the responses to a read: they carry exactly the bytes
`d`, in order, one byte count per message, to consecutive addresses, and only the
last one ends the message. -/
structure RespSpec (bw sa da : Nat) (d : List Byte) (rs : List Msg) : Prop where
  data : (rs.map fun r => r.data.take (nbytes r)).flatten = d
  dst : Consecutive sa (rs.map fun r => (r.dst, nbytes r))
  src : Consecutive da (rs.map fun r => (r.src, nbytes r))
  opc : ∀ r ∈ rs, r.opc = .respRead ∧ nbytes r ≤ bw
  eom : rs.map (·.eom) = List.replicate (rs.length - 1) false ++ [true]

/-- **C41 (responses).** -/
theorem responses_cover (bw : Nat) (hb : 0 < bw) : ∀ (fuel sa da : Nat) (lanes d : List Byte), d ≠ [] →
    d.length ≤ fuel → RespSpec bw sa da d (readResps bw sa da lanes fuel d) := by
  intro fuel
  induction fuel with
  | zero => intro sa da lanes d hne hf; exact absurd (List.length_pos_iff.2 hne) (by omega)
  | succ fuel ih =>
    intro sa da lanes d hne hf
    have hpos : 0 < d.length := List.length_pos_iff.2 hne
    have hn : ∀ (o : Opc) (e : Bool) (s t : Nat) (x : List Byte),
        nbytes ⟨o, 0, min bw d.length - 1, e, s, t, x⟩ = min bw d.length := by
      intro o e s t x; unfold nbytes; simp only [Nat.shiftLeft_zero]; omega
    have ht : (d.take (min bw d.length) ++ lanes.drop (min bw d.length)).take (min bw d.length) = d.take (min bw d.length) := by
      rw [List.take_append_of_le_length (by rw [List.length_take]; omega), List.take_take, Nat.min_self]
    unfold readResps
    simp only []
    by_cases hlt : min bw d.length < d.length
    · rw [if_pos hlt]
      have hne' : d.drop (min bw d.length) ≠ [] := by
        intro e
        have := congrArg List.length e
        simp only [List.length_drop, List.length_nil] at this
        omega
      obtain ⟨h1, h2, h3, h4, h5⟩ := ih (sa + min bw d.length) (da + min bw d.length)
        (d.take (min bw d.length) ++ lanes.drop (min bw d.length)) (d.drop (min bw d.length)) hne'
        (by rw [List.length_drop]; omega)
      refine ⟨?_, ?_, ?_, ?_, ?_⟩
      · rw [List.map_cons, List.flatten_cons, h1, hn, ht, List.take_append_drop]
      · rw [List.map_cons, hn]
        exact ⟨rfl, by omega, h2⟩
      · rw [List.map_cons, hn]
        exact ⟨rfl, by omega, h3⟩
      · intro r hr
        rcases List.mem_cons.1 hr with rfl | hr
        · exact ⟨rfl, by rw [hn]; omega⟩
        · exact h4 r hr
      · rw [List.map_cons, h5, List.length_cons]
        have hl : 0 < (readResps bw (sa + min bw d.length) (da + min bw d.length)
            (d.take (min bw d.length) ++ lanes.drop (min bw d.length)) fuel (d.drop (min bw d.length))).length := by
          have := congrArg List.length h5
          simp only [List.length_map, List.length_append, List.length_replicate, List.length_singleton] at this
          omega
        generalize (readResps bw (sa + min bw d.length) (da + min bw d.length)
            (d.take (min bw d.length) ++ lanes.drop (min bw d.length)) fuel (d.drop (min bw d.length))).length = L at *
        rw [show L + 1 - 1 = (L - 1) + 1 by omega, List.replicate_succ]
        rw [show (d.length == min bw d.length) = false by simp; omega]
        rfl
    · rw [if_neg hlt]
      have hm : min bw d.length = d.length := by omega
      refine ⟨?_, ?_, ?_, ?_, ?_⟩
      · rw [List.map_cons, List.flatten_cons, hn, ht, hm]; simp
      · rw [List.map_cons, hn]
        exact ⟨rfl, by omega, trivial⟩
      · rw [List.map_cons, hn]
        exact ⟨rfl, by omega, trivial⟩
      · intro r hr
        rcases List.mem_cons.1 hr with rfl | hr
        · exact ⟨rfl, by rw [hn]; omega⟩
        · cases hr
      · simp [hm]

example : (readResps 4 0x100 0x2000 [0, 0, 0, 0] 6 [1, 2, 3, 4, 5, 6]).map (fun r => (r.dst, r.len, r.eom, r.data)) =
    [(0x100, 3, false, [1, 2, 3, 4]), (0x104, 1, true, [5, 6, 3, 4])] := by decide

/-- An edge seen by the slave bridge: request on the wires, `resp_ready`, duration
of an access started here. -/
abbrev SIn := Option Msg × Bool × Nat

/-- A run of the slave bridge, with the requests it handled together with their
responses, and the responses taken by the master. -/
def srun {σ : Type} (T : Target σ) (bw : Nat) :
    Sst σ × List (Msg × List Msg) × List Msg → List SIn → Sst σ × List (Msg × List Msg) × List Msg
  | s, [] => s
  | (s, hs, ts), (req, rdy, k) :: l =>
    srun T bw
      (sstep T bw s req rdy k,
       (match s.phase, req with
        | .idle, some r => (match handle T bw s r with
          | some (_, rs) => hs ++ [(r, rs)]
          | none => hs)
        | _, _ => hs),
       (match s.phase with
        | .resp r _ => if rdy then ts ++ [r] else ts
        | _ => ts)) l

/-- Responses not yet taken. -/
def SPhase.pending : SPhase → List Msg
  | .target _ rs | .hold rs | .gap rs => rs
  | .resp r rs => r :: rs
  | _ => []

theorem next_pending (rs : List Msg) : (next rs).pending = rs := by cases rs <;> rfl

/-- **C41 (response order).** For any traffic, the responses taken so far and those
still to come are exactly the responses to the requests handled, in order. -/
theorem responses_exact {σ : Type} (T : Target σ) (bw : Nat) (l : List SIn) (s : Sst σ) (hi : s.phase = .idle)
    (hf : (srun T bw (s, [], []) l).1.phase ≠ .fault) :
    let r := srun T bw (s, [], []) l
    r.2.2 ++ r.1.phase.pending = (r.2.1.map (·.2)).flatten := by
  have key : ∀ (l : List SIn) (s : Sst σ) (hs : List (Msg × List Msg)) (ts : List Msg),
      (srun T bw (s, hs, ts) l).1.phase ≠ .fault → ts ++ s.phase.pending = (hs.map (·.2)).flatten →
      (srun T bw (s, hs, ts) l).2.2 ++ (srun T bw (s, hs, ts) l).1.phase.pending =
        ((srun T bw (s, hs, ts) l).2.1.map (·.2)).flatten := by
    intro l
    induction l with
    | nil => intro s hs ts _ h; exact h
    | cons i l ih =>
      intro s hs ts hnf h
      obtain ⟨req, rdy, k⟩ := i
      simp only [srun] at hnf ⊢
      refine ih _ _ _ hnf ?_
      have stuck : ∀ (l : List SIn) (s : Sst σ) (hs : List (Msg × List Msg)) (ts : List Msg), s.phase = .fault →
          (srun T bw (s, hs, ts) l).1.phase = .fault := by
        intro l
        induction l with
        | nil => intro s hs ts h; exact h
        | cons i l ih =>
          intro s hs ts h
          obtain ⟨req, rdy, k⟩ := i
          simp only [srun]
          exact ih _ _ _ (by simp [sstep, h])
      cases hp : s.phase with
      | idle =>
        rw [hp] at h
        cases req with
        | none => simpa [sstep, hp] using h
        | some r =>
          cases hh : handle T bw s r with
          | none =>
            exfalso
            simp only [hp, hh] at hnf
            exact hnf (stuck l _ _ _ (by simp [sstep, hp, hh]))
          | some x =>
            obtain ⟨s', rs⟩ := x
            simp only [sstep, hp, hh]
            simp only [SPhase.pending, List.append_nil] at h
            have : (if k = 0 then SPhase.hold rs else .target k rs).pending = rs := by split <;> rfl
            rw [this, List.map_append, List.flatten_append, h]; simp
      | target k' rs =>
        rw [hp] at h
        simp only [sstep, hp]
        have : (if k' ≤ 1 then SPhase.hold rs else .target (k' - 1) rs).pending = rs := by split <;> rfl
        rw [this]; exact h
      | hold rs =>
        rw [hp] at h
        simp only [sstep, hp, next_pending]; exact h
      | resp r rs =>
        rw [hp] at h
        cases rdy with
        | true => simpa [sstep, hp, SPhase.pending] using h
        | false => simpa [sstep, hp] using h
      | gap rs =>
        rw [hp] at h
        simp only [sstep, hp, next_pending]; exact h
      | fault =>
        exfalso
        exact hnf (stuck l _ _ _ (by simp [sstep, hp]))
  exact key l s [] [] hf (by simp [hi, SPhase.pending])

/-- The memory target. -/
def memT : Target Mem := fun g m => g.run m

/-- **C41 is violated for masters that send requests back to back**: `req_ready`
stays high while the target is busy, and a request handed over meanwhile is lost. -/
theorem request_lost_while_target_busy :
    ∃ (s : Sst Mem) (r1 r2 : Msg) (l : List SIn), s.phase = .idle ∧
      -- at both of the first two edges the bridge signals that it accepts the request
      s.reqReady = true ∧ (sstep memT 8 s (some r1) true 5).reqReady = true ∧
      l.take 2 = [(some r1, true, 5), (some r2, true, 0)] ∧ r1 ≠ r2 ∧
      (srun memT 8 (s, [], []) l).1.phase = .idle ∧
      ((srun memT 8 (s, [], []) l).2.1.map (·.1)) = [r1] := by
  refine ⟨⟨.idle, List.replicate 1024 0, fun _ => 0⟩, ⟨.reqWrite, 3, 0, false, 0, 0x100, List.replicate 8 1⟩,
    ⟨.reqWrite, 3, 0, false, 0, 0x108, List.replicate 8 2⟩,
    (some ⟨.reqWrite, 3, 0, false, 0, 0x100, List.replicate 8 1⟩, true, 5) ::
    (some ⟨.reqWrite, 3, 0, false, 0, 0x108, List.replicate 8 2⟩, true, 0) :: List.replicate 9 (none, true, 0),
    rfl, rfl, ?_, rfl, ?_, ?_, ?_⟩ <;> decide +kernel

/-- A write request with more bytes than data lanes stops the bridge; so does
anything over 1024 bytes. -/
theorem wide_write_faults {σ : Type} (T : Target σ) (bw : Nat) (s : Sst σ) (r : Msg) (k : Nat) (rdy : Bool)
    (hi : s.phase = .idle) (hw : r.opc = .reqWrite ∨ r.opc = .reqPosted) (hn : bw < nbytes r) :
    (sstep T bw s (some r) rdy k).phase = .fault := by
  have : handle T bw s r = none := by
    unfold handle
    rcases hw with h | h <;> simp [h, hn]
  simp [sstep, hi, this]

/-- The master id the target sees is the issuer's plus the offset inside the
access. -/
theorem master_id_shifts (bw lw : Nat) (m : Mst) : (m.req bw lw).src = m.src + m.pos := rfl

/-! ## Both bridges -/

/-- `n` edges; `ks i` is the duration of a target access starting at edge `i`. -/
def edges (bw lw : Nat) : Nat → (Nat → Nat) → Mst × Sst Mem → Mst × Sst Mem
  | 0, _, ms => ms
  | n + 1, ks, ms => edges bw lw n (fun i => ks (i + 1)) (sysStep memT bw lw ms (ks 0))

/-- However long the target takes each time, a state satisfying `P` is reached. -/
def Leads (bw lw : Nat) (ms : Mst × Sst Mem) (P : Mst × Sst Mem → Prop) : Prop :=
  ∀ ks, ∃ n, P (edges bw lw n ks ms)

theorem Leads.step {bw lw : Nat} {ms : Mst × Sst Mem} {P : Mst × Sst Mem → Prop}
    (h : ∀ k, Leads bw lw (sysStep memT bw lw ms k) P) : Leads bw lw ms P := by
  intro ks
  obtain ⟨n, hn⟩ := h (ks 0) (fun i => ks (i + 1))
  exact ⟨n + 1, hn⟩

theorem Leads.now {bw lw : Nat} {ms : Mst × Sst Mem} {P : Mst × Sst Mem → Prop} (h : P ms) : Leads bw lw ms P :=
  fun _ => ⟨0, h⟩

theorem Leads.target {bw lw : Nat} {m : Mst} (hm : m.phase = .wait) (rs : List Msg) (data : List Byte) (t : Mem)
    {P : Mst × Sst Mem → Prop} (h : Leads bw lw (m, ⟨.hold rs, data, t⟩) P) :
    ∀ k, Leads bw lw (m, ⟨.target k rs, data, t⟩) P := by
  intro k
  induction k with
  | zero =>
    refine Leads.step fun k => ?_
    rw [show sysStep memT bw lw (m, ⟨.target 0 rs, data, t⟩) k = (m, ⟨.hold rs, data, t⟩) by
      simp [sysStep, mstep, hm, sstep, Sst.resp]]
    exact h
  | succ j ih =>
    refine Leads.step fun k => ?_
    rw [show sysStep memT bw lw (m, ⟨.target (j + 1) rs, data, t⟩) k =
        (m, ⟨if j + 1 ≤ 1 then .hold rs else .target j rs, data, t⟩) by
      simp [sysStep, mstep, hm, sstep, Sst.resp]]
    split
    · exact h
    · exact ih

/-- One message: request, access, response. -/
theorem chunk {bw lw : Nat} (hb : 0 < bw) (hlw : bw ≤ 2 ^ lw) (h1024 : bw ≤ 1024) (m : Mst) (hm : m.phase = .send)
    (hlt : m.pos < m.buf.length) (data : List Byte) (hd : data.length = 1024) (t : Mem) {P : Mst × Sst Mem → Prop}
    (h : ∀ data' : List Byte, data'.length = 1024 →
      Leads bw lw ({ m with
          buf := if m.isWrite then m.buf else m.buf.take m.pos ++ t.range (m.addr + m.pos) (m.tlen bw) ++ m.buf.drop (m.pos + m.tlen bw),
          pos := m.pos + m.tlen bw,
          phase := if m.pos + m.tlen bw < m.buf.length then .send else .fin },
        ⟨.gap [], data', if m.isWrite then t.store (m.addr + m.pos) ((m.buf.drop m.pos).take (m.tlen bw)) else t⟩) P) :
    Leads bw lw (m, ⟨.idle, data, t⟩) P := by
  obtain ⟨n1, n2, n3, n4⟩ := req_nbytes hb hlw m hlt
  have hopc : (m.req bw lw).opc = if m.isWrite then .reqWrite else .reqRead := rfl
  have hdst : (m.req bw lw).dst = m.addr + m.pos := rfl
  -- what the slave does with the request
  have hh : ∃ data' r, data'.length = 1024 ∧
      handle memT bw ⟨.idle, data, t⟩ (m.req bw lw) = some (⟨.idle, data',
        if m.isWrite then t.store (m.addr + m.pos) ((m.buf.drop m.pos).take (m.tlen bw)) else t⟩, [r]) ∧
      (m.isWrite = false → r.data.take (m.tlen bw) = t.range (m.addr + m.pos) (m.tlen bw)) := by
    cases hw : m.isWrite with
    | true =>
      have hdat : (m.req bw lw).data.take (m.tlen bw) = (m.buf.drop m.pos).take (m.tlen bw) := by
        simp only [Mst.req, hw, if_true]
        rw [List.take_append_of_le_length (by rw [List.length_take, List.length_drop]; omega), List.take_take, Nat.min_self]
      have hl : ((m.buf.drop m.pos).take (m.tlen bw)).length = m.tlen bw := by
        rw [List.length_take, List.length_drop]; omega
      refine ⟨(m.buf.drop m.pos).take (m.tlen bw) ++ data.drop (m.tlen bw),
        { m.req bw lw with opc := .respWrite, eom := true, src := (m.req bw lw).dst, dst := (m.req bw lw).src }, ?_, ?_, by simp⟩
      · rw [List.length_append, hl, List.length_drop]; omega
      · have hrun : memT ⟨.write, m.addr + m.pos, (m.buf.drop m.pos).take (m.tlen bw), [], m.tlen bw⟩ t =
            (t.store (m.addr + m.pos) ((m.buf.drop m.pos).take (m.tlen bw)), (m.buf.drop m.pos).take (m.tlen bw)) := by
          have := Gp.run_write t (m.addr + m.pos) ((m.buf.drop m.pos).take (m.tlen bw))
          rwa [hl] at this
        simp only [handle, hopc, hw, if_true, n1, hdst, hdat, hrun]
        simp only [reduceCtorEq, or_self, if_false]
        rw [if_neg (by omega), if_neg (by omega)]
    | false =>
      have hl : (data.take (m.tlen bw)).length = m.tlen bw := by rw [List.length_take]; omega
      have hrun : memT ⟨.read, m.addr + m.pos, data.take (m.tlen bw), [], m.tlen bw⟩ t =
          (t, t.range (m.addr + m.pos) (m.tlen bw)) := by
        have := Gp.run_read t (m.addr + m.pos) (data.take (m.tlen bw))
        rwa [hl] at this
      obtain ⟨k, hk⟩ : ∃ k, m.tlen bw = k + 1 := ⟨m.tlen bw - 1, by omega⟩
      have hr : ∃ r, readResps bw (m.req bw lw).src (m.addr + m.pos) (m.req bw lw).data (m.tlen bw)
          (t.range (m.addr + m.pos) (m.tlen bw)) = [r] ∧
          r.data.take (m.tlen bw) = t.range (m.addr + m.pos) (m.tlen bw) := by
        have hmin : min bw (t.range (m.addr + m.pos) (m.tlen bw)).length = m.tlen bw := by
          rw [Mem.range_length]; omega
        generalize hR : t.range (m.addr + m.pos) (m.tlen bw) = R at *
        have hRl : R.length = m.tlen bw := by rw [← hR, Mem.range_length]
        rw [show readResps bw (m.req bw lw).src (m.addr + m.pos) (m.req bw lw).data (m.tlen bw) R =
          readResps bw (m.req bw lw).src (m.addr + m.pos) (m.req bw lw).data (k + 1) R by rw [← hk]]
        simp only [readResps, hmin]
        rw [if_neg (by omega)]
        refine ⟨_, rfl, ?_⟩
        simp only []
        rw [List.take_append_of_le_length (by rw [List.length_take]; omega), List.take_take, Nat.min_self,
          List.take_of_length_le (by omega)]
      obtain ⟨r, hr1, hr2⟩ := hr
      refine ⟨t.range (m.addr + m.pos) (m.tlen bw) ++ data.drop (m.tlen bw), r, ?_, ?_, fun _ => hr2⟩
      · rw [List.length_append, Mem.range_length, List.length_drop]; omega
      · simp only [handle, hopc, hw, Bool.false_eq_true, if_false, n1, hdst, hrun]
        simp only [reduceCtorEq, or_self, if_false, if_true]
        rw [if_neg (by omega), hr1]
  obtain ⟨data', r, hd', hh, hr⟩ := hh
  generalize ht' : (if m.isWrite then t.store (m.addr + m.pos) ((m.buf.drop m.pos).take (m.tlen bw)) else t) = t' at *
  -- the edges after acceptance
  have hrest : Leads bw lw ({ m with phase := .wait }, ⟨.hold [r], data', t'⟩) P := by
    refine Leads.step fun k => ?_
    rw [show sysStep memT bw lw ({ m with phase := .wait }, ⟨.hold [r], data', t'⟩) k =
        ({ m with phase := .wait }, ⟨.resp r [], data', t'⟩) by
      simp [sysStep, mstep, sstep, Sst.resp, next]]
    refine Leads.step fun k => ?_
    have := h data' hd'
    have htl : Mst.tlen bw { m with phase := .wait } = m.tlen bw := rfl
    have hfl : Mst.fill bw { m with phase := .wait } r.data =
        if m.isWrite then m.buf else m.buf.take m.pos ++ t.range (m.addr + m.pos) (m.tlen bw) ++ m.buf.drop (m.pos + m.tlen bw) := by
      unfold Mst.fill
      rw [htl]
      simp only []
      split
      · rfl
      · next hw => rw [hr (by simpa using hw)]
    have e : sysStep memT bw lw ({ m with phase := .wait }, ⟨.resp r [], data', t'⟩) k =
        ({ m with
            buf := Mst.fill bw { m with phase := .wait } r.data,
            pos := m.pos + m.tlen bw,
            phase := if m.pos + m.tlen bw < m.buf.length then .send else .fin },
          ⟨.gap [], data', t'⟩) := by
      simp [sysStep, mstep, sstep, Sst.resp, Mst.respReady, htl]
    rw [e, hfl]
    exact this
  refine Leads.step fun k => ?_
  have e : sysStep memT bw lw (m, ⟨.idle, data, t⟩) k =
      ({ m with phase := .wait }, ⟨if k = 0 then .hold [r] else .target k [r], data', t'⟩) := by
    simp [sysStep, mstep, hm, sstep, Sst.reqReady, Mst.reqValid, hh]
  rw [e]
  split
  · exact hrest
  · exact Leads.target rfl _ _ _ hrest k

/-- What a plain access does to a memory. -/
def accessMem (isWrite : Bool) (addr : Nat) (buf : List Byte) (t : Mem) : Mem × List Byte :=
  if isWrite then (t.store addr buf, buf) else (t, t.range addr buf.length)

theorem range_add (t : Mem) (a n k : Nat) : t.range a n ++ t.range (a + n) k = t.range a (n + k) := by
  simp [Mem.range, List.range_add, Nat.add_assoc]

/-- **C41 (both bridges).** An access of any length through a master and a slave
bridge, however long the target takes for each message, ends with exactly the
memory and data of the access. -/
theorem access_exact (bw lw : Nat) (hb : 0 < bw) (hlw : bw ≤ 2 ^ lw) (h1024 : bw ≤ 1024) (isWrite : Bool)
    (addr src : Nat) (buf : List Byte) (hne : buf ≠ []) (data : List Byte) (hd : data.length = 1024) (t : Mem)
    (ks : Nat → Nat) :
    ∃ n, let r := edges bw lw n ks (Mst.call isWrite addr src buf, ⟨.idle, data, t⟩)
      r.1.phase = .done ∧ r.2.phase = .idle ∧ (r.2.tgt, r.1.buf) = accessMem isWrite addr buf t := by
  have hpos : 0 < buf.length := List.length_pos_iff.2 hne
  have key : ∀ (f : Nat) (pos : Nat) (data : List Byte), buf.length - pos ≤ f → pos < buf.length → data.length = 1024 →
      Leads bw lw
        ({ isWrite, addr, src, buf := if isWrite then buf else t.range addr pos ++ buf.drop pos, pos, phase := .send },
         ⟨.idle, data, if isWrite then t.store addr (buf.take pos) else t⟩)
        (fun r => r.1.phase = .done ∧ r.2.phase = .idle ∧ (r.2.tgt, r.1.buf) = accessMem isWrite addr buf t) := by
    intro f
    induction f with
    | zero => intro pos data h1 h2; omega
    | succ f ih =>
      intro pos data h1 h2 hd
      have hlen : (if isWrite then buf else t.range addr pos ++ buf.drop pos).length = buf.length := by
        split
        · rfl
        · rw [List.length_append, Mem.range_length, List.length_drop]; omega
      generalize hB : (if isWrite then buf else t.range addr pos ++ buf.drop pos) = B at *
      refine chunk hb hlw h1024 _ rfl (by rw [hlen]; exact h2) data hd _ ?_
      intro data' hd'
      have htl : Mst.tlen bw { isWrite, addr, src, buf := B, pos, phase := .send } = min bw (buf.length - pos) := by
        rw [Mst.tlen, hlen]
      simp only [htl, hlen]
      generalize hn : min bw (buf.length - pos) = n
      have hB' : (if isWrite = true then B else B.take pos ++
          (if isWrite = true then t.store addr (buf.take pos) else t).range (addr + pos) n ++ B.drop (pos + n)) =
          if isWrite then buf else t.range addr (pos + n) ++ buf.drop (pos + n) := by
        cases isWrite with
        | true => simp only [if_true] at hB ⊢; exact hB.symm
        | false =>
          simp only [Bool.false_eq_true, if_false] at hB ⊢
          have hR : (t.range addr pos).length = pos := Mem.range_length t addr pos
          have e1 : B.take pos = t.range addr pos := by rw [← hB]; exact List.take_left' hR
          have e2 : B.drop pos = buf.drop pos := by rw [← hB]; exact List.drop_left' hR
          rw [e1, ← List.drop_drop, e2, List.drop_drop, range_add]
      have hT' : (if isWrite = true then (if isWrite = true then t.store addr (buf.take pos) else t).store (addr + pos)
          ((B.drop pos).take n) else (if isWrite = true then t.store addr (buf.take pos) else t)) =
          if isWrite then t.store addr (buf.take (pos + n)) else t := by
        cases isWrite with
        | true =>
          simp only [if_true] at hB ⊢
          have := t.store_store addr (buf.take pos) ((buf.drop pos).take n)
          rw [List.length_take, Nat.min_eq_left (by omega)] at this
          rw [← hB, this, List.take_add]
        | false => rfl
      rw [hB', hT']
      by_cases hlast : pos + n < buf.length
      · rw [if_pos hlast]
        refine Leads.step fun k => ?_
        have := ih (pos + n) data' (by omega) hlast hd'
        have e : ∀ (B : List Byte) (T : Mem), sysStep memT bw lw
            (({ isWrite, addr, src, buf := B, pos := pos + n, phase := .send } : Mst), ⟨.gap [], data', T⟩) k =
            (({ isWrite, addr, src, buf := B, pos := pos + n, phase := .send } : Mst), ⟨.idle, data', T⟩) := by
          intro B T
          simp [sysStep, mstep, sstep, Sst.reqReady, next]
        rw [e]
        exact this
      · rw [if_neg hlast]
        have hend : pos + n = buf.length := by omega
        refine Leads.step fun k => Leads.now ?_
        have e : ∀ (B : List Byte) (T : Mem), sysStep memT bw lw
            (({ isWrite, addr, src, buf := B, pos := pos + n, phase := .fin } : Mst), ⟨.gap [], data', T⟩) k =
            (({ isWrite, addr, src, buf := B, pos := pos + n, phase := .done } : Mst), ⟨.idle, data', T⟩) := by
          intro B T
          simp [sysStep, mstep, sstep, next]
        rw [e]
        refine ⟨rfl, rfl, ?_⟩
        rw [hend]
        cases isWrite <;> simp [accessMem]
  have h0 := key buf.length 0 data (by omega) hpos hd
  have : Leads bw lw (Mst.call isWrite addr src buf, ⟨.idle, data, t⟩)
      (fun r => r.1.phase = .done ∧ r.2.phase = .idle ∧ (r.2.tgt, r.1.buf) = accessMem isWrite addr buf t) := by
    refine Leads.step fun k => ?_
    have e : sysStep memT bw lw (Mst.call isWrite addr src buf, ⟨.idle, data, t⟩) k =
        ({ isWrite, addr, src, buf := if isWrite then buf else t.range addr 0 ++ buf.drop 0, pos := 0, phase := .send },
         ⟨.idle, data, if isWrite then t.store addr (buf.take 0) else t⟩) := by
      cases isWrite <;> simp [sysStep, mstep, Mst.call, sstep, Mst.reqValid, Mem.store_nil, Mem.range]
    rw [e]; exact h0
  exact this ks

/-- Non-vacuity: a 10-byte write over a 4-byte bus with a slow target. -/
example : (edges 4 8 40 (fun i => i % 3) (Mst.call true 0x100 0 [1, 2, 3, 4, 5, 6, 7, 8, 9, 10],
    ⟨.idle, List.replicate 1024 0, fun _ => 0⟩)).2.tgt.range 0xfe 14 = [0, 0, 1, 2, 3, 4, 5, 6, 7, 8, 9, 10, 0, 0] := by
  decide +kernel

end Verif.Umi
