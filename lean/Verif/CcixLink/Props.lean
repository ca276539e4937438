import Verif.CcixLink.Spec

/-! C64: credits and identifiers of the link. -/
namespace Verif.CcixLink
open Spec

theorem sum_snoc (f : Credits → Nat) (l : List Credits) (g : Credits) : ((l ++ [g]).map f).sum = (l.map f).sum + f g := by
  simp

theorem atMost_le (n : Nat) : atMost n ≤ n := by unfold atMost; split <;> omega

theorem dec32_eq {n : Nat} (h : 0 < n) (_ : n < 2 ^ 32) : dec32 n = n - 1 := by unfold dec32; rw [if_neg (by omega)]

theorem inc32_eq {n k : Nat} (h : n + k < 2 ^ 32) : inc32 n k = n + k := by unfold inc32; rw [if_pos h]

theorem all_inc (c : Count) (k : Kind) : (c.inc k).all = c.all + 1 := by
  cases k <;> simp only [Count.inc, Count.all] <;> omega

theorem all_dec (c : Count) (k : Kind) (h : c.get k ≠ 0) : (c.dec k).all + 1 = c.all := by
  cases k <;> simp only [Count.dec, Count.all, Count.get] at * <;> omega

/-- The balance of request credits. -/
def reqBal (s : St) : Nat := s.have_.req + open_ s + s.give.req + coming (·.req) s

theorem req_step {s s' : St} (h : reqBal s = room) (m : Move) (hm : s.move m = some s') : reqBal s' = room := by
  unfold reqBal open_ coming room at *
  cases m with
  | sendReq k =>
    simp only [St.move] at hm
    by_cases hc : s.have_.req > 0 ∧ (k = .write → s.have_.data > 0)
    · rw [if_pos hc] at hm; cases hm
      simp only [all_inc]
      rw [dec32_eq hc.1 (by omega)]
      omega
    · rw [if_neg hc] at hm; cases hm
  | sendSnp =>
    simp only [St.move] at hm
    by_cases h1 : s.waits = true
    · rw [if_pos h1] at hm; cases hm
    · rw [if_neg h1] at hm
      by_cases h2 : s.have_.snp = 0
      · rw [if_pos h2] at hm; cases hm; simpa only using h
      · rw [if_neg h2] at hm; cases hm; simpa only using h
  | recvReq k =>
    simp only [St.move] at hm
    by_cases h1 : s.wire.get k = 0
    · rw [if_pos h1] at hm; cases hm
    · rw [if_neg h1] at hm; cases hm
      have := all_dec _ _ h1
      simp only [all_inc]
      omega
  | recvSnp =>
    simp only [St.move] at hm
    by_cases h1 : s.wireSnp = 0
    · rw [if_pos h1] at hm; cases hm
    · rw [if_neg h1] at hm; cases hm; simpa only using h
  | doneReq k =>
    simp only [St.move] at hm
    by_cases h1 : s.held.get k = 0
    · rw [if_pos h1] at hm; cases hm
    · rw [if_neg h1] at hm; cases hm
      have := all_dec _ _ h1
      simp only
      rw [inc32_eq (by omega)]
      omega
  | doneSnp =>
    simp only [St.move] at hm
    by_cases h1 : s.heldSnp = 0
    · rw [if_pos h1] at hm; cases hm
    · rw [if_neg h1] at hm; cases hm; simpa only using h
  | grant =>
    simp only [St.move] at hm
    by_cases h1 : s.give.req = 0 ∧ s.give.data = 0 ∧ s.give.snp = 0
    · rw [if_pos h1] at hm; cases hm
    · rw [if_neg h1] at hm; cases hm
      have := atMost_le s.give.req
      simp only [sum_snoc]
      omega
  | credit =>
    simp only [St.move] at hm
    cases hf : s.flight with
    | nil => rw [hf] at hm; cases hm
    | cons g gs =>
      rw [hf] at hm h
      simp only [List.map_cons, List.sum_cons] at h
      by_cases h1 : s.waits = true
      · simp only [if_pos h1] at hm; cases hm
        simp only
        rw [inc32_eq (by omega)]
        omega
      · simp only [if_neg h1] at hm; cases hm
        simp only
        rw [inc32_eq (by omega)]
        omega

theorem req_bal {s : St} (h : Reach s) : reqBal s = room := by
  induction h with
  | init => rfl
  | step m _ hm ih => exact req_step ih m hm

/-- **C64 (requests).** At any time the requests a port has sent and the other has not
finished, the credits the sender has, those on the way and those not yet given are
256 together. So the sender never has more credits than the other port has
identifiers, and a request that arrives finds one. -/
theorem requests_find_room {s : St} (h : Reach s) :
    s.have_.req + open_ s + s.give.req + coming (·.req) s = room ∧
    (∀ k s', s.move (.recvReq k) = some s' → s.held.all < room) := by
  refine ⟨req_bal h, fun k s' hm => ?_⟩
  have hb := req_bal h
  unfold reqBal open_ at hb
  simp only [St.move] at hm
  by_cases h1 : s.wire.get k = 0
  · rw [if_pos h1] at hm; cases hm
  · have := all_dec _ _ h1
    omega

/-- **C64 (progress).** A request without data can be sent once nothing is on the way:
if the other port has finished all requests and given its credits, there is one. -/
theorem credits_come_back {s : St} (h : Reach s) (hw : s.wire.all = 0) (hh : s.held.all = 0) (hg : s.give.req = 0)
    (hf : s.flight = []) : ∃ s', s.move (.sendReq .plain) = some s' := by
  have hb := req_bal h
  unfold reqBal open_ coming at hb
  rw [hw, hh, hg, hf] at hb
  have : s.have_.req = 256 := by simpa [room] using hb
  exact ⟨_, if_pos ⟨by omega, nofun⟩⟩

theorem Reach.runs {s s' : St} {ms : List Move} (h : Reach s) (hr : s.runs ms = some s') : Reach s' := by
  induction ms generalizing s with
  | nil => cases hr; exact h
  | cons m ms ih =>
    simp only [St.runs] at hr
    cases hm : s.move m with
    | none => rw [hm] at hr; cases hr
    | some t => rw [hm] at hr; exact ih (.step m h hm) hr

example : ∃ s, Reach s ∧ s.wire = ⟨1, 0, 0⟩ ∧ s.held = ⟨0, 1, 0⟩ ∧ s.have_.req = 253 := by
  have key : (St.init.runs [.grant, .credit, .sendReq .plain, .sendReq .write, .recvReq .write]).map
      (fun s => (s.wire, s.held, s.have_.req)) = some (⟨1, 0, 0⟩, ⟨0, 1, 0⟩, 253) := by decide +kernel
  cases h : St.init.runs [.grant, .credit, .sendReq .plain, .sendReq .write, .recvReq .write] with
  | none => rw [h] at key; cases key
  | some s =>
    rw [h] at key
    simp only [Option.map_some, Option.some.injEq, Prod.mk.injEq] at key
    exact ⟨s, Reach.init.runs h, key⟩

/-! ### Data credits -/

/-- The balance of data credits. -/
def dataBal (s : St) : Nat := s.have_.data + s.wire.write + s.held.write + s.give.data + coming (·.data) s

/-- The move finishes an atomic. -/
def finishesAtomic : Move → Bool
  | .doneReq .atomic => true
  | _ => false

theorem data_step {s s' : St} (m : Move) (hm : s.move m = some s') (h : dataBal s + 1 < 2 ^ 32) :
    dataBal s' = dataBal s + (if finishesAtomic m then 1 else 0) := by
  unfold dataBal coming at *
  cases m with
  | sendReq k =>
    simp only [St.move] at hm
    by_cases hc : s.have_.req > 0 ∧ (k = .write → s.have_.data > 0)
    · rw [if_pos hc] at hm; cases hm
      cases k
      · simp [Count.inc, finishesAtomic]
      · have := hc.2 rfl
        simp only [if_true, Count.inc, finishesAtomic]
        rw [dec32_eq this (by omega)]
        simp; omega
      · simp [Count.inc, finishesAtomic]
    · rw [if_neg hc] at hm; cases hm
  | sendSnp =>
    simp only [St.move] at hm
    by_cases h1 : s.waits = true
    · rw [if_pos h1] at hm; cases hm
    · rw [if_neg h1] at hm
      by_cases h2 : s.have_.snp = 0
      · rw [if_pos h2] at hm; cases hm; simp [finishesAtomic]
      · rw [if_neg h2] at hm; cases hm; simp [finishesAtomic]
  | recvReq k =>
    simp only [St.move] at hm
    by_cases h1 : s.wire.get k = 0
    · rw [if_pos h1] at hm; cases hm
    · rw [if_neg h1] at hm; cases hm
      cases k <;> simp only [Count.get] at h1 <;> simp [Count.inc, Count.dec, finishesAtomic]
      omega
  | recvSnp =>
    simp only [St.move] at hm
    by_cases h1 : s.wireSnp = 0
    · rw [if_pos h1] at hm; cases hm
    · rw [if_neg h1] at hm; cases hm; simp [finishesAtomic]
  | doneReq k =>
    simp only [St.move] at hm
    by_cases h1 : s.held.get k = 0
    · rw [if_pos h1] at hm; cases hm
    · rw [if_neg h1] at hm; cases hm
      cases k <;> simp only [Count.get] at h1 <;> simp [Count.dec, finishesAtomic]
      · rw [inc32_eq (by omega)]; omega
      · rw [inc32_eq (by omega)]; omega
  | doneSnp =>
    simp only [St.move] at hm
    by_cases h1 : s.heldSnp = 0
    · rw [if_pos h1] at hm; cases hm
    · rw [if_neg h1] at hm; cases hm; simp [finishesAtomic]
  | grant =>
    simp only [St.move] at hm
    by_cases h1 : s.give.req = 0 ∧ s.give.data = 0 ∧ s.give.snp = 0
    · rw [if_pos h1] at hm; cases hm
    · rw [if_neg h1] at hm; cases hm
      have := atMost_le s.give.data
      simp only [sum_snoc, finishesAtomic]
      simp; omega
  | credit =>
    simp only [St.move] at hm
    cases hf : s.flight with
    | nil => rw [hf] at hm; cases hm
    | cons g gs =>
      rw [hf] at hm h
      simp only [List.map_cons, List.sum_cons] at h
      by_cases h1 : s.waits = true
      · simp only [if_pos h1] at hm; cases hm
        simp only [finishesAtomic]
        rw [inc32_eq (by omega)]
        simp; omega
      · simp only [if_neg h1] at hm; cases hm
        simp only [finishesAtomic]
        rw [inc32_eq (by omega)]
        simp; omega

theorem data_run {ms : List Move} : ∀ {s s' : St}, s.runs ms = some s' →
    dataBal s + (ms.filter finishesAtomic).length + 1 < 2 ^ 32 →
    dataBal s' = dataBal s + (ms.filter finishesAtomic).length := by
  induction ms with
  | nil => intro s s' h _; cases h; simp
  | cons m ms ih =>
    intro s s' h hb
    simp only [St.runs] at h
    cases hm : s.move m with
    | none => rw [hm] at h; cases h
    | some t =>
      rw [hm] at h
      by_cases hf : finishesAtomic m = true
      · rw [List.filter_cons_of_pos hf, List.length_cons] at hb ⊢
        have h1 := data_step m hm (by omega)
        rw [if_pos hf] at h1
        rw [ih h (by omega)]; omega
      · rw [List.filter_cons_of_neg hf] at hb ⊢
        have h1 := data_step m hm (by omega)
        rw [if_neg hf] at h1
        rw [ih h (by omega)]; omega

/-- **C64 (data).** Up to the moment the counters would wrap: the writes a port has
sent and the other has not finished, and all the data credits there are, are 256
together, and one more for each atomic that has been finished. So with no atomics data
credits are neither made nor lost, and each atomic makes one
(`/repo/tlm-modules/private/ccix/ccixport.h` 2612-2615, 3402, 3609, 3651). -/
theorem data_credits {ms : List Move} {s : St} (h : St.init.runs ms = some s)
    (hb : (ms.filter finishesAtomic).length < 2 ^ 31) :
    s.have_.data + s.wire.write + s.held.write + s.give.data + coming (·.data) s =
      room + (ms.filter finishesAtomic).length := by
  have h0 : dataBal St.init = 256 := rfl
  have := data_run h (by rw [h0]; omega)
  rw [h0] at this
  exact this

/-- One atomic later the sender has 257 data credits of 256. -/
example : (St.init.runs [.grant, .credit, .grant, .credit, .sendReq .atomic, .recvReq .atomic, .doneReq .atomic, .grant,
    .credit]).map (·.have_.data) = some 257 := by decide +kernel

/-! ### Snoop credits -/

/-- The balance of snoop credits. -/
def snpBal (s : St) : Nat := s.have_.snp + openSnp s + s.give.snp + coming (·.snp) s

/-- No snoop waits, or the next credit message has a credit for it: what the code
assumes. -/
def Woken (s : St) (m : Move) : Prop :=
  m = .credit → s.waits = true → ∀ g gs, s.flight = g :: gs → 0 < g.snp

theorem snp_step {s s' : St} (h : snpBal s = room) (m : Move) (hw : Woken s m) (hm : s.move m = some s') : snpBal s' = room := by
  unfold snpBal openSnp coming room at *
  cases m with
  | sendReq k =>
    simp only [St.move] at hm
    by_cases hc : s.have_.req > 0 ∧ (k = .write → s.have_.data > 0)
    · rw [if_pos hc] at hm; cases hm; simpa only using h
    · rw [if_neg hc] at hm; cases hm
  | sendSnp =>
    simp only [St.move] at hm
    by_cases h1 : s.waits = true
    · rw [if_pos h1] at hm; cases hm
    · rw [if_neg h1] at hm
      by_cases h2 : s.have_.snp = 0
      · rw [if_pos h2] at hm; cases hm; simpa only using h
      · rw [if_neg h2] at hm; cases hm
        simp only
        rw [dec32_eq (by omega) (by omega)]; omega
  | recvReq k =>
    simp only [St.move] at hm
    by_cases h1 : s.wire.get k = 0
    · rw [if_pos h1] at hm; cases hm
    · rw [if_neg h1] at hm; cases hm; simpa only using h
  | recvSnp =>
    simp only [St.move] at hm
    by_cases h1 : s.wireSnp = 0
    · rw [if_pos h1] at hm; cases hm
    · rw [if_neg h1] at hm; cases hm
      simp only; omega
  | doneReq k =>
    simp only [St.move] at hm
    by_cases h1 : s.held.get k = 0
    · rw [if_pos h1] at hm; cases hm
    · rw [if_neg h1] at hm; cases hm; simpa only using h
  | doneSnp =>
    simp only [St.move] at hm
    by_cases h1 : s.heldSnp = 0
    · rw [if_pos h1] at hm; cases hm
    · rw [if_neg h1] at hm; cases hm
      simp only
      rw [inc32_eq (by omega)]; omega
  | grant =>
    simp only [St.move] at hm
    by_cases h1 : s.give.req = 0 ∧ s.give.data = 0 ∧ s.give.snp = 0
    · rw [if_pos h1] at hm; cases hm
    · rw [if_neg h1] at hm; cases hm
      have := atMost_le s.give.snp
      simp only [sum_snoc]
      omega
  | credit =>
    simp only [St.move] at hm
    cases hf : s.flight with
    | nil => rw [hf] at hm; cases hm
    | cons g gs =>
      rw [hf] at hm h
      simp only [List.map_cons, List.sum_cons] at h
      by_cases h1 : s.waits = true
      · simp only [if_pos h1] at hm; cases hm
        have := hw rfl h1 g gs hf
        simp only
        rw [inc32_eq (by omega), dec32_eq (by omega) (by omega)]
        omega
      · simp only [if_neg h1] at hm; cases hm
        simp only
        rw [inc32_eq (by omega)]
        omega

/-- The steps are taken, each with `Woken`. -/
inductive WokenReach : St → Prop
  | init : WokenReach .init
  | step {s s' : St} (m : Move) : WokenReach s → Woken s m → s.move m = some s' → WokenReach s'

/-- **C64 (snoops).** As long as no credit message without credits for snoops arrives
while a snoop waits for one: as for requests. Missing: `snoop_credit_wraps`. -/
theorem snoops_find_room_partial {s : St} (h : WokenReach s) :
    s.have_.snp + openSnp s + s.give.snp + coming (·.snp) s = room ∧
    (∀ s', s.move .recvSnp = some s' → s.heldSnp < room) := by
  have hb : snpBal s = room := by
    induction h with
    | init => rfl
    | step m _ hw hm ih => exact snp_step ih m hw hm
  refine ⟨hb, fun s' hm => ?_⟩
  unfold snpBal openSnp at hb
  simp only [St.move] at hm
  by_cases h1 : s.wireSnp = 0
  · rw [if_pos h1] at hm; cases hm
  · omega

/-- A run that uses up the credits for snoops, and a request finished meanwhile. -/
def starve : List Move :=
  [.grant, .credit, .grant, .credit] ++ List.replicate 256 .sendSnp ++
    [.sendReq .plain, .recvReq .plain, .doneReq .plain, .grant, .sendSnp, .credit]

/-- **C64 fault.** A credit message without credits for snoops lets a waiting snoop go:
the counter wraps to 2^32 - 1, and 257 snoops are open
(`/repo/tlm-modules/private/ccix/ccixport.h` 2622-2626: `if` where requests have a
loop). -/
theorem snoop_credit_wraps : ∃ s, Reach s ∧ s.have_.snp = 2 ^ 32 - 1 ∧ openSnp s = room + 1 := by
  have key : (St.init.runs starve).map (fun s => (s.have_.snp, openSnp s)) = some (2 ^ 32 - 1, 257) := by decide +kernel
  cases h : St.init.runs starve with
  | none => rw [h] at key; cases key
  | some s =>
    rw [h] at key
    simp only [Option.map_some, Option.some.injEq, Prod.mk.injEq] at key
    exact ⟨s, Reach.init.runs h, key⟩

/-! ### Credits carried by other messages -/

/-- **C64 fault.** The credits for snoops carried by other messages are read from the
field for data: right only if the two are the same
(`/repo/tlm-modules/private/ccix/ccixport.h` 2719-2737). -/
theorem carried_snoops_wrong (b : BitVec 8) :
    (piggyback b).req = (carried b).req ∧ (piggyback b).data = (carried b).data ∧
    ((piggyback b).snp = (carried b).snp ↔ (carried b).snp = (carried b).data) :=
  ⟨rfl, rfl, ⟨fun h => h.symm, fun h => h.symm⟩⟩

/-- Two credits for snoops, none for data. -/
example : (carried 0x20).snp = 2 ∧ (piggyback 0x20).snp = 0 := by decide

/-! ### Writes that enter the port -/

/-- **C64 (identifiers of writes).** A write whose data and acknowledgement, if it has
one, come in separate messages, in either order, is sent on once, is open until the
last of them and then not. Missing: `combined_ack_lost`. -/
theorem write_finishes_partial (unique exp : Bool) (ms : List Msg) (hu : exp = true → unique = true)
    (h : ms ∈ finishes exp) (hn : Msg.dataAck ∉ ms) :
    (∃ e, (Entry.of unique exp).run ms = some e ∧ e.live = false ∧ e.copies = 1) ∧
    ∀ n, n < ms.length → ∃ e, (Entry.of unique exp).run (ms.take n) = some e ∧ e.live = true := by
  cases exp
  · have e : ms = [.data] := by simpa [finishes] using h
    subst e
    refine ⟨by cases unique <;> exact ⟨_, rfl, rfl, rfl⟩, fun n hn => ?_⟩
    have : n = 0 := by simp at hn; exact hn
    subst this
    cases unique <;> exact ⟨_, rfl, rfl⟩
  · rw [hu rfl]
    have e : ms = [.data, .ack] ∨ ms = [.ack, .data] := by
      have : ms = [.data, .ack] ∨ ms = [.ack, .data] ∨ ms = [.dataAck] := by simpa [finishes] using h
      rcases this with h | h | h
      · exact Or.inl h
      · exact Or.inr h
      · rw [h] at hn; exact absurd (List.mem_singleton.mpr rfl) hn
    rcases e with rfl | rfl <;>
    · refine ⟨⟨_, rfl, rfl, rfl⟩, fun n hn => ?_⟩
      have : n = 0 ∨ n = 1 := by simp at hn; omega
      rcases this with rfl | rfl <;> exact ⟨_, rfl, rfl⟩

/-- **C64 fault.** A write whose data comes with the acknowledgement in it is sent on
and stays open: the acknowledgement is not seen
(`/repo/tlm-modules/private/ccix/ccixport.h` 3440-3475; the home does see it,
`/repo/tlm-modules/iconnect-chi.h` 2472-2480). -/
theorem combined_ack_lost : [Msg.dataAck] ∈ finishes true ∧
    ∃ e, (Entry.of true true).run [.dataAck] = some e ∧ e.live = true ∧ e.copies = 1 :=
  ⟨by decide, _, rfl, rfl, rfl⟩

end Verif.CcixLink
