import Verif.RPWires.Model
import Verif.RP.Props

/-! # C08: remote wires converge to the local wires -/

namespace Verif.RPWires
open Verif Verif.RP

/-! ## Specification -/

/-- Applying updates to a wire vector. -/
def apply : List Bool → List (Nat × Bool) → List Bool
  | w, [] => w
  | w, u :: us => apply (w.set u.1 u.2) us

/-- Every update names an existing wire and changes its value. -/
def Effective : List Bool → List (Nat × Bool) → Prop
  | _, [] => True
  | w, u :: us => w[u.1]? = some (!u.2) ∧ Effective (w.set u.1 u.2) us

/-- In the history, no wire changes in a delta in which the sender is blocked
waiting for an acknowledgement. -/
def QuietWhileWaiting (c : Cfg) : St → List (List Bool × Bool) → Prop
  | _, [] => True
  | s, (v, a) :: h => (s.waiting ≠ none → v = s.cur) ∧ QuietWhileWaiting c (step c s v a) h

def upd (m : WMsg) : Nat × Bool := (m.line, m.val)

/-! ## Lemmas -/

theorem apply_append (w : List Bool) (a b : List (Nat × Bool)) : apply w (a ++ b) = apply (apply w a) b := by
  induction a generalizing w with
  | nil => rfl
  | cons u us ih => simp [apply, ih]

theorem effective_append (w : List Bool) (a b : List (Nat × Bool)) :
    Effective w (a ++ b) ↔ Effective w a ∧ Effective (apply w a) b := by
  induction a generalizing w with
  | nil => simp [Effective, apply]
  | cons u us ih => simp [Effective, apply, ih, and_assoc]

theorem countEvents_eq_zero (a b : List Bool) (h : a.length = b.length) (hz : countEvents a b = 0) : a = b := by
  induction a generalizing b with
  | nil => cases b with
    | nil => rfl
    | cons => simp at h
  | cons x xs ih =>
    cases b with
    | nil => simp at h
    | cons y ys =>
      simp only [countEvents] at hz
      by_cases hxy : x = y
      · subst hxy
        rw [ih ys (by simpa using h) (by simpa using hz)]
      · simp [hxy] at hz

theorem emit_spec (posted : Bool) (old new : List Bool) (h : old.length = new.length) (pre : List Bool)
    (nr : Nat) (nid lid flags : U32) :
    let ms := (emit posted old new pre.length nr nid lid flags).1
    apply (pre ++ old) (ms.map upd) = pre ++ new ∧ Effective (pre ++ old) (ms.map upd) := by
  induction old generalizing new pre nr nid lid flags with
  | nil => cases new with
    | nil => simp [emit, apply, Effective]
    | cons => simp at h
  | cons x xs ih =>
    cases new with
    | nil => simp at h
    | cons y ys =>
      have hl : xs.length = ys.length := by simpa using h
      simp only [emit]
      by_cases hxy : x = y
      · subst hxy
        have := ih ys hl (pre ++ [x]) nr nid lid flags
        simpa using this
      · rw [if_pos hxy]
        have := ih ys hl (pre ++ [y]) (nr - 1) (nid + 1) nid (if nr - 1 = 0 ∧ ¬ posted = true then 0 else flags)
        have hset : (pre ++ x :: xs).set pre.length y = pre ++ y :: xs := by simp
        have hnot : x = !y := by cases x <;> cases y <;> simp_all
        simp only [List.map_cons, upd, apply, Effective, hset]
        simp only [List.length_append, List.length_singleton, List.append_assoc, List.singleton_append] at this
        refine ⟨this.1, ?_, this.2⟩
        simp [hnot]

/-- The invariant: what has been sent so far takes the initial vector to the
current one. -/
def Inv (v0 : List Bool) (s : St) : Prop :=
  s.cur.length = v0.length ∧ apply v0 (s.out.map upd) = s.cur ∧ Effective v0 (s.out.map upd)

theorem step_inv (c : Cfg) (v0 : List Bool) (s : St) (v : List Bool) (a : Bool) (hv : v.length = v0.length)
    (hq : s.waiting ≠ none → v = s.cur) (hi : Inv v0 s) : Inv v0 (step c s v a) := by
  obtain ⟨h1, h2, h3⟩ := hi
  unfold step
  cases hw : s.waiting with
  | some w =>
    have : v = s.cur := hq (by simp [hw])
    subst this
    exact ⟨h1, h2, h3⟩
  | none =>
    simp only []
    by_cases hn : countEvents s.cur v = 0
    · rw [if_pos hn]
      have := countEvents_eq_zero _ _ (by omega) hn
      subst this
      exact ⟨h1, h2, h3⟩
    · rw [if_neg hn]
      have := emit_spec c.postedUpdates s.cur v (by omega) [] (countEvents s.cur v) s.nextId 0 flagPosted
      simp only [List.length_nil, List.nil_append] at this
      refine ⟨hv, ?_, ?_⟩
      · simp only [List.map_append, apply_append, h2]; exact this.1
      · simp only [List.map_append, effective_append, h2]; exact ⟨h3, this.2⟩

theorem run_inv (c : Cfg) (v0 : List Bool) (hist : List (List Bool × Bool)) (s : St)
    (hv : ∀ x ∈ hist, x.1.length = v0.length) (hq : QuietWhileWaiting c s hist) (hi : Inv v0 s) :
    Inv v0 (run c s hist) := by
  induction hist generalizing s with
  | nil => exact hi
  | cons x xs ih =>
    obtain ⟨v, a⟩ := x
    exact ih _ (fun y hy => hv y (by simp [hy])) hq.2
      (step_inv c v0 s v a (hv (v, a) (by simp)) hq.1 hi)

theorem run_cur (c : Cfg) (s : St) (hist : List (List Bool × Bool)) :
    (run c s hist).cur = ((hist.map (·.1)).getLast?).getD s.cur := by
  induction hist generalizing s with
  | nil => rfl
  | cons x xs ih =>
    obtain ⟨v, a⟩ := x
    have hc : (step c s v a).cur = v := by
      unfold step
      cases s.waiting with
      | some w => rfl
      | none => simp only []; split <;> rfl
    rw [run, ih, hc]
    cases xs with
    | nil => simp
    | cons y ys =>
      rw [List.map_cons, List.map_cons, List.map_cons, List.getLast?_cons_cons,
        List.getLast?_eq_some_getLast (by simp)]
      rfl

theorem receive_spec (cap : Bool) (c : Cfg) (clk : WMsg → U64) (clk' : U64) (ms : List WMsg) (w : List Bool)
    (hw : w.length < 2 ^ 32) (he : Effective w (ms.map upd)) :
    ∃ ps, recvAll (ms.map (WMsg.bytes c clk)).flatten = some ps ∧
      receive cap c.dev clk' w ps = some (apply w (ms.map upd)) := by
  suffices ∃ wps : List (List Byte × Pkt), wps.map (·.1) = ms.map (WMsg.bytes c clk) ∧
      (∀ wp ∈ wps, IsPacket wp.1 wp.2) ∧
      receive cap c.dev clk' w (wps.map (·.2)) = some (apply w (ms.map upd)) by
    obtain ⟨wps, h1, h2, h3⟩ := this
    exact ⟨_, by rw [← h1]; exact stream_framing wps h2, h3⟩
  induction ms generalizing w with
  | nil => exact ⟨[], rfl, by simp, rfl⟩
  | cons m ms ih =>
    obtain ⟨h1, h2⟩ := he
    simp only [upd] at h1 h2
    obtain ⟨wps, e1, e2, e3⟩ := ih (w.set m.line m.val) (by simpa using hw) h2
    obtain ⟨p, hp, q1, q2, -⟩ := interrupt_roundtrip m.id c.dev (clk m) (BitVec.ofNat 32 m.line) 0
      (if m.val then 1 else 0) m.flags
    have hline : m.line < w.length := by
      have := List.getElem?_eq_some_iff.mp h1
      exact this.1
    refine ⟨(m.bytes c clk, p) :: wps, by simp [e1], ?_, ?_⟩
    · intro wp hwp
      rcases List.mem_cons.mp hwp with e | e
      · subst e; exact hp
      · exact e2 wp e
    · have hln : (BitVec.ofNat 32 m.line).toNat = m.line := by simp; omega
      have hval : ((if m.val then (1 : U8) else 0) != 0) = m.val := by cases m.val <;> decide
      have : ∃ r, cmdInterrupt cap c.dev clk' w p = some (w.set m.line m.val, r) := by
        simp only [cmdInterrupt, q2, interruptAction, q1, hln, hline, hval, and_self, if_true, Option.map_some]
        exact ⟨_, rfl⟩
      obtain ⟨r, hr⟩ := this
      simp only [List.map_cons, receive, hr, upd, apply]
      exact e3

/-! ## Theorems -/

/-- **C08.** Take any number of wires (below 2^32), any initial values agreeing
on both sides, and any history of wire vectors and acknowledgement arrivals in
which no wire changes while the sender is blocked on an acknowledgement.
Parsing the bytes the sender wrote, as one stream, and applying the packets at
the receiver never fails an assertion and leaves the receiver's wires equal to
the sender's last vector; and every packet changed the wire it names. -/
theorem wires_converge_partial (c : Cfg) (cap : Bool) (clk : WMsg → U64) (clk' : U64) (v0 : List Bool) (nid : U32)
    (hist : List (List Bool × Bool)) (hn : v0.length < 2 ^ 32)
    (hv : ∀ x ∈ hist, x.1.length = v0.length)
    (hq : QuietWhileWaiting c { cur := v0, nextId := nid } hist) :
    let msgs := (run c { cur := v0, nextId := nid } hist).out
    (∃ ps, recvAll (msgs.map (WMsg.bytes c clk)).flatten = some ps ∧
      receive cap c.dev clk' v0 ps = some (((hist.map (·.1)).getLast?).getD v0)) ∧
    Effective v0 (msgs.map upd) := by
  have hi := run_inv c v0 hist { cur := v0, nextId := nid } hv hq ⟨rfl, rfl, trivial⟩
  obtain ⟨-, h2, h3⟩ := hi
  refine ⟨?_, h3⟩
  obtain ⟨ps, p1, p2⟩ := receive_spec cap c clk clk' _ v0 hn h3
  refine ⟨ps, p1, ?_⟩
  rw [p2, h2, run_cur]

theorem emit_flags_posted (old new : List Bool) (i nr : Nat) (nid lid : U32) :
    (emit true old new i nr nid lid flagPosted).2.2.2 = flagPosted := by
  induction old generalizing new i nr nid lid with
  | nil => cases new <;> rfl
  | cons x xs ih => cases new with
    | nil => rfl
    | cons y ys =>
      simp only [emit]
      split
      · simp [ih]
      · exact ih ..

/-- The sender never blocks with posted updates (the constructor's default) or
when the peer does not announce the capability. -/
theorem never_waits (c : Cfg) (h : c.postedUpdates = true ∨ c.peerCap = false) (s : St) (hs : s.waiting = none)
    (v : List Bool) (a : Bool) : (step c s v a).waiting = none := by
  unfold step
  rw [hs]
  simp only []
  split
  · rfl
  · rcases h with h | h
    · rw [h, emit_flags_posted]
      have : isPosted flagPosted = true := by decide
      simp [this]
    · simp [h]

/-- **C08, default configuration**: with posted updates, or a peer without the
capability, convergence needs no assumption on the history. -/
theorem wires_converge_default (c : Cfg) (h : c.postedUpdates = true ∨ c.peerCap = false) (cap : Bool)
    (clk : WMsg → U64) (clk' : U64) (v0 : List Bool) (nid : U32)
    (hist : List (List Bool × Bool)) (hn : v0.length < 2 ^ 32)
    (hv : ∀ x ∈ hist, x.1.length = v0.length) :
    let msgs := (run c { cur := v0, nextId := nid } hist).out
    (∃ ps, recvAll (msgs.map (WMsg.bytes c clk)).flatten = some ps ∧
      receive cap c.dev clk' v0 ps = some (((hist.map (·.1)).getLast?).getD v0)) ∧
    Effective v0 (msgs.map upd) := by
  refine wires_converge_partial c cap clk clk' v0 nid hist hn hv ?_
  have : ∀ (hist : List (List Bool × Bool)) (s : St), s.waiting = none → QuietWhileWaiting c s hist := by
    intro hist
    induction hist with
    | nil => intro _ _; trivial
    | cons x xs ih =>
      intro s hs
      obtain ⟨v, a⟩ := x
      exact ⟨fun hne => absurd hs hne, ih _ (never_waits c h s hs v a)⟩
  exact this hist _ rfl

/-- A concrete history: two wires, three deltas, four packets. -/
example : (run {} { cur := [false, false] } [([true, true], false), ([true, false], false), ([false, false], false)]).out.map upd
    = [(0, true), (1, true), (1, false), (0, false)] := by decide

/-- A history with a blocked sender that meets the hypothesis of the partial theorem. -/
example : QuietWhileWaiting { postedUpdates := false, peerCap := true } { cur := [false] }
    [([true], false), ([true], true), ([false], false)] := by
  refine ⟨fun h => absurd rfl h, fun _ => rfl, ?_, trivial⟩
  intro h; exact absurd rfl h

/-- **C08 is violated in acknowledged mode**: a wire that toggles while the
sender waits for the acknowledgement is never reported; the receiver keeps a
value the wire no longer has, even after the acknowledgement arrived. -/
theorem acknowledged_mode_loses_updates :
    ∃ (c : Cfg) (hist : List (List Bool × Bool)),
      let s := run c { cur := [false] } hist
      s.waiting = none ∧ s.cur = [false] ∧ apply [false] (s.out.map upd) = [true] :=
  ⟨{ postedUpdates := false, peerCap := true }, [([true], false), ([false], false), ([false], true)], by decide⟩

/-- A wire that is already high when simulation starts and never changes is
never reported: the convergence theorems need agreeing initial values. -/
theorem initial_value_not_sent (c : Cfg) (v : List Bool) (n : Nat) :
    (run c { cur := v } (List.replicate n (v, false))).out = [] := by
  have hz : ∀ v : List Bool, countEvents v v = 0 := by
    intro v; induction v with
    | nil => rfl
    | cons x xs ih => simp [countEvents, ih]
  induction n with
  | zero => rfl
  | succ n ih => simpa [List.replicate_succ, run, step, hz] using ih

/-- **C08 (acknowledgements).** The receiver answers an interrupt packet exactly
when it knows its peer to support posted updates and the packet is not posted,
and the answer carries the id the sender waits for. -/
theorem ack_sent_iff (cap : Bool) (dev : U32) (clk : U64) (w w' : List Bool) (p : Pkt) (r : Option (List Byte))
    (h : cmdInterrupt cap dev clk w p = some (w', r)) :
    ((∃ b, r = some b) ↔ cap = true ∧ isPosted p.hdr.flags = false) ∧
    ∀ b, r = some b → ∃ rp, IsPacket b rp ∧ rp.hdr.id = p.hdr.id ∧ isResponse rp.hdr.flags = true := by
  unfold cmdInterrupt at h
  split at h
  · rename_i line val hb
    cases hia : interruptAction dev w p with
    | none => simp [hia] at h
    | some w2 =>
      simp only [hia, Option.map_some, Option.some.injEq, Prod.mk.injEq] at h
      obtain ⟨-, rfl⟩ := h
      by_cases hc : cap = true ∧ ¬ isPosted p.hdr.flags = true
      · rw [if_pos hc]
        refine ⟨⟨fun _ => by simpa using hc, fun _ => ⟨_, rfl⟩⟩, ?_⟩
        intro b hb'
        cases hb'
        obtain ⟨rp, q1, q2, -⟩ := interrupt_roundtrip p.hdr.id p.hdr.dev clk line 0 val (p.hdr.flags ||| flagResponse)
        refine ⟨rp, q1, by rw [q2], ?_⟩
        rw [q2]
        simp only [isResponse]
        generalize p.hdr.flags = f
        have : (f ||| flagResponse) &&& flagResponse = flagResponse := by
          apply BitVec.eq_of_getLsbD_eq
          intro i hi
          simp [BitVec.getLsbD_and, BitVec.getLsbD_or]
          intro h; simp [h]
        rw [this]; decide
      · rw [if_neg hc]
        refine ⟨⟨fun ⟨b, hb'⟩ => (by cases hb'), fun hh => absurd (by simpa using hh) hc⟩, ?_⟩
        intro b hb'; cases hb'
  · cases h

example : ∃ p, cmdInterrupt true 3 0 [false, false] p = some ([false, true], some (encInterrupt 9 3 0 1 0 1 2)) :=
  ⟨{ hdr := { cmd := RP.cmdInterrupt, len := 21, id := 9, flags := 0, dev := 3 }, body := .interrupt 0 0 1 1, used := 21, raw := [] },
    by decide⟩

/-- **C08 (acknowledged mode).** A sender that waits for an acknowledgement sends
nothing and goes on waiting for the same one, however the wires change, until it
arrives; then it is free again. -/
theorem blocked_until_acknowledged (c : Cfg) (s : St) (w : U32) (hw : s.waiting = some w) (vs : List (List Bool))
    (v : List Bool) :
    (run c s (vs.map (·, false))).out = s.out ∧ (run c s (vs.map (·, false))).waiting = some w ∧
      (run c s (vs.map (·, false) ++ [(v, true)])).out = s.out ∧
      (run c s (vs.map (·, false) ++ [(v, true)])).waiting = none := by
  induction vs generalizing s with
  | nil => simp [run, step, hw]
  | cons x xs ih =>
    have h1 : step c s x false = { s with cur := x, waiting := some w } := by simp [step, hw]
    simp only [List.map_cons, List.cons_append, run, h1]
    exact ih { s with cur := x, waiting := some w } rfl

theorem emit_ack (old new : List Bool) (h : old.length = new.length) (i : Nat) (nid lid : U32)
    (hn : countEvents old new ≠ 0) :
    ∃ ms m, (emit false old new i (countEvents old new) nid lid flagPosted).1 = ms ++ [m] ∧
      (∀ x ∈ ms, isPosted x.flags = true) ∧ isPosted m.flags = false ∧
      (emit false old new i (countEvents old new) nid lid flagPosted).2.2 = (m.id, m.flags) := by
  induction old generalizing new i nid lid with
  | nil => cases new <;> simp [countEvents] at hn
  | cons x xs ih =>
    cases new with
    | nil => simp at h
    | cons y ys =>
      have hl : xs.length = ys.length := by simpa using h
      simp only [countEvents, emit] at hn ⊢
      by_cases hxy : x = y
      · simp only [hxy, ne_eq, not_true, if_false, Nat.zero_add] at hn ⊢
        exact ih ys hl (i + 1) nid lid hn
      · simp only [ne_eq, hxy, not_false_eq_true, if_true, Nat.add_sub_cancel_left]
        by_cases hz : countEvents xs ys = 0
        · have hlast : ∀ (a b : List Bool) (i : Nat) (nid lid f : U32), countEvents a b = 0 →
              emit false a b i 0 nid lid f = ([], nid, lid, f) := by
            intro a
            induction a with
            | nil => intro b i nid lid f _; cases b <;> rfl
            | cons p ps ihp =>
              intro b i nid lid f hb
              cases b with
              | nil => rfl
              | cons q qs =>
                simp only [countEvents] at hb
                by_cases hpq : p = q
                · simp only [emit, hpq, ne_eq, not_true, if_false] at hb ⊢
                  exact ihp qs _ _ _ _ (by simpa [hpq] using hb)
                · simp [hpq] at hb
          rw [hz, hlast xs ys _ _ _ _ hz]
          exact ⟨[], _, rfl, by simp, show isPosted 0 = false by decide, rfl⟩
        · obtain ⟨ms, m, e1, e2, e3, e4⟩ := ih ys hl (i + 1) (nid + 1) nid hz
          simp only [hz, false_and, if_false, e1, e4]
          refine ⟨_ :: ms, m, rfl, ?_, e3, rfl⟩
          intro z hz'
          rcases List.mem_cons.mp hz' with e | e
          · subst e; exact (show isPosted flagPosted = true by decide)
          · exact e2 z e

/-- **C08 (acknowledged mode).** When wires change, only the last packet of the
batch asks for an acknowledgement, and it is the one the sender waits for. -/
theorem waits_for_last_packet (c : Cfg) (hc : c.postedUpdates = false) (hp : c.peerCap = true) (s : St)
    (hs : s.waiting = none) (v : List Bool) (hv : s.cur.length = v.length) (hne : v ≠ s.cur) (a : Bool) :
    ∃ ms m, (step c s v a).out = s.out ++ ms ++ [m] ∧ (∀ x ∈ ms, isPosted x.flags = true) ∧
      isPosted m.flags = false ∧ (step c s v a).waiting = some m.id := by
  have hn : countEvents s.cur v ≠ 0 := fun h => hne (countEvents_eq_zero _ _ hv h).symm
  obtain ⟨ms, m, e1, e2, e3, e4⟩ := emit_ack s.cur v hv 0 s.nextId 0 hn
  refine ⟨ms, m, ?_, e2, e3, ?_⟩
  · simp only [step, hs, if_neg hn, hc, e1, List.append_assoc]
  · simp only [step, hs, if_neg hn, hc, hp, e4, e3]
    simp

example : ∃ c : Cfg, c.postedUpdates = false ∧ c.peerCap = true ∧
    (step c { cur := [false, true, false] } [true, false, false] false).waiting = some 1 :=
  ⟨{ postedUpdates := false, peerCap := true }, rfl, rfl, by decide⟩

end Verif.RPWires
