import Verif.Cxs.LinkLemmas
import Verif.ChiLink.Live

/-!
C32: CCIX messages sent over the CXS transmit link arrive at the receive link
as the same sequence of messages, and credits are conserved.

`MsgOk` and `IdsOk` (`Legal.lean`) say which messages are covered; the second
half of this file shows that the promise is broken for others.
-/
namespace Verif.Cxs
open Spec
open ChiLink (In dataOf)

/-! ### Messages and packets -/

/-- A message packed into a packet and taken out again is the same message, in
both header formats. -/
theorem message_round_trip_partial (k : Hdr) (m : Msg) (h : MsgOk m) (hi : IdsOk m.attr) :
    ∃ bytes r, tlpBytes k m = some bytes ∧ extract k bytes [] = some [r] ∧ Same m r ∧
      r.attr.tgtID = m.attr.tgtID ∧ r.attr.srcID = m.attr.srcID ∧ r.attr.msgCredit = m.attr.msgCredit := by
  obtain ⟨b, h1, -, -, h4⟩ := extract_tlp k h hi
  obtain ⟨r, r1, r2⟩ := h4 []
  exact ⟨b, r, h1, r1, r2⟩

/-- Several messages behind one packet header all arrive, in order; the message
credit of the header is given to the first. -/
theorem packed_messages_partial (k : Hdr) (a : Attr) (hi : IdsOk a) (ms : List Msg) (h : ∀ m ∈ ms, MsgOk m) (n : Nat)
    (hn : n < 32) : ∃ hs ws rs, k.words a n = some hs ∧ encodeAll ms = some ws ∧
      extract k (wordsBytes (hs ++ ws)) [] = some rs ∧ Each Same ms rs ∧
      (∀ r ∈ rs, r.attr.tgtID = a.tgtID ∧ r.attr.srcID = a.srcID) ∧
      rs.map (fun r => r.attr.msgCredit) = (match rs with | [] => [] | _ :: rest => a.msgCredit :: rest.map fun _ => 0) := by
  obtain ⟨hs, ws, h1, h2, h3⟩ := extract_packed k hi ms h hn
  obtain ⟨rs, r1, r2⟩ := h3 []
  refine ⟨hs, ws, rs, h1, h2, r1, ?_, ?_, ?_⟩
  · clear h1 h2 h3 r1 h
    generalize a.msgCredit = c at r2
    induction r2 with
    | nil => exact .nil
    | cons s _ _ _ _ ih => exact .cons s ih
  · clear h1 h2 h3 r1 h
    generalize a.msgCredit = c at r2
    induction r2 with
    | nil => intro r hr; simp at hr
    | cons s t u v _ ih =>
      intro r hr
      rcases List.mem_cons.1 hr with rfl | hr
      · exact ⟨t, u⟩
      · exact ih r hr
  · have key : ∀ ms rs, ArriveAll a.tgtID a.srcID 0 ms rs → rs.map (fun r => r.attr.msgCredit) = rs.map fun _ => 0 := by
      intro ms rs h
      generalize hc : (0 : BitVec 8) = c at h
      induction h with
      | nil => rfl
      | cons s t u v _ ih => simp only [List.map_cons, v, ih rfl, hc]
    cases r2 with
    | nil => rfl
    | cons s t u v w => simp only [List.map_cons, v, key _ _ w]

/-! ### Flits -/

/-- Flits laid out as the CXS specification allows: `carry` says whether a
packet is under way before the first. -/
inductive Stream (c : Cfg) : Bool → List (List Item × BitVec 64) → Prop where
  | nil {carry} : Stream c carry []
  | cons {carry is w rest} : LaidFlit carry is → Represents c w (startsAt 0 is) (endsAt 0 is) →
      (∀ o, o.isSome = carry → Stream c (assemble o is).2.isSome rest) → Stream c carry ((is, w) :: rest)

/-- The receiver on a sequence of flits. -/
def rxFlits (c : Cfg) (k : Hdr) : List (List Byte × BitVec 64) → List Asm → List Msg → Option (List Asm × List Msg)
  | [], as, msgs => some (as, msgs)
  | (d, w) :: fs, as, msgs => (rxFlit c k d w as msgs).bind fun r => rxFlits c k fs r.1 r.2

theorem assemble_append (o : Option (List Byte)) (a b : List Item) :
    assemble o (a ++ b) = ((assemble o a).1 ++ (assemble (assemble o a).2 b).1, (assemble (assemble o a).2 b).2) := by
  induction a generalizing o with
  | nil => simp [assemble]
  | cons i is ih =>
    cases i with
    | gap b' => simp [assemble, ih]
    | seg f l b' => cases l <;> simp [assemble, ih]

theorem extractAll_append (k : Hdr) (a b : List (List Byte)) (msgs : List Msg) :
    extractAll k (a ++ b) msgs = (extractAll k a msgs).bind fun ms => extractAll k b ms := by
  induction a generalizing msgs with
  | nil => rfl
  | cons x xs ih =>
    simp only [List.cons_append, extractAll]
    cases extract k x msgs with
    | none => rfl
    | some ms => exact ih ms

theorem extractAll_sendable (k : Hdr) : ∀ (ms : List Msg), (∀ m ∈ ms, Sendable m) → ∀ msgs,
    ∃ rs, extractAll k (ms.map (bytesOf k)) msgs = some (msgs ++ rs) ∧ Each Arrived ms rs
  | [], _, msgs => ⟨[], by simp [extractAll], .nil⟩
  | m :: ms, h, msgs => by
    obtain ⟨-, -, -, hx⟩ := bytesOf_ok k (h m (List.mem_cons_self ..))
    obtain ⟨r, r1, r2⟩ := hx msgs
    obtain ⟨rs, q1, q2⟩ := extractAll_sendable k ms (fun x hx => h x (List.mem_cons_of_mem _ hx)) (msgs ++ [r])
    refine ⟨r :: rs, ?_, .cons r2 q2⟩
    simp only [List.map_cons, extractAll, r1, Option.bind_some, q1, List.append_assoc, List.singleton_append]

/-- Reassembly: whatever way a sender lays packets out over flits, with any
number of packets in a flit and packets of any length, the receiver takes out
exactly the packets laid out, in order. -/
theorem flits_reassemble (c : Cfg) (k : Hdr) (fs : List (List Item × BitVec 64)) (carry : Option (List Byte))
    (h : Stream c carry.isSome fs) (msgs : List Msg) :
    rxFlits c k (fs.map fun f => (flitBytes f.1, f.2)) (openAsm carry) msgs =
      (extractAll k (assemble carry (fs.flatMap (·.1))).1 msgs).map fun ms =>
        (openAsm (assemble carry (fs.flatMap (·.1))).2, ms) := by
  induction fs generalizing carry msgs with
  | nil => simp [rxFlits, assemble, extractAll]
  | cons f fs ih =>
    obtain ⟨is, w⟩ := f
    cases h with
    | cons h1 h2 h3 =>
      simp only [List.map_cons, rxFlits, List.flatMap_cons, assemble_append]
      rw [rxFlit_laid c k h1 h2 msgs, extractAll_append]
      cases extractAll k (assemble carry is).1 msgs with
      | none => rfl
      | some ms =>
        simp only [Option.map_some, Option.bind_some]
        exact ih _ (h3 carry rfl) ms

/-- With packets of messages on the flits, exactly those messages arrive. -/
theorem flits_deliver_messages (c : Cfg) (k : Hdr) (fs : List (List Item × BitVec 64)) (h : Stream c false fs)
    (ms : List Msg) (hms : ∀ m ∈ ms, Sendable m) (hp : (assemble none (fs.flatMap (·.1))).1 = ms.map (bytesOf k)) :
    ∃ as rs, rxFlits c k (fs.map fun f => (flitBytes f.1, f.2)) [] [] = some (as, rs) ∧ Each Arrived ms rs := by
  have := flits_reassemble c k fs none h []
  rw [hp] at this
  obtain ⟨rs, r1, r2⟩ := extractAll_sendable k ms hms []
  rw [r1] at this
  exact ⟨_, _, this, by simpa using r2⟩

/-! ### The link -/

/-- Use of the link covered by the theorems: no reset, legal messages. -/
def Legal (ops : List LinkOp) : Prop := ∀ o ∈ ops, UseOk o

/-- No assertion fails and nothing undefined happens, and what has been received
is exactly the first messages submitted, in order. -/
theorem messages_in_order_partial (c : Cfg) (hc : CfgOk c) (k : Hdr) (ops : List LinkOp) (h : Legal ops) :
    ∃ l, Link.run c k (.init c) ops = some l ∧
      ∃ done todo, sentMsgs ops = done ++ todo ∧ Each Arrived done (l.delivered ++ l.msgs) := by
  obtain ⟨l, h1, h2⟩ := inv_run hc k ops [] (by simp) _ _ (inv_init c k) h
  obtain ⟨done, todo, q1, q2, -⟩ := h2.rx
  exact ⟨l, h1, done, todo, by simpa using q1, q2⟩

theorem wire_count {c : Cfg} {l : Link} {s : ChiLink.St Piece} (h : Rel c l s) :
    s.wire.toList.length = (l.valid || l.rtn).toNat := by
  have := h.wire
  cases hw : s.wire with
  | none => rw [hw] at this; obtain ⟨h1, h2⟩ := this; simp [h1, h2]
  | some w =>
    rw [hw] at this
    cases w with
    | creditReturn => obtain ⟨h1, h2⟩ := this; simp [h1, h2]
    | data p => obtain ⟨h1, h2, -⟩ := this; simp [h1, h2]

/-- Credits are conserved: at the transmitter, being granted, on the wires with
a flit or being returned, and at the receiver, always fifteen. -/
theorem credits_conserved_partial (c : Cfg) (hc : CfgOk c) (k : Hdr) (ops : List LinkOp) (h : Legal ops) :
    ∃ l, Link.run c k (.init c) ops = some l ∧
      l.txCred + l.gnt.toNat + (l.valid || l.rtn).toNat + l.rxCred = 15 := by
  obtain ⟨l, h1, h2⟩ := inv_run hc k ops [] (by simp) _ _ (inv_init c k) h
  refine ⟨l, h1, ?_⟩
  have := h2.core.total
  unfold ChiLink.St.total at this
  rw [wire_count h2.rel, h2.rel.txCred, h2.rel.gnt, h2.rel.rxCred] at this
  exact this

theorem progress_empty {c : Cfg} {k : Hdr} {as : List Asm} {todo : List Msg} (h : Progress c k as todo []) :
    as = [] ∧ todo = [] := by
  generalize hr : ([] : List Piece) = r at h
  cases h with
  | between =>
    cases todo with
    | nil => exact ⟨rfl, rfl⟩
    | cons m ms =>
      rw [List.flatMap_cons] at hr
      exact absurd (List.append_eq_nil_iff.1 hr.symm).1 (cut_ne_nil _ _ _)
  | inside =>
    exact absurd (List.append_eq_nil_iff.1 hr.symm).1 (cut_ne_nil _ _ _)

/-- Nothing is lost: when no packet is queued unsent and none is on the wires,
every message submitted has been received. -/
theorem idle_link_has_delivered_partial (c : Cfg) (hc : CfgOk c) (k : Hdr) (ops : List LinkOp) (h : Legal ops) :
    ∃ l, Link.run c k (.init c) ops = some l ∧
      (l.valid = false → (∀ t ∈ l.queue, t.done = true) → Each Arrived (sentMsgs ops) (l.delivered ++ l.msgs)) := by
  obtain ⟨l, h1, h2⟩ := inv_run hc k ops [] (by simp) _ _ (inv_init c k) h
  refine ⟨l, h1, fun hv hq => ?_⟩
  obtain ⟨done, todo, q1, q2, q3⟩ := h2.rx
  have hway : onTheWay (ChiLink.run ChiLink.St.init (ops.flatMap (absOp c k))) = [] := by
    generalize ChiLink.run ChiLink.St.init (ops.flatMap (absOp c k)) = s at *
    have hw : dataOf s.wire.toList = [] := by
      have := h2.rel.wire
      cases hw : s.wire with
      | none => rfl
      | some w =>
        rw [hw] at this
        cases w with
        | creditReturn => rfl
        | data p => obtain ⟨g, -⟩ := this; rw [hv] at g; simp at g
    have hf : s.queue.flatten = [] := by
      rw [h2.rel.queue.eq, List.flatten_eq_nil_iff]
      intro x hx
      obtain ⟨t, ht, rfl⟩ := List.mem_map.1 hx
      exact pieces_nil.2 (hq t ht)
    rw [onTheWay, hw, hf]; rfl
  rw [hway] at q3
  obtain ⟨-, rfl⟩ := progress_empty q3
  rw [List.append_nil] at q1
  rw [List.nil_append] at q1
  rw [q1]
  exact q2

/-- `n` clock edges. -/
def clock (f : Nat → In) : Nat → List LinkOp
  | 0 => []
  | n + 1 => .tick (f 0) :: clock (fun j => f (j + 1)) n

theorem clock_abs (c : Cfg) (k : Hdr) (f : Nat → In) (n : Nat) :
    (clock f n).flatMap (absOp c k) = ChiLink.edges (fun j => absIn (f j)) n := by
  induction n generalizing f with
  | zero => rfl
  | succ n ih =>
    simp only [clock, List.flatMap_cons, absOp, ih, ChiLink.edges, List.singleton_append]

theorem clock_sent (f : Nat → In) (n : Nat) : sentMsgs (clock f n) = [] := by
  induction n generalizing f with
  | zero => rfl
  | succ n ih => exact ih _

theorem sentMsgs_append (a b : List LinkOp) : sentMsgs (a ++ b) = sentMsgs a ++ sentMsgs b := by
  induction a with
  | nil => rfl
  | cons o os ih => cases o <;> simp [sentMsgs, ih]

theorem clock_legal (f : Nat → In) (n : Nat) : Legal (clock f n) := by
  induction n generalizing f with
  | zero => intro o ho; simp [clock] at ho
  | succ n ih =>
    intro o ho
    rcases List.mem_cons.1 ho with rfl | ho
    · trivial
    · exact ih _ o ho

/-- The last request to run or stop. -/
def wanted (ops : List LinkOp) : Bool := ops.foldl (fun b o => match o with | .setState x => x | _ => b) true

theorem want_eq {c : Cfg} {k : Hdr} : ∀ (ops : List LinkOp) {l l' : Link}, Link.run c k l ops = some l' →
    l'.want = ops.foldl (fun b o => match o with | .setState x => x | _ => b) l.want
  | [], l, l', h => by obtain rfl := Option.some.inj h; rfl
  | o :: os, l, l', h => by
    simp only [Link.run] at h
    cases h1 : l.step c k o with
    | none => rw [h1] at h; simp at h
    | some l1 =>
      rw [h1] at h
      have := want_eq os (l := l1) h
      rw [this, List.foldl_cons]
      congr 1
      cases o with
      | submit m =>
        simp only [Link.step] at h1
        cases h2 : tlpBytes k m with
        | none => rw [h2] at h1; simp at h1
        | some b => rw [h2] at h1; obtain rfl := Option.some.inj h1; rfl
      | setState b => obtain rfl := Option.some.inj h1; rfl
      | tick i =>
        simp only [Link.step] at h1
        cases h2 : txTick c l with
        | none => rw [h2] at h1; simp at h1
        | some tx =>
          cases h3 : rxTick c k l with
          | none => rw [h2, h3] at h1; simp at h1
          | some rx => rw [h2, h3] at h1; obtain rfl := Option.some.inj h1; rfl
      | deliver =>
        obtain rfl := Option.some.inj h1
        unfold Link.deliver
        cases l.msgs <;> rfl
      | reset => obtain rfl := Option.some.inj h1; rfl

theorem noReset_abs {c : Cfg} {k : Hdr} {ops : List LinkOp} (h : Legal ops) :
    ChiLink.NoReset (ops.flatMap (absOp c k)) := by
  intro o ho
  obtain ⟨x, hx, hox⟩ := List.mem_flatMap.1 ho
  have hu := h x hx
  cases x with
  | submit m =>
    simp only [absOp] at hox
    cases hp : piecesOf c k m with
    | nil => rw [hp] at hox; simp at hox
    | cons p ps => rw [hp] at hox; obtain rfl := List.mem_singleton.1 hox; rfl
  | setState b => obtain rfl := List.mem_singleton.1 hox; rfl
  | tick i => obtain rfl := List.mem_singleton.1 hox; rfl
  | deliver => simp [absOp] at hox
  | reset => exact hu.elim

/-- Everything arrives: after any legal history whose last request was to run,
enough further clock edges bring every message submitted to the receiver, in
order, however the processes are scheduled, as long as the peer does not ask
for deactivation. -/
theorem everything_arrives_partial (c : Cfg) (hc : CfgOk c) (k : Hdr) (ops : List LinkOp) (h : Legal ops)
    (hw : wanted ops = true) (f : Nat → In) (hf : ∀ j, (f j).fwd = false) :
    ∃ n l, Link.run c k (.init c) (ops ++ clock f n) = some l ∧
      Each Arrived (sentMsgs ops) (l.delivered ++ l.msgs) := by
  have hcalm : ChiLink.Calm fun j => absIn (f j) := fun j => ⟨rfl, hf j⟩
  obtain ⟨l0, e0, i0⟩ := inv_run hc k ops [] (by simp) _ _ (inv_init c k) h
  have hwant : (ChiLink.run (ChiLink.St.init : ChiLink.St Piece) (ops.flatMap (absOp c k))).want = true := by
    rw [i0.rel.want, want_eq ops e0]
    exact hw
  obtain ⟨n, n1, n2⟩ := ChiLink.reach_idle _ hcalm (ChiLink.Good.ofRun _ (noReset_abs (c := c) (k := k) h)) hwant
  have hl : Legal (ops ++ clock f n) := by
    intro o ho
    rcases List.mem_append.1 ho with ho | ho
    · exact h o ho
    · exact clock_legal f n o ho
  obtain ⟨l, e1, i1⟩ := inv_run hc k (ops ++ clock f n) [] (by simp) _ _ (inv_init c k) hl
  refine ⟨n, l, e1, ?_⟩
  obtain ⟨done, todo, q1, q2, q3⟩ := i1.rx
  have hway : onTheWay (ChiLink.run (ChiLink.St.init : ChiLink.St Piece) ((ops ++ clock f n).flatMap (absOp c k))) = [] := by
    rw [List.flatMap_append, ChiLink.run_append, clock_abs, onTheWay, n1, n2]; rfl
  rw [hway] at q3
  obtain ⟨-, rfl⟩ := progress_empty q3
  rw [List.append_nil, List.nil_append, sentMsgs_append, clock_sent, List.append_nil] at q1
  rw [q1]
  exact q2

end Verif.Cxs
