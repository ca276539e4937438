import Verif.Cxs.Link
import Verif.Cxs.FlitLemmas
import Verif.Cxs.TlpLemmas
import Verif.ChiLink.Props

/-! The CXS link is the credited link of `ChiLink`, carrying stretches of
packets. -/
namespace Verif.Cxs
open Spec
open ChiLink (Wire In dataOf)

/-- Stretches of a packet still to be sent. -/
def pieces (n : Nat) (t : Tlp) : List Piece :=
  if t.done then [] else cut n (decide (t.pos = 0)) (t.bytes.drop t.pos)

theorem cut_ne_nil (n : Nat) (f : Bool) (bs : List Byte) : cut n f bs ≠ [] := by
  rw [cut]
  split <;> simp

/-- The stretch `p` is on the wires. -/
structure Carries (c : Cfg) (data : List Byte) (cntl : BitVec 64) (p : Piece) : Prop where
  len : p.bytes.length % 4 = 0
  four : 4 ≤ p.bytes.length
  whole : p.last = false → p.bytes.length = 4 * c.words
  bytes : ∃ junk, data = p.bytes ++ junk
  cntl : Represents c cntl (if p.first then [0] else []) (if p.last then [(p.bytes.length - 4) / 4] else [])

/-- The wires against the abstract wire. -/
def WireRel (c : Cfg) (valid : Bool) (data : List Byte) (cntl : BitVec 64) (rtn : Bool) :
    Option (Wire Piece) → Prop
  | none => valid = false ∧ rtn = false
  | some .creditReturn => valid = false ∧ rtn = true
  | some (.data p) => valid = true ∧ rtn = false ∧ Carries c data cntl p

structure QueueRel (c : Cfg) (q : List Tlp) (aq : List (List Piece)) : Prop where
  eq : aq = q.map (pieces (4 * c.words))
  ok : ∀ t ∈ q, TlpOk t
  fresh : ∀ t ∈ q.tail, t.done = false

structure Rel (c : Cfg) (l : Link) (s : ChiLink.St Piece) : Prop where
  req : s.req = l.req
  ack : s.ack = l.ack
  gnt : s.lcrdv = l.gnt
  want : s.want = l.want
  deact : s.deact = l.deact
  txCred : s.txCred = l.txCred
  rxCred : s.rxCred = l.rxCred
  completed : s.completed = l.completed
  dataLen : l.data.length = 4 * c.words
  wire : WireRel c l.valid l.data l.cntl l.rtn s.wire
  queue : QueueRel c l.queue s.queue

theorem Rel.state {c : Cfg} {l : Link} {s : ChiLink.St Piece} (h : Rel c l s) : s.state = l.state := by
  simp only [ChiLink.St.state, Link.state, h.req, h.ack]

/-! ### Transmission of one flit -/

theorem fill_piece {c : Cfg} (hc : CfgOk c) {t : Tlp} (ht : TlpOk t) (hd : t.done = false) {data : List Byte}
    (hl : data.length = 4 * c.words) :
    ∃ p ps data' t' w n, pieces (4 * c.words) t = p :: ps ∧ fill data 0 t {} = some (data', t', n) ∧
      n.toWord c = some w ∧ data'.length = 4 * c.words ∧ TlpOk t' ∧ pieces (4 * c.words) t' = ps ∧
      Carries c data' w p := by
  obtain ⟨bs, pos, done⟩ := t
  obtain ⟨h1, h2, h3, h4, h5⟩ := ht
  simp only at h1 h2 h3 h4 h5 hd
  have hlt : pos < bs.length := by
    rw [h5] at hd
    have := of_decide_eq_false hd
    omega
  have hwp := hc.words.1
  have hfill := fill_eq bs h2 data 0 pos done {} h4 h5
  have hne : data ≠ [] := by
    intro h0; rw [h0] at hl; simp at hl; omega
  have hdl : (bs.drop pos).length = bs.length - pos := List.length_drop
  by_cases hs : bs.length - pos ≤ 4 * c.words
  · -- the packet ends in this flit
    have hend : pos ≤ bs.length - 4 ∧ bs.length - 4 < pos + data.length := by omega
    obtain ⟨w, w1, w2⟩ := toWord_one hc (decide (pos = 0)) (some ((bs.length - pos - 4) / 4)) (by
      intro x hx
      have hx : (bs.length - pos - 4) / 4 = x := by simpa using hx
      omega)
    have e1 : 0 + (bs.length - 4 - pos) = bs.length - pos - 4 := by omega
    refine ⟨⟨decide (pos = 0), true, bs.drop pos⟩, [], _, _, w, _, ?_, hfill, ?_, ?_, ?_, ?_, ?_⟩
    · simp only [pieces, hd, Bool.false_eq_true, if_false]
      exact cut_short (by omega)
    · rw [← w1]
      simp only [if_pos hend, e1, hne, ne_eq, not_false_eq_true, and_true, List.nil_append, decide_eq_true_eq,
        Option.toList_some]
    · rw [List.length_append, List.length_take, hdl, List.length_drop]; omega
    · have hmin : min (pos + data.length) bs.length = bs.length := by omega
      rw [hmin]
      exact ⟨h1, h2, h1, Nat.le_refl _, by simp; omega⟩
    · have : decide (bs.length ≤ pos + data.length) = true := by simp; omega
      simp only [pieces, this, if_true]
    · refine ⟨by rw [hdl]; omega, by rw [hdl]; omega, by simp, ⟨data.drop (bs.length - pos), ?_⟩, ?_⟩
      · rw [List.take_of_length_le (by rw [hdl]; omega)]
      · simpa [hdl] using w2
  · -- it goes on
    have hend : ¬ (pos ≤ bs.length - 4 ∧ bs.length - 4 < pos + data.length) := by omega
    obtain ⟨w, w1, w2⟩ := toWord_one hc (decide (pos = 0)) none (by simp)
    have htk : ((bs.drop pos).take (4 * c.words)).length = 4 * c.words := by
      rw [List.length_take, hdl]; omega
    refine ⟨⟨decide (pos = 0), false, (bs.drop pos).take (4 * c.words)⟩, cut (4 * c.words) false ((bs.drop pos).drop (4 * c.words)),
      _, _, w, _, ?_, hfill, ?_, ?_, ?_, ?_, ?_⟩
    · simp only [pieces, hd, Bool.false_eq_true, if_false]
      exact cut_long (by omega) (by omega)
    · rw [← w1]
      simp only [if_neg hend, hne, ne_eq, not_false_eq_true, and_true, List.nil_append, decide_eq_true_eq,
        Option.toList_none]
    · rw [List.length_append, List.length_take, hdl, List.length_drop]; omega
    · have hmin : min (pos + data.length) bs.length = pos + data.length := by omega
      rw [hmin]
      exact ⟨h1, h2, by simp only; omega, by simp only; omega, by
        simp only
        exact decide_eq_decide.2 (by omega)⟩
    · have hmin : min (pos + data.length) bs.length = pos + data.length := by omega
      have : decide (bs.length ≤ pos + data.length) = false := decide_eq_false (by omega)
      have hz : decide (pos + data.length = 0) = false := decide_eq_false (by omega)
      simp only [pieces, this, Bool.false_eq_true, if_false, hmin, hz, List.drop_drop]
      rw [hl]
    · refine ⟨by rw [htk]; omega, by rw [htk]; omega, fun _ => htk, ⟨[], ?_⟩, ?_⟩
      · rw [hl, List.drop_of_length_le (l := data) (by omega)]
      · simpa using w2

/-- A packet to be sent has something left. -/
theorem pieces_nil {n : Nat} {t : Tlp} : pieces n t = [] ↔ t.done = true := by
  unfold pieces
  split
  · simp [*]
  · simp [cut_ne_nil, *]

theorem popDone_rel {c : Cfg} {q : List Tlp} {aq : List (List Piece)} (h : QueueRel c q aq) :
    (ChiLink.popDone aq).1 = (popDone q).1.map (pieces (4 * c.words)) ∧
    (ChiLink.popDone aq).2 = (popDone q).2 ∧
    (∀ t ∈ (popDone q).1, TlpOk t ∧ t.done = false) := by
  obtain ⟨rfl, hok, hf⟩ := h
  cases q with
  | nil => simp [popDone, ChiLink.popDone]
  | cons t ts =>
    have hok' : ∀ x ∈ ts, TlpOk x := fun x hx => hok x (List.mem_cons_of_mem _ hx)
    cases hd : t.done
    · have hne : pieces (4 * c.words) t ≠ [] := by
        intro h0; rw [pieces_nil, hd] at h0; simp at h0
      obtain ⟨p, ps, hp⟩ := List.exists_cons_of_ne_nil hne
      simp only [popDone, hd, List.map_cons, hp, ChiLink.popDone, Bool.false_eq_true, if_false, true_and]
      intro x hx
      rcases List.mem_cons.1 hx with rfl | hx
      · exact ⟨hok _ (List.mem_cons_self ..), hd⟩
      · exact ⟨hok' x hx, hf x hx⟩
    · have he : pieces (4 * c.words) t = [] := pieces_nil.2 hd
      simp only [popDone, hd, List.map_cons, he, ChiLink.popDone, if_true, true_and]
      intro x hx
      exact ⟨hok' x hx, hf x hx⟩

/-- Outputs of the transmit threads agree. -/
structure TxRel (c : Cfg) (o : TxOut) (a : ChiLink.TxOut Piece) : Prop where
  wire : WireRel c o.valid o.data o.cntl o.rtn a.wire
  cred : a.cred = o.cred
  queue : QueueRel c o.queue a.queue
  popped : a.popped = o.popped
  len : o.data.length = 4 * c.words

theorem sendNext_rel {c : Cfg} (hc : CfgOk c) {data : List Byte} (hl : data.length = 4 * c.words) (cntl : BitVec 64)
    (d : Bool) (cred : Nat) (q : List Tlp) (hq : ∀ t ∈ q, TlpOk t ∧ t.done = false) (popped : Nat) :
    ∃ o, sendNext c data cntl d cred q popped = some o ∧
      TxRel c o { ChiLink.sendNext d cred (q.map (pieces (4 * c.words))) with popped := popped } := by
  cases cred with
  | zero =>
    exact ⟨_, rfl, ⟨rfl, rfl⟩, rfl, ⟨rfl, fun t ht => (hq t ht).1, fun t ht => (hq t (List.mem_of_mem_tail ht)).2⟩, rfl, hl⟩
  | succ cred =>
    cases q with
    | nil =>
      cases d
      · exact ⟨_, rfl, ⟨rfl, rfl⟩, rfl, ⟨rfl, by simp, by simp⟩, rfl, hl⟩
      · exact ⟨_, rfl, ⟨rfl, rfl⟩, rfl, ⟨rfl, by simp, by simp⟩, rfl, hl⟩
    | cons t ts =>
      obtain ⟨ht, hd⟩ := hq t (List.mem_cons_self ..)
      obtain ⟨p, ps, data', t', w, n, e1, e2, e3, e4, e5, e6, e7⟩ := fill_piece hc ht hd hl
      refine ⟨⟨true, data', w, false, cred, t' :: ts, popped⟩, by simp [sendNext, e2, e3], ?_⟩
      have hts : ∀ x ∈ ts, TlpOk x ∧ x.done = false := fun x hx => hq x (List.mem_cons_of_mem _ hx)
      simp only [List.map_cons, e1, ChiLink.sendNext]
      refine ⟨⟨rfl, rfl, e7⟩, rfl, ⟨by simp [e6], ?_, fun x hx => (hts x hx).2⟩, rfl, e4⟩
      intro x hx
      rcases List.mem_cons.1 hx with rfl | hx
      · exact e5
      · exact (hts x hx).1

theorem txTick_rel {c : Cfg} (hc : CfgOk c) {l : Link} {s : ChiLink.St Piece} (h : Rel c l s) :
    ∃ o, txTick c l = some o ∧ TxRel c o (ChiLink.txTick s) := by
  unfold txTick ChiLink.txTick
  rw [h.state]
  have hrun : ∀ d, ∃ o, sendNext c l.data l.cntl d (l.txCred + l.gnt.toNat) (popDone l.queue).1 (popDone l.queue).2 = some o ∧
      TxRel c o { ChiLink.sendNext d (s.txCred + s.lcrdv.toNat) (ChiLink.popDone s.queue).1 with
        popped := (ChiLink.popDone s.queue).2 } := by
    intro d
    obtain ⟨p1, p2, p3⟩ := popDone_rel h.queue
    rw [p1, p2, h.txCred, h.gnt]
    exact sendNext_rel hc h.dataLen _ _ _ _ p3 _
  cases l.state with
  | stop => exact ⟨_, rfl, h.wire, h.txCred, h.queue, rfl, h.dataLen⟩
  | activate =>
    refine ⟨_, rfl, ⟨rfl, rfl⟩, ?_, h.queue, rfl, h.dataLen⟩
    simp only [h.txCred, h.gnt]
  | run => exact hrun _
  | deactivate => exact hrun _

/-! ### Reception of one flit -/

/-- `m_tlp` of a message that can be sent. -/
def bytesOf (k : Hdr) (m : Msg) : List Byte := (tlpBytes k m).getD []

/-- All stretches of the packet of a message. -/
def piecesOf (c : Cfg) (k : Hdr) (m : Msg) : List Piece := cut (4 * c.words) true (bytesOf k m)

/-- The message `m` arrived as `r`. -/
def Arrived (m r : Msg) : Prop :=
  Same m r ∧ r.attr.tgtID = m.attr.tgtID ∧ r.attr.srcID = m.attr.srcID ∧ r.attr.msgCredit = m.attr.msgCredit

def Sendable (m : Msg) : Prop := MsgOk m ∧ IdsOk m.attr

theorem bytesOf_ok (k : Hdr) {m : Msg} (h : Sendable m) :
    tlpBytes k m = some (bytesOf k m) ∧ 4 ≤ (bytesOf k m).length ∧ (bytesOf k m).length % 4 = 0 ∧
      ∀ msgs, ∃ r, extract k (bytesOf k m) msgs = some (msgs ++ [r]) ∧ Arrived m r := by
  obtain ⟨b, h1, h2, h3, h4⟩ := extract_tlp k h.1 h.2
  have : bytesOf k m = b := by simp [bytesOf, h1]
  rw [this]
  exact ⟨h1, h2, h3, h4⟩

/-- Where the receiver is: messages `done` have been taken out, and the
stretches `rest` are still to come for the messages `todo`. -/
inductive Progress (c : Cfg) (k : Hdr) : List Asm → List Msg → List Piece → Prop where
  | between {todo} : Progress c k [] todo (todo.flatMap (piecesOf c k))
  | inside {m todo d b} : bytesOf k m = d ++ b → d.length % 4 = 0 → 4 ≤ b.length → b.length % 4 = 0 →
      Progress c k [⟨0, none, d⟩] (m :: todo) (cut (4 * c.words) false b ++ todo.flatMap (piecesOf c k))

/-- The items of a flit with one stretch. -/
def itemsOf (p : Piece) (junk : List Byte) : List Item :=
  if junk = [] then [.seg p.first p.last p.bytes] else [.seg p.first p.last p.bytes, .gap junk]

theorem flitBytes_itemsOf (p : Piece) (junk : List Byte) : flitBytes (itemsOf p junk) = p.bytes ++ junk := by
  unfold itemsOf
  split
  · simp [flitBytes, Item.bytes, *]
  · simp [flitBytes, Item.bytes]

theorem startsAt_itemsOf (p : Piece) (junk : List Byte) :
    startsAt 0 (itemsOf p junk) = if p.first then [0] else [] := by
  obtain ⟨f, l, b⟩ := p
  unfold itemsOf
  split <;> cases f <;> simp [startsAt]

theorem endsAt_itemsOf (p : Piece) (junk : List Byte) :
    endsAt 0 (itemsOf p junk) = if p.last then [(p.bytes.length - 4) / 4] else [] := by
  obtain ⟨f, l, b⟩ := p
  unfold itemsOf
  split <;> cases l <;> simp [endsAt]

theorem laid_itemsOf {p : Piece} {junk : List Byte} (h4 : 4 ≤ p.bytes.length) (hl : p.bytes.length % 4 = 0)
    (hj : junk.length % 4 = 0) (ho : p.last = false → junk = []) : LaidFlit (!p.first) (itemsOf p junk) := by
  obtain ⟨f, l, b⟩ := p
  simp only at h4 hl ho
  have hg : Laid b.length (if junk = [] then [] else [.gap junk]) := by
    split
    · exact .nil
    · exact .gap hj .nil
  have he : itemsOf ⟨f, l, b⟩ junk = .seg f l b :: (if junk = [] then [] else [.gap junk]) := by
    unfold itemsOf
    split <;> rfl
  rw [he]
  cases f
  · cases l
    · rw [ho rfl]; exact .through hl h4
    · exact .finish hl h4 hg
  · cases l
    · rw [ho rfl]; exact .fresh (.begin rfl hl h4)
    · exact .fresh (.whole rfl hl h4 (by rw [Nat.zero_add]; exact hg))

theorem assemble_itemsOf (o : Option (List Byte)) (p : Piece) (junk : List Byte) :
    assemble o (itemsOf p junk) =
      if p.last then ([o.getD [] ++ p.bytes], none) else ([], some (o.getD [] ++ p.bytes)) := by
  obtain ⟨f, l, b⟩ := p
  unfold itemsOf
  split <;> cases l <;> simp [assemble]

/-- Reception of a stretch. -/
theorem rx_piece {c : Cfg} (hc : CfgOk c) (k : Hdr) {data : List Byte} {cntl : BitVec 64} {p : Piece}
    (hp : Carries c data cntl p) (hl : data.length = 4 * c.words) (o : Option (List Byte))
    (ho : o.isSome = !p.first) (msgs : List Msg) :
    rxFlit c k data cntl (openAsm o) msgs =
      if p.last then (extract k (o.getD [] ++ p.bytes) msgs).map fun msgs => ([], msgs)
      else some ([⟨0, none, o.getD [] ++ p.bytes⟩], msgs) := by
  obtain ⟨junk, rfl⟩ := hp.bytes
  have h1 := hp.len
  have hw := hc.words.2
  rw [List.length_append] at hl
  have hlaid := laid_itemsOf (p := p) (junk := junk) hp.four hp.len (by omega) (by
    intro hlast
    have := hp.whole hlast
    exact List.eq_nil_of_length_eq_zero (by omega))
  rw [← ho] at hlaid
  have hr := hp.cntl
  rw [← startsAt_itemsOf p junk, ← endsAt_itemsOf p junk] at hr
  have := rxFlit_laid c k hlaid hr msgs
  rw [flitBytes_itemsOf, assemble_itemsOf] at this
  rw [this]
  cases p.last
  · simp [extractAll, openAsm]
  · simp only [if_true, extractAll, openAsm]
    cases extract k (o.getD [] ++ p.bytes) msgs <;> rfl

/-- The receiver takes the next stretch: it does not fail, and either hands out
no message or exactly the next one. -/
theorem rx_progress {c : Cfg} (hc : CfgOk c) (k : Hdr) {data : List Byte} {cntl : BitVec 64} {p : Piece}
    (hp : Carries c data cntl p) (hl : data.length = 4 * c.words) {as : List Asm} {todo : List Msg}
    (ht : ∀ m ∈ todo, Sendable m) {rest : List Piece} (hpr : Progress c k as todo (p :: rest)) (msgs : List Msg) :
    ∃ as' new todo1 todo2, rxFlit c k data cntl as msgs = some (as', msgs ++ new) ∧ todo = todo1 ++ todo2 ∧
      Each Arrived todo1 new ∧ Progress c k as' todo2 rest := by
  have hw := hc.words.1
  generalize hR : p :: rest = R at hpr
  cases hpr with
  | between =>
    cases todo with
    | nil => simp at hR
    | cons m ms =>
      obtain ⟨-, b4, bl, bx⟩ := bytesOf_ok k (ht m (List.mem_cons_self ..))
      rw [List.flatMap_cons] at hR
      have hrx := rx_piece hc k hp hl none
      by_cases hs : (bytesOf k m).length ≤ 4 * c.words
      · rw [piecesOf, cut_short hs] at hR
        obtain ⟨rfl, rfl⟩ := List.cons.inj hR
        obtain ⟨r, r1, r2⟩ := bx msgs
        have := hrx rfl msgs
        simp only [if_true, Option.getD_none, List.nil_append, r1, Option.map_some] at this
        exact ⟨[], [r], [m], ms, this, rfl, .cons r2 .nil, .between⟩
      · rw [piecesOf, cut_long (by omega) (by omega)] at hR
        obtain ⟨rfl, rfl⟩ := List.cons.inj hR
        have := hrx rfl msgs
        simp only [Bool.false_eq_true, if_false, Option.getD_none, List.nil_append] at this
        refine ⟨_, [], [], m :: ms, by rw [List.append_nil]; exact this, rfl, .nil, ?_⟩
        refine .inside (List.take_append_drop _ _).symm ?_ ?_ ?_
        · rw [List.length_take]; omega
        · rw [List.length_drop]; omega
        · rw [List.length_drop]; omega
  | @inside m ms d b hb d4 b4 bl =>
    obtain ⟨-, -, -, bx⟩ := bytesOf_ok k (ht m (List.mem_cons_self ..))
    have hrx := rx_piece hc k hp hl (some d)
    by_cases hs : b.length ≤ 4 * c.words
    · rw [cut_short hs] at hR
      obtain ⟨rfl, rfl⟩ := List.cons.inj hR
      obtain ⟨r, r1, r2⟩ := bx msgs
      have := hrx rfl msgs
      simp only [if_true, Option.getD_some, ← hb, r1, Option.map_some] at this
      exact ⟨[], [r], [m], ms, this, rfl, .cons r2 .nil, .between⟩
    · rw [cut_long (by omega) (by omega)] at hR
      obtain ⟨rfl, rfl⟩ := List.cons.inj hR
      have := hrx rfl msgs
      simp only [Bool.false_eq_true, if_false, Option.getD_some] at this
      refine ⟨_, [], [], m :: ms, by rw [List.append_nil]; exact this, rfl, .nil, ?_⟩
      refine .inside (by rw [hb, List.append_assoc, List.take_append_drop]) ?_ ?_ ?_
      · rw [List.length_append, List.length_take]; omega
      · rw [List.length_drop]; omega
      · rw [List.length_drop]; omega

/-! ### Steps -/

/-- Stretches on their way. -/
def onTheWay (s : ChiLink.St Piece) : List Piece := dataOf s.wire.toList ++ s.queue.flatten

structure Inv (c : Cfg) (k : Hdr) (ms : List Msg) (l : Link) (s : ChiLink.St Piece) : Prop where
  rel : Rel c l s
  core : ChiLink.Core 15 s
  rx : ∃ done todo, ms = done ++ todo ∧ Each Arrived done (l.delivered ++ l.msgs) ∧
    Progress c k l.asms todo (onTheWay s)

theorem onTheWay_tick (s : ChiLink.St Piece) (hc : ChiLink.Core 15 s) (i : In) :
    (s.state = .stop → onTheWay (ChiLink.step s (.tick i)) = onTheWay s ∧ s.wire = none) ∧
    (s.state ≠ .stop → onTheWay s = dataOf s.wire.toList ++ onTheWay (ChiLink.step s (.tick i))) := by
  constructor
  · intro hs
    obtain ⟨-, q2⟩ := hc.quiet hs
    refine ⟨?_, q2⟩
    simp [onTheWay, ChiLink.step, ChiLink.txTick, hs]
  · intro hs
    have := ChiLink.txTick_data s hs
    simp only [onTheWay, ChiLink.step]
    rw [this]

/-- Ids of operations: what the abstract link does. -/
def absIn (i : In) : In := { i with others := true }

theorem each_append {α β : Type} {R : α → β → Prop} {a b : List α} {x y : List β} (h : Each R a x) (h' : Each R b y) :
    Each R (a ++ b) (x ++ y) := by
  induction h with
  | nil => exact h'
  | cons h1 _ ih => exact .cons h1 ih

theorem giveCredit_eq (st : ChiLink.LinkState) (n : Nat) (f : List (Wire Piece)) :
    (if st = .deactivate then (n, false, f) else match n with | 0 => (0, false, f) | c + 1 => (c, true, f)) =
      ((giveCredit (st == .deactivate) n).1, (giveCredit (st == .deactivate) n).2, f) := by
  unfold giveCredit
  cases st <;> cases n <;> rfl

theorem rxTick_abs (s : ChiLink.St Piece) (hs : s.state ≠ .stop) :
    ChiLink.rxTick s = ((giveCredit (s.state == .deactivate) (s.rxCred + s.wire.toList.length)).1,
      (giveCredit (s.state == .deactivate) (s.rxCred + s.wire.toList.length)).2, s.wire.toList) := by
  unfold ChiLink.rxTick
  split
  · contradiction
  · dsimp only
    exact giveCredit_eq _ _ _

/-- One clock edge: nothing fails and the invariant is kept. -/
theorem inv_tick {c : Cfg} (hc : CfgOk c) (k : Hdr) {ms : List Msg} (hms : ∀ m ∈ ms, Sendable m) {l : Link}
    {s : ChiLink.St Piece} (h : Inv c k ms l s) (i : In) :
    ∃ l', l.step c k (.tick i) = some l' ∧ Inv c k ms l' (ChiLink.step s (.tick (absIn i))) := by
  obtain ⟨tx, htx, rtx⟩ := txTick_rel hc h.rel
  have hst := h.rel.state
  obtain ⟨hw1, hw2⟩ := onTheWay_tick s h.core (absIn i)
  obtain ⟨done, todo, hmt, hdone, hprog⟩ := h.rx
  have hreq : ChiLink.reqTick s (absIn i) = reqTick l i := by
    unfold ChiLink.reqTick reqTick
    rw [hst, h.rel.want, h.rel.req, h.rel.deact]
    rfl
  have hack : ∀ n, ChiLink.ackTick s (absIn i) n = ackTick l i n := by
    intro n
    unfold ChiLink.ackTick ackTick
    rw [hst, h.rel.ack, h.rel.rxCred]
    rfl
  -- the receiver
  have hrx : ∃ rx new todo1 todo2, rxTick c k l = some rx ∧ rx.cred = (ChiLink.rxTick s).1 ∧
      rx.gnt = (ChiLink.rxTick s).2.1 ∧ rx.msgs = l.msgs ++ new ∧ todo = todo1 ++ todo2 ∧ Each Arrived todo1 new ∧
      Progress c k rx.asms todo2 (onTheWay (ChiLink.step s (.tick (absIn i)))) := by
    by_cases hs : s.state = .stop
    · obtain ⟨q1, q2⟩ := hw1 hs
      refine ⟨⟨false, l.rxCred, l.asms, l.msgs⟩, [], [], todo, ?_, ?_, ?_, (List.append_nil _).symm, rfl, .nil, ?_⟩
      · unfold rxTick; rw [← hst, hs]
      · unfold ChiLink.rxTick; rw [hs]; exact h.rel.rxCred.symm
      · unfold ChiLink.rxTick; rw [hs]
      · rw [q1]; exact hprog
    · have hw := hw2 hs
      have hcred : ∀ g : Bool × RxOut, True := fun _ => trivial
      have hwr := h.rel.wire
      rw [rxTick_abs s hs, hst, h.rel.rxCred]
      have hun : rxTick c k l =
          (let g := giveCredit (l.state == .deactivate) (l.rxCred + (l.valid || l.rtn).toNat)
           if l.valid then (rxFlit c k l.data l.cntl l.asms l.msgs).map fun r => ⟨g.2, g.1, r.1, r.2⟩
           else some ⟨g.2, g.1, l.asms, l.msgs⟩) := by
        unfold rxTick
        split
        · rename_i h0; rw [← hst] at h0; exact absurd h0 hs
        · rfl
      rw [hun]
      dsimp only
      cases hwire : s.wire with
      | none =>
        rw [hwire] at hwr hw
        obtain ⟨v1, v2⟩ := hwr
        rw [v1, v2]
        refine ⟨_, [], [], todo, rfl, rfl, rfl, (List.append_nil _).symm, rfl, .nil, ?_⟩
        have : onTheWay s = onTheWay (ChiLink.step s (.tick (absIn i))) := by simpa [dataOf] using hw
        rw [← this]; exact hprog
      | some w =>
        rw [hwire] at hwr hw
        cases w with
        | creditReturn =>
          obtain ⟨v1, v2⟩ := hwr
          rw [v1, v2]
          refine ⟨_, [], [], todo, rfl, rfl, rfl, (List.append_nil _).symm, rfl, .nil, ?_⟩
          have : onTheWay s = onTheWay (ChiLink.step s (.tick (absIn i))) := by simpa [dataOf] using hw
          rw [← this]; exact hprog
        | data p =>
          obtain ⟨v1, v2, v3⟩ := hwr
          have hw' : onTheWay s = p :: onTheWay (ChiLink.step s (.tick (absIn i))) := by simpa [dataOf] using hw
          rw [hw'] at hprog
          obtain ⟨as', new, t1, t2, e1, e2, e3, e4⟩ := rx_progress hc k v3 h.rel.dataLen
            (fun m hm => hms m (by rw [hmt]; exact List.mem_append_right _ hm)) hprog l.msgs
          rw [v1, v2, e1]
          exact ⟨_, new, t1, t2, rfl, rfl, rfl, rfl, e2, e3, e4⟩
  obtain ⟨rx, new, t1, t2, r1, r2, r3, r4, r5, r6, r7⟩ := hrx
  refine ⟨l.after i tx rx, ?_, ⟨?_, ?_, ?_, ?_, ?_, ?_, ?_, ?_, ?_, ?_, ?_⟩, ChiLink.core_step (by omega) h.core rfl, ?_⟩
  · simp only [Link.step, htx, r1, Option.bind_some, Option.map_some]
  · simp only [ChiLink.step, Link.after, hreq]
  · simp only [ChiLink.step, Link.after, hack, r2]
  · simp only [ChiLink.step, Link.after, r3]
  · exact h.rel.want
  · simp only [ChiLink.step, Link.after, hreq]
  · exact rtx.cred
  · simp only [ChiLink.step, Link.after, r2]
  · simp only [ChiLink.step, Link.after, rtx.popped, h.rel.completed]
  · exact rtx.len
  · exact rtx.wire
  · exact rtx.queue
  · refine ⟨done ++ t1, t2, by rw [hmt, r5, List.append_assoc], ?_, r7⟩
    have : (l.after i tx rx).delivered ++ (l.after i tx rx).msgs = (l.delivered ++ l.msgs) ++ new := by
      simp only [Link.after, r4, List.append_assoc]
    rw [this]
    exact each_append hdone r6

/-- Operations of the abstract link. -/
def absOp (c : Cfg) (k : Hdr) : LinkOp → List (ChiLink.Op Piece)
  | .submit m => match piecesOf c k m with
    | [] => []
    | f :: fs => [.submit f fs]
  | .setState b => [.setState b]
  | .tick i => [.tick (absIn i)]
  | .deliver => []
  | .reset => [.reset]

/-- Messages given to the bridge. -/
def sentMsgs : List LinkOp → List Msg
  | [] => []
  | .submit m :: os => m :: sentMsgs os
  | _ :: os => sentMsgs os

/-- Use of the bridge covered: no reset, messages that travel. -/
def UseOk : LinkOp → Prop
  | .submit m => Sendable m
  | .reset => False
  | _ => True

theorem progress_append {c : Cfg} {k : Hdr} {as : List Asm} {todo : List Msg} {rest : List Piece}
    (h : Progress c k as todo rest) (m : Msg) : Progress c k as (todo ++ [m]) (rest ++ piecesOf c k m) := by
  cases h with
  | between =>
    have : todo.flatMap (piecesOf c k) ++ piecesOf c k m = (todo ++ [m]).flatMap (piecesOf c k) := by simp
    rw [this]
    exact .between
  | @inside m' ms d b h1 h2 h3 h4 =>
    have : cut (4 * c.words) false b ++ ms.flatMap (piecesOf c k) ++ piecesOf c k m =
        cut (4 * c.words) false b ++ (ms ++ [m]).flatMap (piecesOf c k) := by simp
    rw [this]
    exact .inside h1 h2 h3 h4

theorem inv_step {c : Cfg} (hc : CfgOk c) (k : Hdr) {ms : List Msg} (hms : ∀ m ∈ ms, Sendable m) {l : Link}
    {s : ChiLink.St Piece} (h : Inv c k ms l s) (o : LinkOp) (ho : UseOk o) :
    ∃ l', l.step c k o = some l' ∧ Inv c k (ms ++ sentMsgs [o]) l' (ChiLink.run s (absOp c k o)) := by
  cases o with
  | reset => exact ho.elim
  | tick i =>
    obtain ⟨l', h1, h2⟩ := inv_tick hc k hms h i
    exact ⟨l', h1, by simpa [sentMsgs, absOp, ChiLink.run] using h2⟩
  | setState b =>
    refine ⟨{ l with want := b }, rfl, ?_⟩
    obtain ⟨⟨r1, r2, r3, r4, r5, r6, r7, r8, r9, r10, r11⟩, hcore, hrx⟩ := h
    simp only [sentMsgs, List.append_nil]
    exact ⟨⟨r1, r2, r3, rfl, r5, r6, r7, r8, r9, r10, r11⟩, ChiLink.core_step (o := .setState b) (by omega) hcore rfl, hrx⟩
  | deliver =>
    refine ⟨l.deliver, rfl, ?_⟩
    simp only [sentMsgs, List.append_nil, absOp, ChiLink.run, List.foldl_nil]
    unfold Link.deliver
    cases hm : l.msgs with
    | nil => exact h
    | cons m rest =>
      obtain ⟨⟨r1, r2, r3, r4, r5, r6, r7, r8, r9, r10, r11⟩, hcore, ⟨done, todo, q1, q2, q3⟩⟩ := h
      refine ⟨⟨r1, r2, r3, r4, r5, r6, r7, r8, r9, r10, r11⟩, hcore, ⟨done, todo, q1, ?_, q3⟩⟩
      rw [hm] at q2
      simpa using q2
  | submit m =>
    obtain ⟨b1, b4, bl, -⟩ := bytesOf_ok k ho
    refine ⟨{ l with queue := l.queue ++ [{ bytes := bytesOf k m }] }, by simp [Link.step, b1], ?_⟩
    obtain ⟨p, ps, hp⟩ := List.exists_cons_of_ne_nil (cut_ne_nil (4 * c.words) true (bytesOf k m))
    have hp' : piecesOf c k m = p :: ps := hp
    have habs : ChiLink.run s (absOp c k (.submit m)) = ChiLink.step s (.submit p ps) := by
      simp [absOp, hp', ChiLink.run]
    rw [habs]
    obtain ⟨⟨r1, r2, r3, r4, r5, r6, r7, r8, r9, r10, ⟨u1, u2, u3⟩⟩, hcore, ⟨done, todo, q1, q2, q3⟩⟩ := h
    refine ⟨⟨r1, r2, r3, r4, r5, r6, r7, r8, r9, r10, ⟨?_, ?_, ?_⟩⟩,
      ChiLink.core_step (o := .submit p ps) (by omega) hcore rfl, ⟨done, todo ++ [m], by simp [q1, sentMsgs], q2, ?_⟩⟩
    · simp only [ChiLink.step, u1, List.map_append, List.map_cons, List.map_nil, pieces, Bool.false_eq_true, if_false,
        decide_true, List.drop_zero, hp]
    · intro t ht
      rcases List.mem_append.1 ht with ht | ht
      · exact u2 t ht
      · obtain rfl := List.mem_singleton.1 ht
        exact ⟨bl, b4, rfl, Nat.zero_le _, by simp; omega⟩
    · intro t ht
      cases hq : l.queue with
      | nil => rw [hq] at ht; simp at ht
      | cons a q =>
        rw [hq] at ht u3
        simp only [List.cons_append, List.tail_cons, List.mem_append, List.mem_singleton] at ht
        rcases ht with ht | rfl
        · exact u3 t ht
        · rfl
    · have : onTheWay (ChiLink.step s (.submit p ps)) = onTheWay s ++ piecesOf c k m := by
        simp [onTheWay, ChiLink.step, hp']
      rw [this]
      exact progress_append q3 m

theorem inv_run {c : Cfg} (hc : CfgOk c) (k : Hdr) : ∀ (ops : List LinkOp) (ms : List Msg), (∀ m ∈ ms, Sendable m) →
    ∀ (l : Link) (s : ChiLink.St Piece), Inv c k ms l s → (∀ o ∈ ops, UseOk o) →
    ∃ l', l.run c k ops = some l' ∧ Inv c k (ms ++ sentMsgs ops) l' (ChiLink.run s (ops.flatMap (absOp c k)))
  | [], ms, _, l, s, h, _ => ⟨l, rfl, by simpa [sentMsgs, ChiLink.run] using h⟩
  | o :: os, ms, hms, l, s, h, ho => by
    have hu := ho o (List.mem_cons_self ..)
    obtain ⟨l1, e1, i1⟩ := inv_step hc k hms h o hu
    have hms' : ∀ m ∈ ms ++ sentMsgs [o], Sendable m := by
      intro m hm
      rcases List.mem_append.1 hm with hm | hm
      · exact hms m hm
      · cases o with
        | submit m' =>
          have : m = m' := by simpa [sentMsgs] using hm
          subst this; exact hu
        | _ => simp [sentMsgs] at hm
    obtain ⟨l2, e2, i2⟩ := inv_run hc k os _ hms' l1 _ i1 (fun o' h' => ho o' (List.mem_cons_of_mem _ h'))
    refine ⟨l2, by simp [Link.run, e1, e2], ?_⟩
    have a1 : ms ++ sentMsgs [o] ++ sentMsgs os = ms ++ sentMsgs (o :: os) := by
      cases o <;> simp [sentMsgs]
    have a2 : ChiLink.run (ChiLink.run s (absOp c k o)) (os.flatMap (absOp c k)) =
        ChiLink.run s ((o :: os).flatMap (absOp c k)) := by
      rw [List.flatMap_cons, ChiLink.run_append]
    rw [← a1, ← a2]
    exact i2

theorem inv_init (c : Cfg) (k : Hdr) : Inv c k [] (Link.init c) ChiLink.St.init := by
  refine ⟨⟨rfl, rfl, rfl, rfl, rfl, rfl, rfl, rfl, by simp [Link.init], ⟨rfl, rfl⟩, ⟨rfl, ?_, ?_⟩⟩, ChiLink.core_init,
    ⟨[], [], rfl, .nil, .between⟩⟩
  · simp [Link.init]
  · simp [Link.init]

end Verif.Cxs
