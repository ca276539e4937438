import Verif.PcChi.TxSpec
import Verif.PcChi.Req

/-! # Transactions: from words to flags -/

namespace Verif.PcChi

open Classical in
noncomputable def bNext (r : Req) (w : List L) (k : Kind) (l : L) : Bool := decide (Next r w k l)

def m (w : List L) (l : L) : Bool := decide (l ∈ w)

theorem m_app (w : List L) (l x : L) : m (w ++ [l]) x = (m w x || decide (x = l)) := by
  unfold m; rw [Bool.eq_iff_iff]; simp

theorem mem_m (w : List L) (l : L) : (l ∈ w) = (m w l = true) := by unfold m; simp

theorem nmem_m (w : List L) (l : L) : (l ∉ w) = (m w l = false) := by unfold m; simp

def od (r : Req) : Bool := decide (2 ≤ r.order)

theorem od_eq (r : Req) : (Ordered r) = (od r = true) := by unfold od Ordered; simp

def flags (r : Req) (w : List L) : Kind → Flags
  | .read => .read (r.ack || !od r) (m w .compData || m w .sepResp) (m w .compData || m w .sepData)
      (!od r || m w .receipt || m w .sepResp) (!r.ack || m w .ack)
  | .dataless => .dataless (m w .comp) (!r.ack || m w .ack)
  | .atomic => .atomic (m w .dbid) (m w .compData) (m w (.wr false))
  | .write => .write (m w .dbid || m w .compDbid) (m w .comp || m w .compDbid) (!r.ack || m w .ack || m w .wrAck)
      (m w (.wr true) || m w (.wr false) || m w .wrAck)

def toTxn (o : Open) : Txn := ⟨o.req, flags o.req o.word o.kind, o.ids⟩

def Told (w : List L) : Kind → Bool
  | .read => m w .compData || m w .sepData || m w .sepResp
  | .dataless => m w .comp
  | .atomic => m w .dbid
  | .write => m w .comp || m w .dbid || m w .compDbid

def adv (o : Open) (l : L) (ids : Option (Nat × Nat)) : Open := { o with word := o.word ++ [l], ids := ids.or o.ids }

theorem od_model (r : Req) (h : r.order < 4) : (r.order / 2 % 2 == 1) = od r := by
  unfold od
  have : r.order = 0 ∨ r.order = 1 ∨ r.order = 2 ∨ r.order = 3 := by omega
  rcases this with e | e | e | e <;> rw [e] <;> rfl

theorem mkTxn_to (r : Req) (k : Kind) (h : r.order < 4) : mkTxn r k = toTxn { req := r, kind := k } := by
  cases k <;> simp only [mkTxn, toTxn, flags, od_model r h] <;> cases r.ack <;> cases od r <;> rfl

theorem done_to (o : Open) : (toTxn o).done = decide (Over o.req o.word o.kind) := by
  rw [Bool.eq_iff_iff, decide_eq_true_eq]
  rcases o with ⟨r, k, w, ids⟩
  cases k <;> simp only [toTxn, flags, Txn.done, Over, mem_m, od_eq]
  · generalize m w .compData = a; generalize m w .sepResp = b; generalize m w .sepData = c
    generalize m w .receipt = d; generalize m w .ack = e; generalize r.ack = f; generalize od r = g
    revert a b c d e f g; decide
  · generalize m w .comp = a; generalize m w .ack = e; generalize r.ack = f
    revert a e f; decide
  · generalize m w .comp = a; generalize m w .compDbid = b; generalize m w .dbid = c
    generalize m w .wrAck = d; generalize m w .ack = e; generalize r.ack = f; generalize m w (.wr true) = g; generalize m w (.wr false) = i
    revert a b c d e f g i; decide
  · generalize m w .compData = a; generalize m w .dbid = b; generalize m w (.wr false) = c
    revert a b c; decide

open Classical in
theorem rxDat_to (o : Open) (d : Dat) (hs : d.op = 0xb → d.src = d.home)
    (hm : ∀ l, datL d.op = some l → ¬ Missed o.req o.word o.kind l) :
    (toTxn o).rxDat d = (datL d.op).bind fun l =>
      if Next o.req o.word o.kind l then some (toTxn (adv o l (if o.kind = .read then some (d.home, d.dbid) else none))) else none := by
  rcases o with ⟨r, k, w, ids⟩
  by_cases h4 : d.op = 4
  · have e : datL d.op = some .compData := by rw [h4]; rfl
    rw [e, Option.bind_some]
    cases k <;> simp only [toTxn, flags, Txn.rxDat, Next, adv, nmem_m, m_app, h4]
    · generalize m w .compData = a; generalize m w .sepResp = b; generalize m w .sepData = c
      cases a <;> cases b <;> cases c <;> simp
    · simp
    · simp
    · generalize m w .compData = a
      cases a <;> simp
  · by_cases hb : d.op = 0xb
    · have e : datL d.op = some .sepData := by rw [hb]; rfl
      have hm := hm _ e
      have hs := hs hb
      rw [e, Option.bind_some]
      cases k <;> simp only [toTxn, flags, Txn.rxDat, Next, adv, nmem_m, mem_m, m_app, hb, Missed, od_eq] at hm ⊢
      · generalize m w .compData = a; generalize m w .sepResp = b; generalize m w .sepData = c
        generalize m w .receipt = dd at hm; generalize od r = f; generalize r.ack = g
        have : dd = false := by simpa using hm
        subst this
        cases a <;> cases c <;> cases f <;> cases g <;> simp [hs]
      · simp
      · simp
      · simp
    · have e : datL d.op = none := by unfold datL; split <;> simp_all
      rw [e]
      cases k <;> simp [toTxn, flags, Txn.rxDat, h4, hb]

open Classical in
theorem rxRsp_to (o : Open) (p : Rsp) (hm : ∀ l, rspL p.op = some l → ¬ Missed o.req o.word o.kind l) :
    (toTxn o).rxRsp p = (rspL p.op).bind fun l =>
      if Next o.req o.word o.kind l then some (toTxn (adv o l (rspIds p))) else none := by
  rcases o with ⟨r, k, w, ids⟩
  by_cases hb : p.op = 0xb
  · have e : rspL p.op = some .sepResp := by rw [hb]; rfl
    have hm := hm _ e
    rw [e, Option.bind_some]
    cases k <;> simp only [toTxn, flags, Txn.rxRsp, Next, adv, nmem_m, mem_m, m_app, hb, Missed, od_eq, rspIds] at hm ⊢
    · generalize m w .compData = a; generalize m w .sepResp = b; generalize m w .sepData = c
      generalize m w .receipt = dd at hm; generalize od r = f; generalize r.ack = g
      have : dd = false := by simpa using hm
      subst this
      cases a <;> cases b <;> cases f <;> cases g <;> simp
    · simp
    · simp
    · simp
  by_cases h8 : p.op = 8
  · have e : rspL p.op = some .receipt := by rw [h8]; rfl
    have hm := hm _ e
    rw [e, Option.bind_some]
    cases k <;> simp only [toTxn, flags, Txn.rxRsp, Next, adv, nmem_m, mem_m, m_app, h8, Missed, od_eq, rspIds] at hm ⊢
    · generalize m w .compData = a; generalize m w .sepResp = b; generalize m w .sepData = c at hm
      generalize m w .receipt = dd; generalize od r = f; generalize r.ack = g
      have : c = false := by simpa using hm
      subst this
      cases b <;> cases dd <;> cases f <;> simp
    · simp
    · simp
    · simp
  by_cases h4 : p.op = 4
  · have e : rspL p.op = some .comp := by rw [h4]; rfl
    rw [e, Option.bind_some]
    cases k <;> simp only [toTxn, flags, Txn.rxRsp, Next, adv, nmem_m, mem_m, m_app, h4, rspIds]
    · simp
    · generalize m w .comp = a
      cases a <;> simp
    · generalize m w .comp = a; generalize m w .compDbid = b
      cases a <;> cases b <;> simp
    · simp
  by_cases h6 : p.op = 6
  · have e : rspL p.op = some .dbid := by rw [h6]; rfl
    rw [e, Option.bind_some]
    cases k <;> simp only [toTxn, flags, Txn.rxRsp, Next, adv, nmem_m, mem_m, m_app, h6, rspIds]
    · simp
    · simp
    · generalize m w .dbid = a; generalize m w .compDbid = b
      cases a <;> cases b <;> simp
    · generalize m w .dbid = a
      cases a <;> simp
  by_cases h5 : p.op = 5
  · have e : rspL p.op = some .compDbid := by rw [h5]; rfl
    rw [e, Option.bind_some]
    cases k <;> simp only [toTxn, flags, Txn.rxRsp, Next, adv, nmem_m, mem_m, m_app, h5, rspIds]
    · simp
    · simp
    · generalize m w .dbid = a; generalize m w .compDbid = b; generalize m w .comp = c
      cases a <;> cases b <;> cases c <;> simp
    · simp
  · have e : rspL p.op = none := by unfold rspL; split <;> simp_all
    rw [e]
    cases k <;> simp [toTxn, flags, Txn.rxRsp, h4, hb, h8, h6, h5]

open Classical in
theorem txDat_to (o : Open) (d : Dat) (ht : Told o.word o.kind = true)
    (hm : ∀ l, sentL d.op = some l → ¬ Missed o.req o.word o.kind l) :
    (toTxn o).txDat d = (sentL d.op).bind fun l =>
      if Next o.req o.word o.kind l then some (toTxn (adv o l none)) else none := by
  rcases o with ⟨r, k, w, ids⟩
  by_cases h2 : d.op = 2
  · have e : sentL d.op = some (.wr true) := by rw [h2]; rfl
    have hm := hm _ e
    rw [e, Option.bind_some]
    cases k <;> simp only [toTxn, flags, Txn.txDat, Next, adv, m_app, h2] at hm ⊢
    · simp
    · simp
    · simp only [Missed, Classical.not_not] at hm
      rw [if_pos hm]; simp
    · simp
  by_cases h3 : d.op = 3
  · have e : sentL d.op = some (.wr false) := by rw [h3]; rfl
    have hm := hm _ e
    rw [e, Option.bind_some]
    cases k <;> simp only [toTxn, flags, Txn.txDat, Next, adv, m_app, h3] at hm ⊢
    · simp
    · simp
    · simp only [Missed, Classical.not_not] at hm
      rw [if_pos hm]; simp
    · simp only [Told] at ht
      simp only [mem_m, nmem_m, ht]
      generalize m w (.wr false) = a
      cases a <;> simp
  by_cases hc : d.op = 0xc
  · have e : sentL d.op = some .wrAck := by rw [hc]; rfl
    have hm := hm _ e
    rw [e, Option.bind_some]
    cases k <;> simp only [toTxn, flags, Txn.txDat, Next, adv, m_app, hc] at hm ⊢
    · simp
    · simp
    · simp only [Missed, Classical.not_not] at hm
      rw [if_pos hm]; simp
    · simp
  · have e : sentL d.op = none := by unfold sentL; split <;> simp_all
    rw [e]
    cases k <;> simp [toTxn, flags, Txn.txDat, h2, h3, hc]

open Classical in
theorem txRsp_to (o : Open) (p : Rsp) (ht : Told o.word o.kind = true)
    (hm : p.op = 2 → ¬ Missed o.req o.word o.kind .ack) :
    (toTxn o).txRsp p = if p.op = 2 ∧ Next o.req o.word o.kind .ack then some (toTxn (adv o .ack none)) else none := by
  rcases o with ⟨r, k, w, ids⟩
  by_cases h2 : p.op = 2
  · have hm := hm h2
    simp only [h2, true_and]
    cases k <;> simp only [toTxn, flags, Txn.txRsp, Next, adv, m_app, h2, Missed, nmem_m, mem_m, Told] at hm ht ⊢
    · have ht' : (m w .compData = true ∨ m w .sepData = true ∨ m w .sepResp = true) := by
        simpa [or_assoc] using ht
      simp only [ht', and_true]
      generalize m w .ack = a; generalize r.ack = b
      cases a <;> cases b <;> simp
    · simp only [ht, and_true]
      generalize m w .ack = a; generalize r.ack = b
      cases a <;> cases b <;> simp
    · have : m w .comp = true ∨ m w .compDbid = true := by
        generalize m w .comp = a at hm; generalize m w .compDbid = b at hm
        revert hm; cases a <;> cases b <;> simp
      simp only [this, and_true]
      generalize m w .ack = a; generalize r.ack = b; generalize m w .wrAck = c
      cases a <;> cases b <;> cases c <;> simp
    · simp
  · rw [if_neg (fun x => h2 x.1)]
    cases k <;> simp [toTxn, flags, Txn.txRsp, h2]

end Verif.PcChi
