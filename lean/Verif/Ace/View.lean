import Verif.Ace.Model

/-!
# One cache line at a time

Helper notions for the coherence proof: everything in the system that concerns one line address,
the invariant of that view, and its preservation by each thing that can happen to the line.
-/

namespace Verif.Ace

/-- Equal on the bytes of a line. -/
def EqL (L : Nat) (a b : Mem) : Prop := ∀ o, o < L → a o = b o

theorem EqL.refl {L : Nat} (a : Mem) : EqL L a a := fun _ _ => rfl
theorem EqL.symm {L : Nat} {a b : Mem} (h : EqL L a b) : EqL L b a := fun o ho => (h o ho).symm
theorem EqL.trans {L : Nat} {a b d : Mem} (h : EqL L a b) (g : EqL L b d) : EqL L a d :=
  fun o ho => (h o ho).trans (g o ho)

theorem EqL.writeBytes {L : Nat} (ws : List (Nat × Byte)) : ∀ {a b : Mem}, EqL L a b →
    EqL L (writeBytes a ws) (writeBytes b ws) := by
  induction ws with
  | nil => exact fun h => h
  | cons w ws ih =>
    intro a b h
    apply ih
    intro o ho
    simp only [Mem.set]
    split
    · rfl
    · exact h o ho

/-- The bytes `ws` cover the whole line. -/
def Covers (L : Nat) (ws : List (Nat × Byte)) : Prop := ∀ o, o < L → ∃ b, (o, b) ∈ ws

theorem writeBytes_hit (ws : List (Nat × Byte)) : ∀ (a b : Mem) (o : Nat),
    ((∃ v, (o, v) ∈ ws) ∨ a o = b o) → writeBytes a ws o = writeBytes b ws o := by
  induction ws with
  | nil =>
    intro a b o h
    rcases h with ⟨v, hv⟩ | h
    · simp at hv
    · exact h
  | cons w ws ih =>
    intro a b o h
    apply ih
    by_cases hw : o = w.1
    · right; simp [Mem.set, hw]
    · rcases h with ⟨v, hv⟩ | h
      · rcases List.mem_cons.1 hv with hv | hv
        · exact absurd (congrArg Prod.fst hv) hw
        · exact Or.inl ⟨v, hv⟩
      · right; simp [Mem.set, hw, h]

theorem Covers.writeBytes {L : Nat} {ws : List (Nat × Byte)} (h : Covers L ws) (a b : Mem) :
    EqL L (writeBytes a ws) (writeBytes b ws) :=
  fun o ho => writeBytes_hit ws a b o (Or.inl (h o ho))

/-- A valid copy of the line in some cache. -/
structure Copy where
  shared : Bool
  dirty : Bool
  data : Mem

/-- What concerns one line: the copies by port, the snooping transactions being processed, the
write-outs under way (and whether they were executed), the memory and the last value stored. -/
structure View where
  copy : Nat → Option Copy
  tx : Nat → Option (Txn × Stage)
  wb : Nat → Option Bool
  mem : Mem
  gold : Mem

def upd {α : Type} (f : Nat → α) (p : Nat) (x : α) : Nat → α := fun q => if q = p then x else f q

@[simp] theorem upd_same {α : Type} (f : Nat → α) (p : Nat) (x : α) : upd f p x p = x := by simp [upd]
theorem upd_ne {α : Type} (f : Nat → α) {p q : Nat} (x : α) (h : q ≠ p) : upd f p x q = f q := by
  simp [upd, h]

/-- Transactions after which no other cache holds the line. -/
def Bus.inval : Bus → Bool
  | .readUnique | .cleanUnique | .makeUnique | .writeUnique | .writeLineUnique | .cleanInvalid
  | .makeInvalid => true
  | _ => false

/-- Transactions that fill a line of the initiator. -/
def Bus.fill : Bus → Bool
  | .readShared | .readNotSharedDirty | .readClean | .readUnique | .makeUnique => true
  | _ => false

/-- WriteUnique and WriteLineUnique. -/
def Bus.isWr : Bus → Bool
  | .writeUnique | .writeLineUnique => true
  | _ => false

/-- The transactions the theorem is about. -/
def Bus.fine : Bus → Bool
  | .cleanInvalid | .makeInvalid => false
  | _ => true

/-- Port `q` has still to be snooped. -/
def Stage.pend : Stage → Nat → Prop
  | .snoop todo, q => q ∈ todo
  | _, _ => False

/-- `m_ds_gp` has not been executed. -/
def Stage.pre : Stage → Prop
  | .snoop _ | .snooped | .clean => True
  | _ => False

def View.noUnique (v : View) : Prop := ∀ q b, v.copy q = some b → b.shared = true
def View.noDirty (v : View) : Prop := ∀ q b, v.copy q = some b → b.dirty = false

/-- What holds of a transaction being processed. -/
structure TInv (n L : Nat) (v : View) (p : Nat) (t : Txn) (st : Stage) : Prop where
  fine : t.cmd.fine = true
  snp : t.cmd.snooping = true
  own : t.cmd.fill = true ∨ t.cmd = .readOnce → v.copy p = none
  ownCU : t.cmd = .cleanUnique → ∀ a, v.copy p = some a → a.shared = true
  ownWr : t.cmd.isWr = true → ∀ a, v.copy p = some a → a.dirty = false
  inv : t.cmd.inval = true → ∀ q, q ≠ p → ¬ st.pend q → v.copy q = none
  rd : t.cmd.inval = false → ∀ q b, q ≠ p → ¬ st.pend q → v.copy q = some b →
    b.shared = true ∧ t.shared = true ∧ (t.cmd.ac.isRead = true → t.got.isSome = true) ∧
    (t.cmd = .readShared → b.dirty = false)
  sh : t.cmd.inval = true → t.shared = false
  got : ∀ d, t.got = some d → t.cmd.ac.isRead = true ∧ EqL L d v.gold ∧ v.noUnique
  dirty : t.dirty = true → t.got.isSome = true ∧ v.noDirty ∧ t.cmd.passDirty = true
  dsw : ∀ d, t.dsw = some d → t.cmd.ac.isRead = false ∧
    (st.pre → EqL L d v.gold ∧ v.noDirty ∧ v.noUnique)
  exec : st.pre → (t.exec = true ↔ (t.dsw.isSome = true ∨ (t.cmd = .readOnce ∧ t.got = none)))
  clean : st = .clean → t.exec = true
  ok : t.cmd.ac.isRead = true → t.cmd ≠ .readOnce → (st.pre ∨ st = .cleaned) →
    (t.ok = true ↔ t.got.isSome = true)
  okW : t.cmd.isWr = true → t.ok = false
  que : st = .queued → t.cmd ≠ .readOnce ∧ (t.cmd.ac.isRead = true → t.got = none)
  fin : (st = .done ∨ (t.cmd = .readOnce ∧ st = .cleaned)) → t.cmd.ac.isRead = true →
    t.got.isSome = true
  todo : ∀ q, st.pend q → q ≠ p ∧ q < n

/-- The transaction holds the only up-to-date copy of the line, or is about to overwrite it. -/
def Owes (t : Txn) (st : Stage) : Prop :=
  t.dirty = true ∨ (t.dsw.isSome = true ∧ st.pre) ∨ t.cmd = .makeUnique ∨
    (t.cmd = .writeLineUnique ∧ st ≠ .done)

/-- The bytes of a copy once its owner has taken note of its own write. -/
def expect (x : Option (Txn × Stage)) (d : Mem) : Mem :=
  match x with
  | some (t, .done) => if t.cmd.isWr then writeBytes d t.ws else d
  | _ => d

/-- The invariant of one line: `n` ACE masters, `wt` the write-through ones, `L` the line size. -/
structure LInv (n L : Nat) (wt : Nat → Bool) (v : View) : Prop where
  s1 : ∀ p q a b, p ≠ q → v.copy p = some a → v.copy q = some b → a.shared = true
  s2 : ∀ p q a b, v.copy p = some a → v.copy q = some b → a.dirty = true → b.dirty = true → p = q
  val : ∀ p a, v.copy p = some a → EqL L (expect (v.tx p) a.data) v.gold
  memv : EqL L v.mem v.gold ∨ (∃ p a, v.copy p = some a ∧ a.dirty = true) ∨
    (∃ p t st, v.tx p = some (t, st) ∧ Owes t st)
  excl : ∀ p q x y, v.tx p = some x → v.tx q = some y → p = q
  txwb : ∀ p x, v.tx p = some x → v.wb p = none
  lite : ∀ p a, v.copy p = some a → p < n
  wtc : ∀ p a, wt p = true → v.copy p = some a → a.dirty = false
  wbd : ∀ p e, v.wb p = some e → ∃ a, v.copy p = some a ∧ a.dirty = true ∧
    (e = true → EqL L v.mem v.gold)
  tinv : ∀ p t st, v.tx p = some (t, st) → TInv n L v p t st

variable {n L : Nat} {wt : Nat → Bool} {v : View}

/-- Copies may disappear, become shared, become clean. -/
theorem TInv.mono {v' : View} {p : Nat} {t : Txn} {st : Stage} (h : TInv n L v p t st)
    (hg : v'.gold = v.gold)
    (hc : ∀ q b', v'.copy q = some b' → ∃ b, v.copy q = some b ∧
      (b.shared = true → b'.shared = true) ∧ (b.dirty = false → b'.dirty = false)) :
    TInv n L v' p t st := by
  have hn : ∀ q, v.copy q = none → v'.copy q = none := by
    intro q hq
    rcases h' : v'.copy q with _ | b'
    · rfl
    · obtain ⟨b, hb, -⟩ := hc q b' h'
      rw [hq] at hb; cases hb
  have hU : v.noUnique → v'.noUnique := by
    intro hu q b' hb'
    obtain ⟨b, hb, h1, -⟩ := hc q b' hb'
    exact h1 (hu q b hb)
  have hD : v.noDirty → v'.noDirty := by
    intro hu q b' hb'
    obtain ⟨b, hb, -, h1⟩ := hc q b' hb'
    exact h1 (hu q b hb)
  refine { h with
    own := fun x => hn _ (h.own x)
    ownCU := fun x a ha => ?_
    ownWr := fun x a ha => ?_
    inv := fun x q hq hp => hn _ (h.inv x q hq hp)
    rd := fun x q b' hq hp hb' => ?_
    got := fun d hd => by rw [hg]; exact ⟨(h.got d hd).1, (h.got d hd).2.1, hU (h.got d hd).2.2⟩
    dirty := fun x => ⟨(h.dirty x).1, hD (h.dirty x).2.1, (h.dirty x).2.2⟩
    dsw := fun d hd => ⟨(h.dsw d hd).1, fun hp => by
      rw [hg]
      obtain ⟨a, b, d⟩ := (h.dsw d hd).2 hp
      exact ⟨a, hD b, hU d⟩⟩ }
  · obtain ⟨b, hb, h1, -⟩ := hc p a ha
    exact h1 (h.ownCU x b hb)
  · obtain ⟨b, hb, -, h1⟩ := hc p a ha
    exact h1 (h.ownWr x b hb)
  · obtain ⟨b, hb, h1, h2⟩ := hc q b' hb'
    obtain ⟨r1, r2, r3, r4⟩ := h.rd x q b hq hp hb
    exact ⟨h1 r1, r2, r3, fun y => h2 (r4 y)⟩

/-! ## What can happen to a line -/

/-- A fresh transaction. -/
structure Fresh (t : Txn) : Prop where
  shared : t.shared = false
  dirty : t.dirty = false
  got : t.got = none
  dsw : t.dsw = none
  ok : t.ok = false
  exec : t.exec = (t.cmd == .readOnce)

theorem pend_firstStage (c : Cfg) (p q : Nat) :
    (firstStage c p).pend q ↔ q ≠ p ∧ q < c.masters := by
  have hm : q ∈ targets c p ↔ q ≠ p ∧ q < c.masters := by simp [targets, and_comm]
  unfold firstStage
  split
  · rename_i h
    rw [← hm, h]
    simp [Stage.pend]
  · exact hm

theorem firstStage_pre (c : Cfg) (p : Nat) : (firstStage c p).pre := by
  unfold firstStage; split <;> exact trivial

theorem firstStage_cases (c : Cfg) (p : Nat) : firstStage c p = .snooped ∨ ∃ l, firstStage c p = .snoop l := by
  unfold firstStage; split
  · exact Or.inl rfl
  · exact Or.inr ⟨_, rfl⟩

/-- A transaction starts. -/
theorem LInv.begin {c : Cfg} (h : LInv c.masters L wt v) {p : Nat} {t : Txn} (hf : Fresh t)
    (hno : ∀ q, v.tx q = none) (hwb : v.wb p = none) (hfine : t.cmd.fine = true)
    (hsnp : t.cmd.snooping = true)
    (hown : t.cmd.fill = true ∨ t.cmd = .readOnce → v.copy p = none)
    (hcu : t.cmd = .cleanUnique → ∀ a, v.copy p = some a → a.shared = true)
    (hwr : t.cmd.isWr = true → ∀ a, v.copy p = some a → a.dirty = false) :
    LInv c.masters L wt { v with tx := upd v.tx p (some (t, firstStage c p)) } := by
  have hT : TInv c.masters L v p t (firstStage c p) := by
    have hst := firstStage_cases c p
    refine
      { fine := hfine, snp := hsnp, own := hown, ownCU := hcu, ownWr := hwr
        inv := fun _ q hq hp => ?_, rd := fun _ q b hq hp hb => ?_
        sh := fun _ => hf.shared
        got := fun d hd => by rw [hf.got] at hd; cases hd
        dirty := fun hd => by rw [hf.dirty] at hd; cases hd
        dsw := fun d hd => by rw [hf.dsw] at hd; cases hd
        exec := fun _ => ?_, clean := fun hc => ?_
        ok := fun _ _ _ => by rw [hf.ok, hf.got]; simp
        okW := fun _ => hf.ok
        que := fun hc => ?_, fin := fun hc => ?_
        todo := fun q hq => (pend_firstStage c p q).1 hq }
    · rcases hb : v.copy q with _ | b
      · rfl
      · exact absurd ((pend_firstStage c p q).2 ⟨hq, h.lite q b hb⟩) hp
    · exact absurd ((pend_firstStage c p q).2 ⟨hq, h.lite q b hb⟩) hp
    · rw [hf.exec, hf.dsw, hf.got]; simp
    · rcases hst with e | ⟨l, e⟩ <;> rw [e] at hc <;> cases hc
    · rcases hst with e | ⟨l, e⟩ <;> rw [e] at hc <;> cases hc
    · rcases hst with e | ⟨l, e⟩ <;> rw [e] at hc <;> rcases hc with hc | ⟨-, hc⟩ <;> cases hc
  have hx : ∀ q x, upd v.tx p (some (t, firstStage c p)) q = some x → q = p ∧ x = (t, firstStage c p) := by
    intro q x hq
    by_cases e : q = p
    · subst e; rw [upd_same] at hq; cases hq; exact ⟨rfl, rfl⟩
    · rw [upd_ne _ _ e, hno] at hq; cases hq
  refine { h with
    val := fun q a ha => ?_, memv := ?_, excl := fun q r x y hq hr => ?_, txwb := fun q x hq => ?_
    tinv := fun q t' st hq => ?_ }
  · have := h.val q a ha
    rw [hno] at this
    by_cases e : q = p
    · subst e
      show EqL L (expect (upd v.tx q _ q) a.data) v.gold
      rw [upd_same]
      rcases firstStage_cases c q with e | ⟨l, e⟩ <;> rw [e] <;> exact this
    · show EqL L (expect (upd v.tx p _ q) a.data) v.gold
      rw [upd_ne _ _ e, hno]; exact this
  · rcases h.memv with m | m | ⟨q, t', st, m, -⟩
    · exact Or.inl m
    · exact Or.inr (Or.inl m)
    · rw [hno] at m; cases m
  · rw [(hx q x hq).1, (hx r y hr).1]
  · rw [(hx q x hq).1]; exact hwb
  · obtain ⟨rfl, e⟩ := hx q _ hq
    cases e
    exact hT.mono rfl fun q b hb => ⟨b, hb, id, id⟩

/-- The view depends on the ongoing transaction only through these facts: replacing the transaction
of port `p`. -/
theorem LInv.setTx (h : LInv n L wt v) {p : Nat} {t t' : Txn} {st st' : Stage}
    (hx : v.tx p = some (t, st)) (hT : TInv n L v p t' st')
    (he : ∀ d, expect (some (t', st')) d = expect (some (t, st)) d)
    (ho : Owes t st → Owes t' st' ∨ EqL L v.mem v.gold ∨ ∃ p a, v.copy p = some a ∧ a.dirty = true) :
    LInv n L wt { v with tx := upd v.tx p (some (t', st')) } := by
  have hx' : ∀ q x, upd v.tx p (some (t', st')) q = some x → q = p ∧ x = (t', st') := by
    intro q x hq
    by_cases e : q = p
    · subst e; rw [upd_same] at hq; cases hq; exact ⟨rfl, rfl⟩
    · rw [upd_ne _ _ e] at hq
      exact absurd (h.excl _ _ _ _ hq hx) e
  refine { h with
    val := fun q a ha => ?_, memv := ?_, excl := fun q r x y hq hr => ?_, txwb := fun q x hq => ?_
    tinv := fun q t' st hq => ?_ }
  · have := h.val q a ha
    by_cases e : q = p
    · subst e
      show EqL L (expect (upd v.tx q _ q) a.data) v.gold
      rw [upd_same, he, ← hx]; exact this
    · show EqL L (expect (upd v.tx p _ q) a.data) v.gold
      rw [upd_ne _ _ e]; exact this
  · rcases h.memv with m | m | ⟨q, t0, st0, m, o⟩
    · exact Or.inl m
    · exact Or.inr (Or.inl m)
    · have e := h.excl _ _ _ _ m hx
      subst e
      rw [hx] at m; cases m
      rcases ho o with o | o | o
      · exact Or.inr (Or.inr ⟨q, t', st', by simp, o⟩)
      · exact Or.inl o
      · exact Or.inr (Or.inl o)
  · rw [(hx' q x hq).1, (hx' r y hr).1]
  · rw [(hx' q x hq).1]; exact h.txwb _ _ hx
  · obtain ⟨rfl, e⟩ := hx' q _ hq
    cases e
    exact hT.mono rfl fun q b hb => ⟨b, hb, id, id⟩

/-- The owner of a line is none of the other masters when a transaction invalidates them all. -/
theorem LInv.noOther (h : LInv n L wt v) {p : Nat} {t : Txn} {st : Stage}
    (hx : v.tx p = some (t, st)) (hi : t.cmd.inval = true) (hp : ∀ q, ¬ st.pend q) (q : Nat) (hq : q ≠ p) :
    v.copy q = none :=
  (h.tinv p t st hx).inv hi q hq (hp q)

/-- A clean line is dropped. -/
theorem LInv.drop (h : LInv n L wt v) {p : Nat} {a : Copy} (ha : v.copy p = some a)
    (hd : a.dirty = false) : LInv n L wt { v with copy := upd v.copy p none } := by
  have hc : ∀ q b, upd v.copy p none q = some b → v.copy q = some b := by
    intro q b hq
    by_cases e : q = p
    · subst e; rw [upd_same] at hq; cases hq
    · rwa [upd_ne _ _ e] at hq
  refine
    { s1 := fun q r x y hne hq hr => h.s1 q r x y hne (hc _ _ hq) (hc _ _ hr)
      s2 := fun q r x y hq hr => h.s2 q r x y (hc _ _ hq) (hc _ _ hr)
      val := fun q x hq => h.val q x (hc _ _ hq)
      memv := ?_, excl := h.excl, txwb := h.txwb
      lite := fun q x hq => h.lite q x (hc _ _ hq)
      wtc := fun q x hw hq => h.wtc q x hw (hc _ _ hq)
      wbd := fun q e hq => ?_
      tinv := fun q t st hq => (h.tinv q t st hq).mono rfl fun r b hb => ⟨b, hc _ _ hb, id, id⟩ }
  · rcases h.memv with m | ⟨q, b, hb, hbd⟩ | m
    · exact Or.inl m
    · refine Or.inr (Or.inl ⟨q, b, ?_, hbd⟩)
      show upd v.copy p none q = some b
      rw [upd_ne _ _ (fun e => ?_)]
      · exact hb
      · subst e; rw [ha] at hb; cases hb; rw [hd] at hbd; cases hbd
    · exact Or.inr (Or.inr m)
  · obtain ⟨b, hb, hbd, hm⟩ := h.wbd q e hq
    refine ⟨b, ?_, hbd, hm⟩
    show upd v.copy p none q = some b
    rw [upd_ne _ _ (fun e => ?_)]
    · exact hb
    · subst e; rw [ha] at hb; cases hb; rw [hd] at hbd; cases hbd

/-- A store to a unique line. -/
theorem LInv.store (h : LInv n L wt v) {p : Nat} {a : Copy} (ha : v.copy p = some a)
    (hu : a.shared = false) (htx : v.tx p = none) (hwb : v.wb p = none) (hwt : wt p = false)
    (ws : List (Nat × Byte)) :
    LInv n L wt { v with
      copy := upd v.copy p (some { a with data := writeBytes a.data ws, dirty := true })
      gold := writeBytes v.gold ws } := by
  have hother : ∀ q, q ≠ p → v.copy q = none := by
    intro q hq
    rcases hb : v.copy q with _ | b
    · rfl
    · have := h.s1 p q a b (Ne.symm hq) ha hb
      rw [hu] at this; cases this
  have hnu : ¬ v.noUnique := by
    intro hn; have := hn p a ha; rw [hu] at this; cases this
  generalize hA : ({ a with data := writeBytes a.data ws, dirty := true } : Copy) = A
  have hAs : A.shared = false := by rw [← hA]; exact hu
  have hAd : A.dirty = true := by rw [← hA]
  have hc : ∀ q b, upd v.copy p (some A) q = some b → q = p ∧ b = A := by
    intro q b hq
    by_cases e : q = p
    · subst e; rw [upd_same] at hq; cases hq; exact ⟨rfl, rfl⟩
    · rw [upd_ne _ _ e, hother q e] at hq; cases hq
  refine
    { s1 := fun q r x y hne hq hr => absurd ((hc _ _ hq).1.trans (hc _ _ hr).1.symm) hne
      s2 := fun q r x y hq hr _ _ => (hc _ _ hq).1.trans (hc _ _ hr).1.symm
      val := fun q x hq => ?_
      memv := Or.inr (Or.inl ⟨p, A, upd_same .., hAd⟩), excl := h.excl, txwb := h.txwb
      lite := fun q x hq => ?_
      wtc := fun q x hw hq => ?_
      wbd := fun q e hq => ?_
      tinv := fun q t st hq => ?_ }
  · obtain ⟨rfl, rfl⟩ := hc q x hq
    have := h.val q a ha
    show EqL L (expect (v.tx q) x.data) _
    rw [htx] at this ⊢
    rw [← hA]
    exact EqL.writeBytes ws this
  · obtain ⟨rfl, -⟩ := hc q x hq
    exact h.lite q a ha
  · obtain ⟨rfl, -⟩ := hc q x hq
    rw [hwt] at hw; cases hw
  · have e' : q ≠ p := by rintro rfl; rw [hwb] at hq; cases hq
    obtain ⟨b, hb, -⟩ := h.wbd q e hq
    rw [hother q e'] at hb; cases hb
  · have hT := h.tinv q t st hq
    have hqp : q ≠ p := by rintro rfl; rw [htx] at hq; cases hq
    have hpend : st.pend p := by
      apply Classical.byContradiction
      intro hp
      cases hi : t.cmd.inval
      · have := (hT.rd hi p a (Ne.symm hqp) hp ha).1
        rw [hu] at this; cases this
      · rw [hT.inv hi p (Ne.symm hqp) hp] at ha; cases ha
    have hgot : t.got = none := by
      rcases hg : t.got with _ | d
      · rfl
      · exact absurd (hT.got d hg).2.2 hnu
    have hdirty : t.dirty = false := by
      cases hd : t.dirty
      · rfl
      · have := (hT.dirty hd).1
        rw [hgot] at this; cases this
    have hpre : st.pre := by cases st <;> first | exact trivial | exact absurd hpend (by simp [Stage.pend])
    have hdsw : t.dsw = none := by
      rcases hg : t.dsw with _ | d
      · rfl
      · exact absurd ((hT.dsw d hg).2 hpre).2.2 hnu
    refine { hT with
      own := fun x => ?_, ownCU := fun x b hb => ?_, ownWr := fun x b hb => ?_
      inv := fun x r hr hp => ?_, rd := fun x r b hr hp hb => ?_
      got := fun d hd => by rw [hgot] at hd; cases hd
      dirty := fun hd => by rw [hdirty] at hd; cases hd
      dsw := fun d hd => by rw [hdsw] at hd; cases hd }
    · show upd v.copy p _ q = none
      rw [upd_ne _ _ hqp]; exact hT.own x
    · exact absurd (hc _ _ hb).1 hqp
    · exact absurd (hc _ _ hb).1 hqp
    · have : r ≠ p := by rintro rfl; exact hp hpend
      show upd v.copy p _ r = none
      rw [upd_ne _ _ this, hother r this]
    · have := (hc _ _ hb).1
      subst this
      exact absurd hpend hp

/-- A write-out starts. -/
theorem LInv.wbBegin (h : LInv n L wt v) {p : Nat} {a : Copy} (ha : v.copy p = some a)
    (hd : a.dirty = true) (htx : v.tx p = none) :
    LInv n L wt { v with wb := upd v.wb p (some false) } := by
  refine { h with txwb := fun q x hq => ?_, wbd := fun q e hq => ?_
                  tinv := fun q t st hq => (h.tinv q t st hq).mono rfl fun r b hb => ⟨b, hb, id, id⟩ }
  · have : q ≠ p := by rintro rfl; rw [htx] at hq; cases hq
    show upd v.wb p _ q = none
    rw [upd_ne _ _ this]; exact h.txwb q x hq
  · by_cases e' : q = p
    · subst e'
      have : some false = some e := by rw [← hq]; exact (upd_same v.wb q (some false)).symm
      cases this
      exact ⟨a, ha, hd, fun x => by cases x⟩
    · exact h.wbd q e (by rw [← hq]; exact (upd_ne _ _ e').symm)

/-- A dirty copy has the last value stored. -/
theorem LInv.dirtyVal (h : LInv n L wt v) {p : Nat} {a : Copy} (ha : v.copy p = some a)
    (htx : v.tx p = none) : EqL L a.data v.gold := by
  have := h.val p a ha
  rw [htx] at this; exact this

/-- A write-out is executed. -/
theorem LInv.wbExec (h : LInv n L wt v) {p : Nat} {a : Copy} {e : Bool} (hwb : v.wb p = some e)
    (ha : v.copy p = some a) (htx : v.tx p = none) :
    LInv n L wt { v with mem := a.data, wb := upd v.wb p (some true) } := by
  have hv := h.dirtyVal ha htx
  refine { h with memv := Or.inl hv, txwb := fun q x hq => ?_, wbd := fun q e hq => ?_
                  tinv := fun q t st hq => (h.tinv q t st hq).mono rfl fun r b hb => ⟨b, hb, id, id⟩ }
  · have : q ≠ p := by rintro rfl; rw [htx] at hq; cases hq
    show upd v.wb p _ q = none
    rw [upd_ne _ _ this]; exact h.txwb q x hq
  · by_cases e' : q = p
    · subst e'
      obtain ⟨b, hb, hbd, -⟩ := h.wbd q _ hwb
      exact ⟨b, hb, hbd, fun _ => hv⟩
    · obtain ⟨b, hb, hbd, -⟩ := h.wbd q e (by rw [← hq]; exact (upd_ne _ _ e').symm)
      exact ⟨b, hb, hbd, fun _ => hv⟩

/-- After a write-out the line is clean or gone. -/
theorem LInv.wbEnd (h : LInv n L wt v) {p : Nat} {a : Copy} (hwb : v.wb p = some true)
    (ha : v.copy p = some a) (x : Option Copy)
    (hx : x = none ∨ x = some { a with dirty := false }) :
    LInv n L wt { v with copy := upd v.copy p x, wb := upd v.wb p none } := by
  obtain ⟨a', ha', had, hm⟩ := h.wbd p true hwb
  have hm := hm rfl
  rw [ha] at ha'; cases ha'
  have htx : v.tx p = none := by
    rcases ht : v.tx p with _ | y
    · rfl
    · rw [h.txwb p y ht] at hwb; cases hwb
  have hc : ∀ q b, upd v.copy p x q = some b → ∃ b0, v.copy q = some b0 ∧ b.shared = b0.shared ∧ b.data = b0.data ∧
      (b.dirty = true → b0.dirty = true) := by
    intro q b hq
    by_cases e : q = p
    · subst e
      rw [upd_same] at hq
      rcases hx with rfl | rfl
      · cases hq
      · cases hq; exact ⟨a, ha, rfl, rfl, fun h => by cases h⟩
    · rw [upd_ne _ _ e] at hq
      exact ⟨b, hq, rfl, rfl, id⟩
  refine
    { s1 := fun q r x y hne hq hr => ?_, s2 := fun q r x y hq hr h1 h2 => ?_
      val := fun q b hq => ?_, memv := Or.inl hm, excl := h.excl, txwb := fun q y hq => ?_
      lite := fun q b hq => ?_, wtc := fun q b hw hq => ?_, wbd := fun q e hq => ?_
      tinv := fun q t st hq => (h.tinv q t st hq).mono rfl fun r b hb => ?_ }
  · obtain ⟨x0, hx0, e, -⟩ := hc _ _ hq
    obtain ⟨y0, hy0, -⟩ := hc _ _ hr
    rw [e]; exact h.s1 _ _ _ _ hne hx0 hy0
  · obtain ⟨x0, hx0, -, -, f1⟩ := hc _ _ hq
    obtain ⟨y0, hy0, -, -, f2⟩ := hc _ _ hr
    exact h.s2 _ _ _ _ hx0 hy0 (f1 h1) (f2 h2)
  · obtain ⟨x0, hx0, -, e, -⟩ := hc _ _ hq
    rw [e]; exact h.val q x0 hx0
  · show upd v.wb p none q = none
    by_cases e : q = p
    · subst e; exact upd_same ..
    · rw [upd_ne _ _ e]; exact h.txwb q y hq
  · obtain ⟨x0, hx0, -⟩ := hc _ _ hq
    exact h.lite q x0 hx0
  · obtain ⟨x0, hx0, -, -, f⟩ := hc _ _ hq
    have := h.wtc q x0 hw hx0
    cases hbd : b.dirty
    · rfl
    · rw [f hbd] at this; cases this
  · by_cases e' : q = p
    · subst e'
      have : none = some e := by rw [← hq]; exact (upd_same v.wb q none).symm
      cases this
    · obtain ⟨b, hb, hbd, hf⟩ := h.wbd q e (by rw [← hq]; exact (upd_ne _ _ e').symm)
      exact ⟨b, by show upd v.copy p x q = some b; rw [upd_ne _ _ e']; exact hb, hbd, hf⟩
  · obtain ⟨x0, hx0, e, -, f⟩ := hc _ _ hb
    refine ⟨x0, hx0, fun g => by rw [e]; exact g, fun g => ?_⟩
    cases hbd : b.dirty
    · rfl
    · rw [f hbd] at g; cases g

end Verif.Ace
