import Verif.RtlWdata.Spec

/-!
Helper lemmas: how far the bridge has got in every state of its machine, and
that a step keeps it.
-/

namespace Verif.RtlWdata

open RtlFifo (Queue)

/-- In the middle of a burst. -/
structure Con (c : Cfg) (w : World) (v : View) : Prop where
  some : v.part ≠ []
  awRden : w.s.awRden = false
  own : ∃ r rs, v.reqs = r :: rs ∧ w.s.popIdx = r.idx ∧ rs.map (·.idx) = w.s.aw.items ∧
    w.s.popOff r.idx = (r.off + v.part.length) % c.words ∧ w.s.awlen = r.len ∧ w.s.cntr = v.part.length % 256 ∧
    w.s.strb r.idx = v.part.any (fun x => !x.full) ∧ w.flagged = decide (r.len < v.part.length)

/-- The state of the machine. -/
def Now (c : Cfg) (w : World) (v : View) : Prop :=
  match w.s.st with
  | .idle => v.part = [] ∧ v.rest = w.s.w.items ++ w.s.din.toList ∧ v.reqs.map (·.idx) = w.s.aw.items ∧
      w.s.wRden = false ∧ w.s.awRden = false ∧ w.s.wRdenFf = false ∧ (w.telling = [] → w.flagged = false)
  | .newTxn => v.part = [] ∧ v.rest = w.s.w.items ++ w.s.din.toList ∧ v.reqs.map (·.idx) = w.s.aw.items ∧
      w.s.w.items ≠ [] ∧ w.s.aw.items ≠ [] ∧ w.s.wRden = true ∧ w.s.awRden = true ∧ w.s.wRdenFf = false ∧
      w.flagged = false
  | .newWait => v.part = [] ∧ ∃ b r rs, v.reqs = r :: rs ∧ v.rest = b :: (w.s.w.items ++ w.s.din.toList) ∧
      w.s.w.last = some b ∧ w.s.aw.last = some r.idx ∧ rs.map (·.idx) = w.s.aw.items ∧ w.s.wRden = false ∧
      w.s.awRden = false ∧ w.s.wRdenFf = true ∧ w.flagged = false ∧ (∀ j, w.s.err j = false) ∧ w.s.cntr = 0
  | .conTxn => Con c w v ∧ w.s.w.items ≠ [] ∧ v.rest = w.s.w.items ++ w.s.din.toList ∧ w.s.wRden = true ∧ w.s.wRdenFf = false
  | .conWait => Con c w v ∧ ∃ b, v.rest = b :: (w.s.w.items ++ w.s.din.toList) ∧ w.s.w.last = some b ∧ w.s.wRden = false ∧
      w.s.wRdenFf = true ∧ ∀ j, w.s.err j = false
  | .waitData => Con c w v ∧ v.rest = w.s.w.items ++ w.s.din.toList ∧ w.s.wRden = false ∧ w.s.wRdenFf = false

structure Inv (c : Cfg) (w : World) (v : View) : Prop where
  pairs : Pairs c w v
  ok : ∀ r ∈ v.reqs, r.idx < 16 ∧ r.off < c.words ∧ r.len < 256 ∧ (c.lite = true → r.len = 0) ∧ w.s.off r.idx = r.off ∧
    w.s.len r.idx = r.len
  nodup : (v.reqs.map (·.idx)).Nodup
  writes : w.writes ++ w.writing = v.writes c
  told : w.told ++ w.telling = v.done.map tell
  room : w.s.w.items.length + w.s.din.toList.length + w.s.ready.toNat ≤ 8
  lite : c.lite = true → ∀ j, w.s.err j = false
  avail : (∀ j, w.s.avail j = false) ∨ (w.s.st = .idle ∧ ∃ x, x < 16 ∧ ∀ j, w.s.avail j = decide (j = x))
  now : Now c w v

theorem inv_start (c : Cfg) : Inv c .start ⟨[], [], [], []⟩ where
  pairs := ⟨rfl, rfl, by simp, by simp, fun _ => rfl⟩
  ok := by simp
  nodup := by simp
  writes := rfl
  told := rfl
  room := by simp [World.start, reset]
  lite := fun _ _ => rfl
  avail := .inl fun _ => rfl
  now := by simp [Now, World.start, reset, World.flagged, Regs.anyErr]

/-! ## Vectors -/

theorem filter_one : ∀ x, x < 16 → (List.range 16).filter (fun j => decide (j = x)) = [x] := by decide

theorem any_one : ∀ x, x < 16 → ∀ b : Bool, (List.range 16).any (fun j => if j = x then b else false) = b := by decide

theorem telling_none {w : World} (h : ∀ j, w.s.avail j = false) : w.telling = [] := by
  simp [World.telling, h]

theorem telling_one {w : World} {x : Nat} (hx : x < 16) (h : ∀ j, w.s.avail j = decide (j = x)) :
    w.telling = [⟨x, w.s.strb x, w.flagged⟩] := by
  have e : w.s.avail = fun j => decide (j = x) := funext h
  unfold World.telling
  rw [e, filter_one x hx]
  rfl

theorem anyErr_none {s : Regs} (h : ∀ j, s.err j = false) : s.anyErr = false := by
  simp [Regs.anyErr, h]

theorem set_apply {β : Type} (f : Nat → β) (j : Nat) (x : β) (k : Nat) : set f j x k = if k = j then x else f k := rfl

theorem anyErr_one {s : Regs} {x : Nat} (hx : x < 16) {f : Nat → Bool} (b : Bool) (h : ∀ j, f j = false) (e : s.err = set f x b) :
    s.anyErr = b := by
  have e' : s.err = fun j => if j = x then b else false := by
    rw [e]
    funext j
    simp [set, h]
  unfold Regs.anyErr
  rw [e', any_one x hx]

/-! ## The queues -/

theorem w_items {q : Queue Beat} {d : Option Beat} (r : Bool) (h : q.items.length + d.toList.length ≤ 8) :
    (q.next 8 ⟨d.isSome, r, d.getD default⟩).items = (if r then q.items.drop 1 else q.items) ++ d.toList := by
  cases d with
  | none => simp [Queue.next]
  | some b =>
    have : q.items.length < 8 := by
      simp at h
      omega
    simp [Queue.next, this]

theorem aw_quiet (q : Queue Nat) (r : Bool) (x : Nat) :
    (q.next 16 ⟨false, r, x⟩).items = if r then q.items.drop 1 else q.items := by
  simp [Queue.next]

/-! ## A request more -/

def World.add (w : World) (r : Req) : World :=
  { w with
    reqs := w.reqs ++ [r]
    s := { w.s with
      aw := { w.s.aw with items := w.s.aw.items ++ [r.idx] }
      off := set w.s.off r.idx r.off
      len := set w.s.len r.idx r.len } }

def View.add (v : View) (r : Req) : View := { v with reqs := v.reqs ++ [r] }

theorem writes_add (c : Cfg) (v : View) (r : Req) (h : v.reqs = [] → v.part = []) : (v.add r).writes c = v.writes c := by
  unfold View.writes View.add
  cases e : v.reqs with
  | nil => simp [h e, places]
  | cons q qs => rfl

theorem con_add {c : Cfg} {w : World} {v : View} (h : Con c w v) (r : Req) : Con c (w.add r) (v.add r) where
  some := h.some
  awRden := h.awRden
  own := by
    obtain ⟨q, qs, e1, e2, e3, e4, e5, e6, e7, e8⟩ := h.own
    exact ⟨q, qs ++ [r], by simp [View.add, e1], e2, by simp [World.add, e3], e4, e5, e6, e7, e8⟩

theorem now_add {c : Cfg} {w : World} {v : View} (h : Now c w v) (r : Req) : Now c (w.add r) (v.add r) := by
  have hs : (w.add r).s.st = w.s.st := rfl
  unfold Now at h ⊢
  rw [hs]
  cases e : w.s.st <;> rw [e] at h <;> dsimp only at h ⊢
  · obtain ⟨h1, h2, h3, h4, h5, h6, h7⟩ := h
    exact ⟨h1, h2, by simp [View.add, World.add, h3], h4, h5, h6, h7⟩
  · obtain ⟨h1, h2, h3, h4, h5, h6, h7, h8, h9⟩ := h
    exact ⟨h1, h2, by simp [View.add, World.add, h3], h4, by simp [World.add], h6, h7, h8, h9⟩
  · obtain ⟨h1, b, q, qs, e1, e2, e3, e4, e5, e6, e7, e8, e9, e10⟩ := h
    exact ⟨h1, b, q, qs ++ [r], by simp [View.add, e1], e2, e3, e4, by simp [World.add, e5], e6, e7, e8, e9, e10⟩
  · exact ⟨con_add h.1 r, h.2⟩
  · exact ⟨con_add h.1 r, h.2⟩
  · exact ⟨con_add h.1 r, h.2⟩

theorem inv_add {c : Cfg} {w : World} {v : View} (h : Inv c w v) {r : Req}
    (p : r.idx < 16 ∧ r.off < c.words ∧ r.len < 256 ∧ (c.lite = true → r.len = 0)) (n : ∀ q ∈ v.reqs, q.idx ≠ r.idx) :
    Inv c (w.add r) (v.add r) where
  pairs :=
    { reqs := by simp [World.add, View.add, h.pairs.reqs]
      beats := h.pairs.beats
      whole := h.pairs.whole
      part := h.pairs.part
      owner := by simp [View.add] }
  ok := by
    intro q hq
    rcases List.mem_append.mp hq with hq | hq
    · obtain ⟨a1, a2, a3, a4, a5, a6⟩ := h.ok q hq
      refine ⟨a1, a2, a3, a4, ?_, ?_⟩
      · show set w.s.off r.idx r.off q.idx = q.off
        rw [set_apply, if_neg (n q hq), a5]
      · show set w.s.len r.idx r.len q.idx = q.len
        rw [set_apply, if_neg (n q hq), a6]
    · rw [List.mem_singleton] at hq
      subst hq
      refine ⟨p.1, p.2.1, p.2.2.1, p.2.2.2, ?_, ?_⟩
      · show set w.s.off q.idx q.off q.idx = q.off
        rw [set_apply, if_pos rfl]
      · show set w.s.len q.idx q.len q.idx = q.len
        rw [set_apply, if_pos rfl]
  nodup := by
    show ((v.reqs ++ [r]).map (·.idx)).Nodup
    rw [List.map_append]
    refine List.nodup_append.mpr ⟨h.nodup, by simp, ?_⟩
    intro a ha b hb
    obtain ⟨q, hq, e⟩ := List.mem_map.mp ha
    simp at hb
    rw [hb, ← e]
    exact n q hq
  writes := by
    rw [writes_add c v r h.pairs.owner]
    exact h.writes
  told := h.told
  room := h.room
  lite := h.lite
  avail := h.avail
  now := now_add h.now r

end Verif.RtlWdata
