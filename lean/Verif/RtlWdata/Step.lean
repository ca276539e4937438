import Verif.RtlWdata.Lemmas

/-!
Helper lemmas: a step without a new request.
-/

namespace Verif.RtlWdata

open RtlFifo (Queue)

def View.more (v : View) (t : List Beat) : View := { v with rest := v.rest ++ t }

/-- The beat at hand goes on with the burst. -/
def View.on (v : View) (b : Beat) (t : List Beat) : View := { v with part := v.part ++ [b], rest := t }

/-- The beat at hand ends the burst. -/
def View.fin (v : View) (r : Req) (rs : List Req) (b : Beat) (t : List Beat) : View :=
  { done := v.done ++ [(r, v.part ++ [b])], reqs := rs, part := [], rest := t }

section
variable {c : Cfg} {w : World} {v : View} {i : In}

theorem pairs_more (h : Pairs c w v) (ha : i.aw = none) : Pairs c (w.next c i) (v.more (taken w.s i).toList) where
  reqs := by simp [World.next, ha, h.reqs, View.more]
  beats := by simp [World.next, h.beats, View.more]
  whole := h.whole
  part := h.part
  owner := h.owner

theorem pairs_on (h : Pairs c w v) (ha : i.aw = none) {b : Beat} {t : List Beat} (hr : v.rest = b :: t)
    (e : (c.lite || b.last) = false) (hn : v.reqs ≠ []) : Pairs c (w.next c i) (v.on b (t ++ (taken w.s i).toList)) where
  reqs := by simp [World.next, ha, h.reqs, View.on]
  beats := by simp [World.next, h.beats, View.on, hr]
  whole := h.whole
  part := by
    intro y hy
    rcases List.mem_append.mp hy with hy | hy
    · exact h.part y hy
    · rw [List.mem_singleton] at hy
      rw [hy]
      exact e
  owner := fun h => absurd h hn

theorem pairs_fin (h : Pairs c w v) (ha : i.aw = none) {b : Beat} {t : List Beat} (hr : v.rest = b :: t)
    (e : (c.lite || b.last) = true) {r : Req} {rs : List Req} (hn : v.reqs = r :: rs) :
    Pairs c (w.next c i) (v.fin r rs b (t ++ (taken w.s i).toList)) where
  reqs := by simp [World.next, ha, h.reqs, View.fin, hn]
  beats := by simp [World.next, h.beats, View.fin, hr]
  whole := by
    intro d hd
    rcases List.mem_append.mp hd with hd | hd
    · exact h.whole d hd
    · rw [List.mem_singleton] at hd
      rw [hd]
      exact ⟨v.part, b, rfl, e, h.part⟩
  part := by simp [View.fin]
  owner := fun _ => rfl

theorem places_snoc (c : Cfg) (r : Req) (p : List Beat) (b : Beat) :
    places c r (p ++ [b]) = places c r p ++ [((r.off + p.length) % c.words, b.data)] := by
  simp [places, List.mapIdx_append]

theorem writes_on {r : Req} {rs : List Req} (hn : v.reqs = r :: rs) (b : Beat) (t : List Beat) :
    (v.on b t).writes c = v.writes c ++ [((r.off + v.part.length) % c.words, b.data)] := by
  simp [View.writes, View.on, hn, places_snoc]

theorem writes_fin {r : Req} {rs : List Req} (hn : v.reqs = r :: rs) (b : Beat) (t : List Beat) :
    (v.fin r rs b t).writes c = v.writes c ++ [((r.off + v.part.length) % c.words, b.data)] := by
  have e : (v.fin r rs b t).writes c = (v.done ++ [(r, v.part ++ [b])]).flatMap (fun d => places c d.1 d.2) := by
    unfold View.writes View.fin
    cases rs <;> simp [places]
  rw [e]
  simp [View.writes, hn, places_snoc]

/-! ## What is left alone -/

theorem room_next (h : Inv c w v) :
    (w.next c i).s.w.items.length + (w.next c i).s.din.toList.length + (w.next c i).s.ready.toNat ≤ 8 := by
  have hr := h.room
  show (w.s.w.next 8 ⟨w.s.din.isSome, w.s.wRden, w.s.din.getD default⟩).items.length + (taken w.s i).toList.length +
    (!decide (6 ≤ w.s.w.items.length)).toNat ≤ 8
  rw [w_items _ (by omega)]
  have h1 : (if w.s.wRden then w.s.w.items.drop 1 else w.s.w.items).length ≤ w.s.w.items.length := by
    split
    · simp
    · exact Nat.le_refl _
  have h2 : (taken w.s i).toList.length ≤ w.s.ready.toNat := by
    unfold taken
    cases w.s.ready
    · simp
    · cases i.w <;> simp
  have h3 : w.s.din.toList.length ≤ 1 := by cases w.s.din <;> simp
  have h4 : w.s.ready.toNat ≤ 1 := by cases w.s.ready <;> simp
  rw [List.length_append]
  by_cases h6 : 6 ≤ w.s.w.items.length
  · simp only [h6, decide_true, Bool.not_true, Bool.toNat_false]
    omega
  · simp only [h6, decide_false, Bool.not_false, Bool.toNat_true]
    omega

theorem off_next (ha : i.aw = none) : (w.next c i).s.off = w.s.off ∧ (w.next c i).s.len = w.s.len := by
  constructor
  · show (match i.aw with | some r => set w.s.off r.idx r.off | _ => w.s.off) = _
    rw [ha]
  · show (match i.aw with | some r => set w.s.len r.idx r.len | _ => w.s.len) = _
    rw [ha]

theorem items_next (h : Inv c w v) : (w.next c i).s.w.items = (if w.s.wRden then w.s.w.items.drop 1 else w.s.w.items) ++ w.s.din.toList :=
  w_items _ (by have := h.room; omega)

theorem aw_next (ha : i.aw = none) : (w.next c i).s.aw.items = if w.s.awRden then w.s.aw.items.drop 1 else w.s.aw.items := by
  show (w.s.aw.next 16 ⟨i.aw.isSome, w.s.awRden, _⟩).items = _
  rw [ha]
  exact aw_quiet _ _ _

theorem telling_avail (h : Inv c w v) (hs : w.s.st ≠ .idle) : ∀ j, w.s.avail j = false := by
  rcases h.avail with h | h
  · exact h
  · exact absurd h.1 hs

theorem telling_away (h : Inv c w v) (hs : w.s.st ≠ .idle) : w.telling = [] := telling_none (telling_avail h hs)

/-- A step in which no beat is used. -/
theorem inv_more (h : Inv c w v) (ha : i.aw = none) (hff : w.s.wRdenFf = false)
    (hav : ∀ j, (w.next c i).s.avail j = false) (hl : c.lite = true → ∀ j, (w.next c i).s.err j = false)
    (n : Now c (w.next c i) (v.more (taken w.s i).toList)) : Inv c (w.next c i) (v.more (taken w.s i).toList) where
  pairs := pairs_more h.pairs ha
  ok := by
    rw [(off_next ha).1, (off_next ha).2]
    exact h.ok
  nodup := h.nodup
  writes := by
    have e : (w.next c i).writing = [] := by
      show (if w.s.wRdenFf then _ else _) = _
      rw [hff]
      rfl
    rw [e, List.append_nil]
    exact h.writes
  told := by
    rw [telling_none hav, List.append_nil]
    exact h.told
  room := room_next h
  lite := hl
  avail := .inl hav
  now := n

/-- A step in which a beat is used. -/
theorem inv_use (h : Inv c w v) (ha : i.aw = none) (hff : w.s.wRdenFf = true) (v' : View) {r : Req} {rs : List Req} {b : Beat}
    (hn : v.reqs = r :: rs) (hb : w.s.beat = b) (hp : Pairs c (w.next c i) v') (hq : v'.reqs = rs ∨ v'.reqs = r :: rs)
    (hw : v'.writes c = v.writes c ++ [((r.off + v.part.length) % c.words, b.data)])
    (hadr : addrNext w.s = (r.off + v.part.length) % c.words)
    (ht : w.told ++ w.telling ++ (w.next c i).telling = v'.done.map tell)
    (hl : c.lite = true → ∀ j, (w.next c i).s.err j = false)
    (hav : (∀ j, (w.next c i).s.avail j = false) ∨
      ((w.next c i).s.st = .idle ∧ ∃ x, x < 16 ∧ ∀ j, (w.next c i).s.avail j = decide (j = x)))
    (n : Now c (w.next c i) v') : Inv c (w.next c i) v' where
  pairs := hp
  ok := by
    rw [(off_next ha).1, (off_next ha).2]
    intro q hq'
    apply h.ok
    rw [hn]
    rcases hq with e | e
    · rw [e] at hq'
      exact List.mem_cons_of_mem _ hq'
    · rw [e] at hq'
      exact hq'
  nodup := by
    have hd := h.nodup
    rw [hn] at hd
    rcases hq with e | e
    · rw [e]
      exact (List.nodup_cons.mp hd).2
    · rw [e]
      exact hd
  writes := by
    have e : (w.next c i).writing = [(addrNext w.s, w.s.beat.data)] := by
      show (if w.s.wRdenFf then _ else _) = _
      rw [hff]
      rfl
    rw [e, hw, hadr, hb, ← h.writes]
    rfl
  told := ht
  room := room_next h
  lite := hl
  avail := hav
  now := n

end

end Verif.RtlWdata
