import Verif.LinkPair.Lemmas

/-!
# Both directions of a CXS link: theorems
-/

namespace Verif.LinkPair

/-- At each edge each direction stays where it is or goes on to the next state. -/
theorem handshake_order (p : Pair) (o : Op) :
    ((step p o).a.state = p.a.state ∨ (step p o).a.state = following p.a.state) ∧
      ((step p o).b.state = p.b.state ∨ (step p o).b.state = following p.b.state) := by
  have key : ∀ (d : Dir) (down : Bool) (c : Choice), (dirTick d down c).state = d.state ∨ (dirTick d down c).state = following d.state := by
    intro d down c
    obtain ⟨req, ack, gnt, back, tx, rx, want, deact⟩ := d
    cases req <;> cases ack <;> simp only [dirTick, ackTick, reqTick, Dir.state, linkState, following]
    · cases want <;> simp [linkState]
    · by_cases h : (if c.last = true then (rxTick ⟨false, true, gnt, back, tx, rx, want, deact⟩).2 else rx) = maxCredits <;> simp only [h, if_true, if_false] <;> simp [linkState]
    · right; trivial
    · by_cases h : (deact || down || !want) = true <;> simp only [h, if_true, if_false] <;> simp [linkState]
  cases o with
  | setA w => exact ⟨Or.inl rfl, Or.inl rfl⟩
  | setB w => exact ⟨Or.inl rfl, Or.inl rfl⟩
  | tick a b => exact ⟨key _ _ _, key _ _ _⟩

/-- Each direction has its fifteen credits, in every history, and when it is
down the receiver has them all. -/
theorem credits_kept (ops : List Op) :
    let p := run .start ops
    p.a.total = 15 ∧ p.b.total = 15 ∧ (p.a.state = .stop → p.a.rx = 15) ∧ (p.b.state = .stop → p.b.rx = 15) := by
  intro p
  have h := pinv_run pinv_start ops
  have key : ∀ d : Dir, CInv d → d.state = .stop → d.rx = 15 := by
    intro d hd hs
    obtain ⟨req, ack, gnt, back, tx, rx, want, deact⟩ := d
    cases req <;> cases ack <;> simp [Dir.state, linkState] at hs
    exact hd.stop rfl rfl
  exact ⟨h.a.total, h.b.total, key _ h.a, key _ h.b⟩

/-- After the start the link is up from the second edge on, for ever, if neither
side asks for anything else. -/
theorem comes_up (ops : List Op) (ht : Ticks ops) (hl : 2 ≤ ops.length) : Up (run .start ops) := by
  match ops, hl with
  | o1 :: o2 :: t, _ =>
    obtain ⟨a, b, rfl⟩ := ht o1 List.mem_cons_self
    obtain ⟨c, d, rfl⟩ := ht o2 (List.mem_cons_of_mem _ List.mem_cons_self)
    obtain ⟨h1, h2⟩ := firm_run (p := step (step .start (.tick a b)) (.tick c d))
      (by refine ⟨rfl, rfl, rfl⟩) (by refine ⟨rfl, rfl, rfl⟩) t
      fun x hx => ht x (List.mem_cons_of_mem _ (List.mem_cons_of_mem _ hx))
    exact ⟨h1.1, h2.1⟩

/-- A side which asks for Stop gets its direction down, and it stays down, in
every history and whatever the other side does. -/
theorem stop_takes_down (ops ticks : List Op) (ht : Ticks ticks) (hl : 41 ≤ ticks.length) :
    (run .start (ops ++ [.setA false] ++ ticks)).a.state = .stop := by
  rw [run_append, run_append]
  have h := pinv_step (pinv_run pinv_start ops) (.setA false)
  have h1 := rank0_run h rfl ticks ht
  have h2 := rank0_le h.a
  exact rank0_zero (by simp only [run] at *; omega)

/-- Stopped long enough, the link comes up again and stays so, after every history
in which the other side wants it up.  Partial: after a short stop it need not
(`never_up_again`). -/
theorem long_stop_restarts_partial (ops down up : List Op) (hd : Ticks down) (hu : Ticks up) (hl : 83 ≤ down.length) (h2 : 2 ≤ up.length)
    (hb : (run .start ops).b.want = true) : Up (run .start (ops ++ [.setA false] ++ down ++ [.setA true] ++ up)) := by
  rw [run_append, run_append, run_append, run_append]
  have h := pinv_step (pinv_run pinv_start ops) (.setA false)
  have e1 : run (run .start ops) [.setA false] = step (run .start ops) (.setA false) := rfl
  have hwb : (step (run .start ops) (.setA false)).b.want = true := hb
  have hwa : (step (run .start ops) (.setA false)).a.want = false := rfl
  rw [e1]
  generalize step (run .start ops) (.setA false) = p at *
  have hsplit : down = down.take 41 ++ down.drop 41 := (List.take_append_drop 41 down).symm
  have t1 : Ticks (down.take 41) := fun x hx => hd x (List.mem_of_mem_take hx)
  have t2 : Ticks (down.drop 41) := fun x hx => hd x (List.mem_of_mem_drop hx)
  have r1 := rank0_run h hwa _ t1
  have l1 : (down.take 41).length = 41 := by rw [List.length_take]; omega
  have r1' : rank0 (run p (down.take 41)).a = 0 := by have := rank0_le h.a; omega
  have hp1 := pinv_run h (down.take 41)
  have w1 := want_run (p := p) _ t1
  have r2 := rank0_run hp1 (by rw [w1.1, hwa]) _ t2
  have r3 := rank1_run hp1 (by rw [w1.1, hwa]) (by rw [w1.2, hwb]) r1' _ t2
  have l2 : (down.drop 41).length = down.length - 41 := List.length_drop
  have w2 := want_run (p := run p (down.take 41)) _ t2
  have hp2 := pinv_run hp1 (down.drop 41)
  rw [← run_append, ← hsplit] at r2 r3 w2 hp2
  have hsa := rank0_zero (d := (run p down).a) (by omega)
  have hsb := rank1_zero (d := (run p down).b) (by have := rank1_le hp1.b; omega)
  match up, h2 with
  | o1 :: o2 :: t, _ =>
    obtain ⟨a, b, rfl⟩ := hu o1 List.mem_cons_self
    obtain ⟨c, d, rfl⟩ := hu o2 (List.mem_cons_of_mem _ List.mem_cons_self)
    have hda : (run p down).a.deact = false := by
      cases hx : (run p down).a.deact
      · rfl
      · have := hp2.a.flag hx
        rw [Dir.state, this] at hsa
        cases hk : (run p down).a.ack <;> rw [hk] at hsa <;> cases hsa
    obtain ⟨f1, f2⟩ := join (p := run (run p down) [.setA true]) hsa rfl hda ⟨hsb.1, by show (run p down).b.want = true; rw [w2.2, w1.2, hwb], hsb.2⟩ a b c d
    obtain ⟨g1, g2⟩ := firm_run f1 f2 t fun x hx => hu x (List.mem_cons_of_mem _ (List.mem_cons_of_mem _ hx))
    exact ⟨g1.1, g2.1⟩

/-- The same with the sides exchanged. -/
theorem long_stop_restarts_b_partial (ops down up : List Op) (hd : Ticks down) (hu : Ticks up) (hl : 83 ≤ down.length) (h2 : 2 ≤ up.length)
    (ha : (run .start ops).a.want = true) : Up (run .start (ops ++ [.setB false] ++ down ++ [.setB true] ++ up)) := by
  have h := long_stop_restarts_partial (ops.map Op.swap) (down.map Op.swap) (up.map Op.swap) (ticks_swap hd) (ticks_swap hu)
    (by rw [List.length_map]; exact hl) (by rw [List.length_map]; exact h2) (by rw [show Pair.start = Pair.start.swap from rfl, ← run_swap]; exact ha)
  have e : ops.map Op.swap ++ [.setA false] ++ down.map Op.swap ++ [.setA true] ++ up.map Op.swap =
      (ops ++ [Op.setB false] ++ down ++ [Op.setB true] ++ up).map Op.swap := by simp [Op.swap]
  rw [e, show Pair.start = Pair.start.swap from rfl, ← run_swap] at h
  exact ⟨h.2, h.1⟩

/-- An edge with nothing to send, at both ends in the same order. -/
def idle (last : Bool) : Choice := ⟨false, last⟩

/-- Just after the start A asks for Stop, and for Run one clock later. -/
def short (last : Bool) : List Op :=
  edges 3 (idle last) (idle last) ++ [.setA false] ++ edges 1 (idle last) (idle last) ++ [.setA true]

def orbit (last : Bool) : Nat → Pair → List Pair
  | 0, _ => []
  | n + 1, p => p :: orbit last n (step p (.tick (idle last) (idle last)))

/-- From then on the link is never up again: each side takes its direction down
because the other did, although both want it up and nothing is sent. -/
theorem never_up_again (last : Bool) (n : Nat) : ¬Up (run .start (short last ++ edges n (idle last) (idle last))) := by
  have closed : ∀ p ∈ orbit last 40 (run .start (short last)),
      step p (.tick (idle last) (idle last)) ∈ orbit last 40 (run .start (short last)) ∧ ¬Up p := by
    cases last <;> decide +kernel
  have key : ∀ (n : Nat) (p : Pair), p ∈ orbit last 40 (run .start (short last)) → ¬Up (run p (edges n (idle last) (idle last))) := by
    intro n
    induction n with
    | zero => intro p hp; exact (closed p hp).2
    | succ n ih => intro p hp; exact ih _ (closed p hp).1
  rw [run_append]
  exact key n _ List.mem_cons_self

/-- Both sides want the link all the time it is not up. -/
theorem never_up_wanted (last : Bool) (n : Nat) :
    (run .start (short last ++ edges n (idle last) (idle last))).a.want = true ∧
      (run .start (short last ++ edges n (idle last) (idle last))).b.want = true := by
  rw [run_append]
  have h := want_run (p := run .start (short last)) (edges n (idle last) (idle last)) fun o ho => ⟨_, _, List.eq_of_mem_replicate ho⟩
  cases last <;> exact h

/-- The same stop does no harm when all credits have been granted before. -/
example : ∀ last : Bool, Up (run .start (edges 40 (idle last) (idle last) ++ [.setA false] ++ edges 1 (idle last) (idle last) ++ [.setA true] ++
    edges 60 (idle last) (idle last))) := by decide +kernel

/-- A long stop ends the trouble. -/
example (n : Nat) : Up (run .start ((short true ++ edges n (idle true) (idle true)) ++ [.setA false] ++ edges 83 (idle true) (idle true) ++ [.setA true] ++
    edges 2 (idle true) (idle true))) :=
  long_stop_restarts_partial _ _ _ (fun _ h => ⟨_, _, List.eq_of_mem_replicate h⟩) (fun _ h => ⟨_, _, List.eq_of_mem_replicate h⟩)
    (by simp [edges]) (by simp [edges]) (never_up_wanted true n).2

end Verif.LinkPair
