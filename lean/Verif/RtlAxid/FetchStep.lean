import Verif.RtlAxid.Fetch
import Verif.RtlAxid.Lemmas

/-!
The machine keeps what the store asks for.
-/

namespace Verif.RtlAxid

/-- The request taken last is `j` registers on its way, with descriptor and ID
`d`. -/
structure Way (n : Nat) (f : Fetch) (w : World) (j : Nat) (d : Nat × Nat) : Prop where
  le : j ≤ 6
  read : f.read = true
  en : f.en = decide (j = 0)
  en1 : f.en1 = decide (j = 1)
  en2 : f.en2 = decide (j = 2)
  en3 : f.en3 = decide (j = 3)
  tx1 : f.tx1 = decide (j = 4)
  tx2 : f.tx2 = decide (j = 5)
  valid : f.valid = decide (j = 6)
  out : j = 1 → f.out = d
  out1 : 2 ≤ j → f.out1 = d
  out2 : 3 ≤ j → f.out2 = d
  id : 4 ≤ j → f.id = d.2
  since : j + 3 ≤ w.since
  room : j ≤ w.room
  fresh : 1 ≤ j → d.1 ∉ w.out.map (·.2)
  lt : 1 ≤ j → d.1 < n

/-- None is. -/
structure Rest (f : Fetch) (w : World) : Prop where
  read : f.read = false
  en : f.en = false
  en1 : f.en1 = false
  en2 : f.en2 = false
  en3 : f.en3 = false
  tx1 : f.tx1 = false
  tx2 : f.tx2 = false
  valid : f.valid = false
  since : 1 ≤ w.since
  busy : w.since = 1 → f.busy = true
  wires : w.since ≤ 2 → f.out1 = (w.last.2, w.last.1) ∧ f.out2 = (w.last.2, w.last.1) ∧ f.id = w.last.1

structure MInv (n : Nat) (m : Master) : Prop where
  nodup : (m.w.out.map (·.2)).Nodup
  all : ∀ d ∈ m.w.out.map (·.2), d < n
  where_ : Rest m.f m.w ∨ ∃ j d, Way n m.f m.w j d

theorem minv_start (n : Nat) : MInv n Master.start where
  nodup := by simp [Master.start, World.start]
  all := by simp [Master.start, World.start]
  where_ := Or.inl ⟨rfl, rfl, rfl, rfl, rfl, rfl, rfl, rfl, by decide, by decide, by intro h; exact absurd h (by decide)⟩

theorem map_drop (l : List (Nat × Nat)) (x : Nat) : ((drop l x).map (·.2)).Sublist (l.map (·.2)) :=
  (List.eraseP_sublist).map _

theorem short {n : Nat} {l : List Nat} {d : Nat} (h : l.Nodup) (a : ∀ x ∈ l, x < n) (hd : d < n) (hn : d ∉ l) :
    l.length < n := by
  have h1 : (d :: l).Nodup := List.nodup_cons.2 ⟨hn, h⟩
  have h2 : (d :: l) ⊆ List.range n := by
    intro x hx
    rcases List.mem_cons.1 hx with rfl | hx
    · exact List.mem_range.2 hd
    · exact List.mem_range.2 (a x hx)
  have := h1.length_le_of_subset h2
  simp at this
  omega

/-- The requests in flight after a cycle without an accepted one. -/
def left (w : World) (p : Option Nat) : List (Nat × Nat) :=
  match p with
  | some k => drop w.out (w.s.id k)
  | none => w.out

theorem left_sub (w : World) (p : Option Nat) : ((left w p).map (·.2)).Sublist (w.out.map (·.2)) := by
  cases p with
  | none => exact List.Sublist.refl _
  | some k => exact map_drop _ _

theorem next_good {n : Nat} {m : Master} {i : FIn} (h : MInv n m) (g : Kept n m i) :
    Good n m.w (m.f.wires i) ∧ MInv n (m.next n i) := by
  have hout : (m.next n i).w.out = left m.w i.pop ++
      (if (m.f.wires i).next then [(m.f.id, m.f.out2.1)] else []) := rfl
  have hsi : (m.next n i).w.since = if (m.f.wires i).next then 1 else m.w.since + 1 := rfl
  have hro : (m.next n i).w.room = if (m.next n i).w.out.length < n then m.w.room + 1 else 0 := rfl
  have hla : (m.next n i).w.last = if (m.f.wires i).next then (m.f.id, m.f.out2.1) else m.w.last := rfl
  have hls := left_sub m.w i.pop
  rcases h.where_ with r | ⟨j, d, r⟩
  · have hx : (m.f.wires i).next = false := by simp [Fetch.wires, r.valid]
    rw [hx] at hout hsi hla
    simp at hout hsi hla
    refine ⟨⟨?_, ?_, g.there⟩, ?_, ?_, ?_⟩
    · intro e; rw [hx] at e; cases e
    · intro e
      obtain ⟨_, a, b⟩ := r.wires e
      exact ⟨b, by simp [Fetch.wires, a]⟩
    · rw [hout]; exact hls.nodup h.nodup
    · rw [hout]; intro d hd; exact h.all d (hls.subset hd)
    · by_cases hm : i.more = true ∧ m.f.busy = false
      · refine Or.inr ⟨0, (0, 0), ?_⟩
        have h2 : 2 ≤ m.w.since := by
          have := r.since
          refine Classical.byContradiction fun hne => ?_
          have := r.busy (by omega)
          rw [hm.2] at this; cases this
        constructor <;>
          first
          | (show _ = _; simp [Master.next, Fetch.step, r.read, r.en, r.en1, r.en2, r.en3, r.tx1, r.tx2, r.valid, hm.1, hm.2]; done)
          | (intro e; omega)
          | omega
      · have hm' : (i.more && !m.f.busy) = false := by
          cases a : i.more <;> cases b : m.f.busy <;> simp_all
        refine Or.inl ?_
        constructor
        case read => simp [Master.next, Fetch.step, r.read, hm']
        case en => simp only [Master.next, Fetch.step, r.read, Bool.not_false, Bool.true_and]; exact hm'
        case since => omega
        case busy => intro e; have := r.since; omega
        case wires =>
          intro e
          obtain ⟨a, b, c⟩ := r.wires (by omega)
          rw [hla]
          simp [Master.next, Fetch.step, r.en1, a, b]
        all_goals simp [Master.next, Fetch.step, r.en, r.en1, r.en2, r.en3, r.tx1, r.tx2, r.valid]
  · by_cases hx : (m.f.wires i).next = true
    · have hj : j = 6 ∧ i.ready = true := by
        simp [Fetch.wires, r.valid] at hx
        exact hx
      obtain ⟨rfl, hr⟩ := hj
      rw [hx] at hout hsi hla
      simp at hout hsi hla
      have hid := r.id (by omega)
      have ho2 := r.out2 (by omega)
      have ho1 := r.out1 (by omega)
      have hs := r.since
      have hr2 := r.room
      have hv : m.f.valid = true := by rw [r.valid]; rfl
      refine ⟨⟨fun _ => ⟨by omega, by omega⟩, fun e => by omega, g.there⟩, ?_, ?_, Or.inl ?_⟩
      · rw [hout, List.map_append, ho2]
        refine List.nodup_append.2 ⟨hls.nodup h.nodup, by simp, ?_⟩
        intro a ha b hb
        simp at hb
        rintro rfl
        rw [hb] at ha
        exact r.fresh (by omega) (hls.subset ha)
      · rw [hout, List.map_append, ho2]
        intro a ha
        rcases List.mem_append.1 ha with ha | ha
        · exact h.all a (hls.subset ha)
        · simp at ha; rw [ha]; exact r.lt (by omega)
      · constructor
        case since => omega
        case wires =>
          intro _
          rw [hla]
          simp [Master.next, Fetch.step, r.en1, ho1, ho2, hid]
        all_goals simp [Master.next, Fetch.step, r.read, r.en, r.en1, r.en2, r.en3, r.tx1, r.tx2, hv, hr]
    · have hx' : (m.f.wires i).next = false := by simpa using hx
      rw [hx'] at hout hsi hla
      simp at hout hsi hla
      have hvr : (m.f.valid && i.ready) = false := hx'
      have hs := r.since
      have hnd : ((m.next n i).w.out.map (·.2)).Nodup := by rw [hout]; exact hls.nodup h.nodup
      have hal : ∀ d ∈ (m.next n i).w.out.map (·.2), d < n := by
        rw [hout]; intro d hd; exact h.all d (hls.subset hd)
      refine ⟨⟨fun e => absurd e hx, fun e => by omega, g.there⟩, hnd, hal, Or.inr ?_⟩
      have hf : (if j = 0 then i.head else d).1 < n ∧ (if j = 0 then i.head else d).1 ∉ m.w.out.map (·.2) := by
        by_cases e : j = 0
        · rw [if_pos e]; exact g.fresh (by rw [r.en]; simp [e])
        · rw [if_neg e]; exact ⟨r.lt (by omega), r.fresh (by omega)⟩
      have hf2 : (if j = 0 then i.head else d).1 ∉ (m.next n i).w.out.map (·.2) := by
        rw [hout]; exact fun e => hf.2 (hls.subset e)
      have hle := short hnd hal hf.1 hf2
      rw [List.length_map] at hle
      rw [if_pos hle] at hro
      have hro2 := r.room
      have hj6 := r.le
      refine ⟨if j < 6 then j + 1 else 6, if j = 0 then i.head else d, ?_⟩
      have cases_ : j = 0 ∨ j = 1 ∨ j = 2 ∨ j = 3 ∨ j = 4 ∨ j = 5 ∨ j = 6 := by omega
      constructor
      case le => split <;> omega
      case since => rw [hsi]; split <;> omega
      case room => rw [hro]; split <;> omega
      case fresh => exact fun _ => hf2
      case lt => exact fun _ => hf.1
      case read =>
        show (if m.f.read then !(m.f.valid && i.ready) else i.more && !m.f.busy) = true
        rw [r.read, hvr]; rfl
      case en =>
        show (!m.f.read && i.more && !m.f.busy) = _
        rw [r.read]
        have : ¬(if j < 6 then j + 1 else 6) = 0 := by split <;> omega
        simp [this]
      case valid =>
        show (if !m.f.valid && m.f.tx2 then true else if i.ready && m.f.valid then false else m.f.valid) = _
        rw [Bool.and_comm i.ready, hvr, r.valid, r.tx2]
        rcases cases_ with rfl | rfl | rfl | rfl | rfl | rfl | rfl <;> rfl
      case out =>
        intro e
        have : j = 0 := by split at e <;> omega
        show (if m.f.en then i.head else m.f.out) = _
        rw [r.en]; simp [this]
      case out1 =>
        intro e
        show (if m.f.en1 then m.f.out else m.f.out1) = _
        rw [r.en1]
        have : j ≠ 0 := by rintro rfl; simp at e
        rw [if_neg this]
        by_cases h1 : j = 1
        · simp [h1, r.out h1]
        · simp [h1, r.out1 (by omega)]
      case out2 =>
        intro e
        show m.f.out1 = _
        have : 2 ≤ j := by split at e <;> omega
        rw [if_neg (by omega), r.out1 this]
      case id =>
        intro e
        show m.f.out2.2 = _
        have : 3 ≤ j := by split at e <;> omega
        rw [if_neg (by omega), r.out2 this]
      case en1 =>
        show m.f.en = _
        rw [r.en]; rcases cases_ with rfl | rfl | rfl | rfl | rfl | rfl | rfl <;> rfl
      case en2 =>
        show m.f.en1 = _
        rw [r.en1]; rcases cases_ with rfl | rfl | rfl | rfl | rfl | rfl | rfl <;> rfl
      case en3 =>
        show m.f.en2 = _
        rw [r.en2]; rcases cases_ with rfl | rfl | rfl | rfl | rfl | rfl | rfl <;> rfl
      case tx1 =>
        show m.f.en3 = _
        rw [r.en3]; rcases cases_ with rfl | rfl | rfl | rfl | rfl | rfl | rfl <;> rfl
      case tx2 =>
        show m.f.tx1 = _
        rw [r.tx1]; rcases cases_ with rfl | rfl | rfl | rfl | rfl | rfl | rfl <;> rfl

/-- A history of the master is one of the store. -/
theorem run_good {n : Nat} (t : List FIn) {m : Master} (h : MInv n m) (g : AllKept n m t) :
    ∃ u, All n m.w u ∧ (m.run n t).w = m.w.run n u := by
  induction t generalizing m with
  | nil => exact ⟨[], trivial, rfl⟩
  | cons i t ih =>
    obtain ⟨a, b⟩ := next_good h g.1
    obtain ⟨u, hu, e⟩ := ih b g.2
    exact ⟨m.f.wires i :: u, ⟨a, hu⟩, e⟩

end Verif.RtlAxid
