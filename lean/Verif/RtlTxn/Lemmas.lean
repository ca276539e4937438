import Verif.RtlTxn.Spec

/-! The invariant: the phases of a channel. -/

namespace Verif.RtlTxn

/-- The request for a descriptor is under way: asked for, FIFO read, or its
output there. -/
def one (s : Side) : Bool := (s.req && !s.alc) || (!s.req && !s.fifo && s.alc)

/-- Nothing of it is. -/
def rest (s : Side) : Bool := !s.req && !s.fifo && !s.alc

/-- The registers of a channel fit together. -/
def ok (s : Side) (owed : Bool) : Bool :=
  match s.inf with
  | .idle | .done => !s.valid && !s.ready && !s.validFf && rest s && s.got == .idle && !s.alcValid && !owed
  | .fill => !s.valid && s.ready && rest s && s.got == .idle && !s.alcValid && !owed
  | .wait => s.valid && !s.ready && (s.alcValid == (s.got == .both)) &&
    (if s.validFf then
      match s.got with
      | .idle => owed && one s
      | .addr => !owed && one s
      | .desc => owed && rest s
      | .both => !owed && rest s
    else rest s && s.got == .idle && !owed)

/-- The descriptor a channel has taken from the FIFO for a request not yet
accepted. -/
def held (s : Side) (dout : Option Nat) : Option Nat :=
  if s.alc then some (dout.getD 0)
  else match s.got with
    | .desc | .both => some s.idx
    | _ => if s.inf = .fill then some s.cur else none

theorem side_ok {α : Type} {s : Side} {b : Book α} {i : Chan α} {sel : Bool} {d : Option Nat}
    (h : ok s b.owed = true) (hs : sel = true → s.req = true ∧ s.fifo = false)
    (ha : i.addr.isSome = true → b.owed = true) :
    ok (s.step i sel d) (b.next s i).owed = true := by
  obtain ⟨inf, v, rd, cur, ff, rq, ffo, al, got, av, idx, off⟩ := s
  obtain ⟨hold, owed, o⟩ := b
  obtain ⟨req, addr⟩ := i
  cases inf <;> cases got <;> cases v <;> cases rd <;> cases ff <;> cases rq <;> cases ffo <;> cases al <;>
    cases av <;> cases owed <;>
    first
    | exact absurd h Bool.false_ne_true
    | (cases sel <;> cases addr <;> cases req <;>
        first
        | rfl
        | exact absurd (hs rfl).1 Bool.false_ne_true
        | exact absurd (hs rfl).2.symm Bool.false_ne_true
        | exact absurd (ha rfl) Bool.false_ne_true)

theorem side_held {α : Type} {s : Side} {o : Bool} {i : Chan α} {sel : Bool} {d d' : Option Nat}
    (h : ok s o = true) :
    held (s.step i sel d) d' =
      if s.fifo then some (d'.getD 0) else if s.inf = .fill ∧ i.req.isSome = true then none else held s d := by
  obtain ⟨inf, v, rd, cur, ff, rq, ffo, al, got, av, idx, off⟩ := s
  obtain ⟨req, addr⟩ := i
  generalize he : addr.isSome = ad at *
  generalize hr : req.isSome = rs at *
  cases inf <;> cases got <;> simp [ok, rest, one] at h <;>
    simp [held, Side.step, infNext, gotNext, he, hr] <;> clear he hr <;>
    cases ad <;> cases rs <;> cases v <;> cases ffo <;> cases al <;> simp_all

theorem held_fifo {s : Side} {o : Bool} {d : Option Nat} (h : ok s o = true) (hf : s.fifo = true) : held s d = none := by
  obtain ⟨inf, v, rd, cur, ff, rq, ffo, al, got, av, idx, off⟩ := s
  cases inf <;> cases got <;> cases v <;> cases rd <;> cases ff <;> cases rq <;> cases ffo <;> cases al <;>
    cases av <;> cases o <;>
    first
    | exact absurd h Bool.false_ne_true
    | exact absurd hf Bool.false_ne_true
    | rfl

theorem ready_iff {s : Side} {o : Bool} (h : ok s o = true) : s.ready = true ↔ s.inf = .fill := by
  obtain ⟨inf, v, rd, cur, ff, rq, ffo, al, got, av, idx, off⟩ := s
  cases inf <;> simp [ok, rest, one] at h <;> simp [h]

theorem held_fill {s : Side} {o : Bool} {d : Option Nat} (h : ok s o = true) (hf : s.inf = .fill) : held s d = some s.cur := by
  obtain ⟨inf, v, rd, cur, ff, rq, ffo, al, got, av, idx, off⟩ := s
  simp only at hf
  subst hf
  cases got <;> simp [ok, rest, one] at h <;> simp [held, h]

theorem fifo_req {s : Side} {o : Bool} (h : ok s o = true) (hf : s.fifo = true) : s.req = true := by
  obtain ⟨inf, v, rd, cur, ff, rq, ffo, al, got, av, idx, off⟩ := s
  cases inf <;> cases got <;> cases v <;> cases rd <;> cases ff <;> cases rq <;> cases ffo <;> cases al <;>
    cases av <;> cases o <;>
    first
    | exact absurd h Bool.false_ne_true
    | exact absurd hf Bool.false_ne_true
    | rfl

/-- When a channel has both, it waits, and the descriptor it has is `idx`. -/
theorem has_both {s : Side} {o : Bool} {d : Option Nat} (h : ok s o = true) (hf : s.alcValid = true) :
    s.inf = .wait ∧ s.valid = true ∧ held s d = some s.idx ∧ s.fifo = false ∧ s.validFf = true := by
  obtain ⟨inf, v, rd, cur, ff, rq, ffo, al, got, av, idx, off⟩ := s
  cases inf <;> cases got <;> simp [ok, rest, one] at h <;> cases ff <;> simp_all [held]

end Verif.RtlTxn
