import Verif.Genattr.Model

/-! # C16: copying attributes -/

namespace Verif.Genattr

theorem all_complete (n : Name) : n ∈ Name.all := by cases n <;> decide

theorem foldl_set_get (src : Ext) (l : List Name) (e : Ext) (n : Name) :
    get (l.foldl (fun e n => set e n (get src n)) e) n = if n ∈ l then get src n else get e n := by
  induction l generalizing e with
  | nil => simp
  | cons x xs ih =>
    rw [List.foldl_cons, ih]
    by_cases h : n ∈ xs
    · simp [h]
    · by_cases hx : n = x
      · subst hx; simp [h, get, set]
      · simp [h, hx, get, set]

/-- **C16 (clone).** Every getter of a clone returns the original's value. -/
theorem clone_preserves (src : Ext) (n : Name) : get (clone src) n = get src n := rfl

/-- **C16 (copy, part).** After copying onto any object, every getter returns
the source's value, except the I/O-space flag, which keeps the destination's. -/
theorem copy_preserves_partial (dst src : Ext) (n : Name) :
    get (copyFrom dst src) n = if n = .ioAccess then get dst n else get src n := by
  unfold copyFrom
  rw [foldl_set_get]
  cases n <;> simp [copied]

/-- **C16 is violated for the I/O-space flag.** -/
theorem copy_loses_io_access : ∃ dst src : Ext, get (copyFrom dst src) .ioAccess ≠ get src .ioAccess :=
  ⟨ctor, set ctor .ioAccess 1, by rw [copy_preserves_partial]; decide⟩

/-- Copying is idempotent and forgets everything but that flag: the result only
depends on the source and the destination's I/O flag. -/
theorem copy_depends (d d' src : Ext) (h : get d .ioAccess = get d' .ioAccess) : copyFrom d src = copyFrom d' src := by
  funext n
  have h1 := copy_preserves_partial d src n
  have h2 := copy_preserves_partial d' src n
  simp only [get] at h h1 h2
  rw [h1, h2]
  split
  · rename_i e; rw [e]; exact h
  · rfl

example : get ctor .ioAccess = get (set ctor .qos 5) .ioAccess := by decide

/-- **C16 (setters).** A setter changes its own attribute to the given value and
no other. -/
theorem set_get (e : Ext) (n k : Name) (v : Nat) : get (set e n v) k = if k = n then v else get e k := rfl

/-- A freshly constructed extension is secure, is a read, and has every other
attribute zero. -/
theorem ctor_values (n : Name) : get ctor n = if n = .secure ∨ n = .isReadTx then 1 else 0 := by
  cases n <;> decide

/-- Calling a setter without an argument does *not* set most flags: it clears
`wrap`, `posted`, `exclusive`, `exclusive_handled`, `IO_access` and the other
bus flags (`tlm_exclusive_monitor` and `tlm_axi_resp` rely on the opposite). -/
theorem argless_setter_clears :
    ∀ n ∈ [Name.wrap, .posted, .exclusive, .locked, .bufferable, .modifiable, .readAllocate, .writeAllocate,
      .exclusiveHandled, .ioAccess], ∀ e, get (setDefault e n) n = 0 := by
  intro n hn e
  simp only [setDefault, set_get, if_true]
  revert n
  decide

/-- The remaining argument-less setters do set their flag. -/
theorem argless_setter_sets :
    ∀ n ∈ [Name.barrier, .datatransfer, .errorBit, .shared, .dirty, .wasUnique, .isReadTx, .eop, .secure],
      ∀ e, get (setDefault e n) n = 1 := by
  intro n hn e
  simp only [setDefault, set_get, if_true]
  revert n
  decide

/-- **C16 (deep copy of a transaction).** After a deep copy every getter of the
copy's extension returns the source's value, except that the I/O-space flag keeps
the value of an extension that was already there. -/
theorem deep_copy_partial (dst : Option Ext) (src : Ext) (n : Name) :
    get (deepCopy dst src) n =
      match dst with
      | some d => if n = .ioAccess then get d n else get src n
      | none => get src n := by
  cases dst with
  | none => rfl
  | some d => exact copy_preserves_partial d src n

example : get (deepCopy (some ctor) (set ctor .masterId 7)) .masterId = 7 := by rw [deep_copy_partial]; decide

end Verif.Genattr
