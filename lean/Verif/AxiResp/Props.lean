import Verif.AxiResp.Model

/-! # C27: response translation -/

namespace Verif.AxiResp
open Verif

/-- AXI codes that report a failure. -/
def Resp.isError : Resp → Bool
  | .slverr => true
  | .decerr => true
  | _ => false

/-- **C27.** An AXI response becomes a failing status exactly when it reports a
failure. -/
theorem set_error_iff (e : Option Ext) (r : Resp) : (setAxiResp e r).1.isError = r.isError := by
  cases r <;> rfl

/-- **C27.** With the shared helper, a TLM status becomes a failing AXI response
exactly when it is a failure. -/
theorem get_error_iff (s : Status) (e : Option Ext) : (getAxiResp s e).isError = s.isError := by
  cases s <;> simp only [getAxiResp] <;> try rfl
  cases e with
  | none => rfl
  | some x => cases x with | mk a b => cases b <;> rfl

/-- **C27.** Translating a response into a status and back keeps failures apart. -/
theorem get_set (e : Option Ext) (r : Resp) (hr : r ≠ .exokay) (hh : ∀ x, e = some x → x.exclusiveHandled = false) :
    getAxiResp (setAxiResp e r).1 (setAxiResp e r).2 = r := by
  cases r <;> simp_all [setAxiResp, getAxiResp]
  cases e with
  | none => rfl
  | some x => simp [hh x rfl]

/-- **C27 (partial).** The AXI-to-TLM bridge reports failure for address and
generic errors and exclusive success exactly for exclusive accesses that were
handled.  Missing: the other failing statuses, see `axi2tlm_hides_errors`. -/
theorem axi2tlm_partial (s : Status) (x : Ext) (hs : s = .ok ∨ s = .address ∨ s = .generic) :
    ((axi2tlmResp s x).isError = s.isError) ∧
      (axi2tlmResp s x = .exokay ↔ s = .ok ∧ x.exclusive = true ∧ x.exclusiveHandled = true) := by
  rcases hs with rfl | rfl | rfl <;> cases x with | mk a b => cases a <;> cases b <;> simp [axi2tlmResp, Resp.isError, Status.isError]

theorem axilite2tlm_partial (s : Status) (hs : s = .ok ∨ s = .address ∨ s = .generic) :
    (axilite2tlmResp s).isError = s.isError := by
  rcases hs with rfl | rfl | rfl <;> rfl

/-- **C27 (violation).** Every other failing status is reported as success, by
both bridges: incomplete, command, burst and byte-enable errors. -/
theorem axi2tlm_hides_errors (s : Status) (x : Ext) (hs : s = .incomplete ∨ s = .command ∨ s = .burst ∨ s = .byteEnable) :
    s.isError = true ∧ (axi2tlmResp s x).isError = false ∧ axilite2tlmResp s = .okay := by
  rcases hs with rfl | rfl | rfl | rfl <;> refine ⟨rfl, ?_, rfl⟩ <;> cases x with | mk a b => cases a <;> cases b <;> rfl

/-- **C27 (violation).** An exclusive success received over AXI is never recorded:
whatever the flag was, it is cleared. -/
theorem exokay_lost (e : Option Ext) : ∀ x, (setAxiResp e .exokay).2 = some x → x.exclusiveHandled = false := by
  cases e with
  | none => intro x h; cases h
  | some y => intro x h; simp only [setAxiResp, Option.map_some, Option.some.injEq] at h; rw [← h]

/-- So it is forwarded as a plain success, or as an exclusive failure. -/
theorem exokay_forwarded_as_okay (e : Option Ext) : getAxiResp (setAxiResp e .exokay).1 (setAxiResp e .exokay).2 = .okay := by
  cases e <;> simp [setAxiResp, getAxiResp]

example : axi2tlmResp .ok ⟨true, true⟩ = .exokay := rfl
example : ∀ x, some (⟨true, false⟩ : Ext) = some x → x.exclusiveHandled = false := by intro x h; cases h; rfl

end Verif.AxiResp
