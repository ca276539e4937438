import Verif.PcChi.Model

/-! # Requests told to retry

Section 2.11 of the CHI specification: a completer that has no room answers a request with `RetryAck` and a type of credit, and
later, or before, grants a credit of that type; the requester sends the request again with the credit, or gives the credit back. -/

namespace Verif.PcChi

/-- Requests that wait for their first answer, by `TxnID`; credits by completer and type; requests told to retry. -/
structure RSpec where
  out : Nat → Option Req := fun _ => none
  cr : Nat → Nat → Nat := fun _ _ => 0
  wait : Nat → Nat → List Req := fun _ _ => []

/-- The same request again (2.11.2): all fields but the target, the identifiers and those of the credit (`QoS` is not a field
here). -/
def Again (a b : Req) : Prop :=
  ∃ tgt txn retTxn retry pcrd, b = { a with tgt := tgt, txn := txn, retTxn := retTxn, retry := retry, pcrd := pcrd }

def upd {α : Type} (f : Nat → Nat → α) (c t : Nat) (x : α) : Nat → Nat → α := fun c' t' => if c' = c ∧ t' = t then x else f c' t'

def RSpec.drop (S : RSpec) (i : Nat) : RSpec := { S with out := fun j => if j = i then none else S.out j }

/-- When nothing waits for an answer, every credit that was granted goes with a request told to retry. -/
def Idle (S : RSpec) : Prop := (∀ i, i < 256 → S.out i = none) → ∀ c t, t < 16 → S.cr c t ≤ (S.wait c t).length

/-- What may happen; a credit may be given back together with the request that was to use it. -/
inductive RStep (S : RSpec) : REv → RSpec → Prop
  | link (r : Req) : r.op = 0 → r.txn = 0 → RStep S (.req r) S
  | first (r : Req) : r.op ≠ 5 → ¬ (r.op = 0 ∧ r.txn = 0) → r.retry = true →
      RStep S (.req r) { S with out := fun j => if j = r.txn then some r else S.out j }
  | again (r a : Req) (c : Nat) : r.op ≠ 5 → ¬ (r.op = 0 ∧ r.txn = 0) → r.retry = false → r.pcrd < 16 → a ∈ S.wait c r.pcrd → Again a r →
      0 < S.cr c r.pcrd →
      RStep S (.req r) { S with cr := upd S.cr c r.pcrd (S.cr c r.pcrd - 1), wait := upd S.wait c r.pcrd ((S.wait c r.pcrd).erase a) }
  | giveBack (r : Req) (w : List Req) : r.op = 5 → r.retry = false → r.pcrd < 16 → 0 < S.cr r.tgt r.pcrd →
      w = S.wait r.tgt r.pcrd ∨ (∃ a, w = (S.wait r.tgt r.pcrd).erase a) →
      RStep S (.req r) { S with cr := upd S.cr r.tgt r.pcrd (S.cr r.tgt r.pcrd - 1), wait := upd S.wait r.tgt r.pcrd w }
  | data (d : Dat) : Idle (S.drop d.txn) → RStep S (.dat d) (S.drop d.txn)
  | retry (p : Rsp) (a : Req) (S' : RSpec) : p.op = 3 → p.pcrd < 16 → S.out p.txn = some a →
      S' = { S.drop p.txn with wait := upd S.wait p.src p.pcrd (S.wait p.src p.pcrd ++ [a]) } → Idle S' → RStep S (.rsp p) S'
  | grant (p : Rsp) (S' : RSpec) : p.op = 7 → p.pcrd < 16 → S' = { S with cr := upd S.cr p.src p.pcrd (S.cr p.src p.pcrd + 1) } → Idle S' →
      RStep S (.rsp p) S'
  | answer (p : Rsp) : p.op ≠ 3 → p.op ≠ 7 → Idle (S.drop p.txn) → RStep S (.rsp p) (S.drop p.txn)

/-- What the checker needs besides: when the last credit of a kind is used, no request told to retry with it is left; a request
is always told to retry by the same completer with the same type of credit; and fewer than `2 ^ 32` credits at a time. -/
def Calm (κ : Req → Nat × Nat) (S : RSpec) (e : REv) (S' : RSpec) : Prop :=
  (∀ c t, S.cr c t ≠ 0 → S'.cr c t = 0 → S'.wait c t = []) ∧
  (∀ c t, S'.cr c t < 2 ^ 32) ∧
  (match e with
    | .rsp p => p.op = 3 → ∀ a, S.out p.txn = some a → κ a = (p.src, p.pcrd)
    | _ => True)

/-- The flits may happen in this order, and as the checker needs. -/
def Orderly (κ : Req → Nat × Nat) : RSpec → List REv → Prop
  | _, [] => True
  | S, e :: es => ∃ S', RStep S e S' ∧ Calm κ S e S' ∧ Orderly κ S' es

/-- The request `a` with the identifier `i` has been sent, may be told to retry and has not been answered. -/
def Waits (H : List REv) (i : Nat) (a : Req) : Prop :=
  ∃ H1 H2, H = H1 ++ .req a :: H2 ∧ a.txn = i ∧ a.retry = true ∧
    ∀ e ∈ H2, match e with
      | .req b => b.txn = i → b.retry = true → b.op = 0 ∧ b.txn = 0
      | .dat d => d.txn ≠ i
      | .rsp p => p.txn = i → p.op = 7

/-- The request `a` has been told to retry with a credit of type `t`. -/
def ToldTo (H : List REv) (t : Nat) (a : Req) : Prop :=
  ∃ H1 p H2, H = H1 ++ .rsp p :: H2 ∧ p.op = 3 ∧ p.pcrd = t ∧ Waits H1 p.txn a

end Verif.PcChi
