import Verif.PcChi.Spec

/-! # Requests, opcodes and link credits: what is reported -/

namespace Verif.PcChi

theorem err_nil {α : Type} (b : Bool) (e : α) : err b e = [] ↔ b = true := by cases b <;> simp [err]

theorem mult_iff (a n : Nat) (h : 0 < n) : a / n * n = a ↔ n ∣ a := by
  constructor
  · intro e; exact ⟨a / n, by rw [Nat.mul_comm]; exact e.symm⟩
  · intro e; exact Nat.div_mul_cancel e

theorem opcode_row : ∀ op, op < 64 → (checkOpcode { op := op } = true ↔ (row op).isSome = true) := by decide +kernel

theorem ack_row : ∀ op, op < 64 → ∀ a : Bool, (0x29 ≤ op → op ≤ 0x37 → op ≠ 0x30 → a = false) →
    ∀ w, row op = some w → (checkAck { op := op, ack := a } = true ↔ w.ack.Ok a) := by
  have h : ∀ op, op < 64 → ∀ a : Bool, (0x29 ≤ op → op ≤ 0x37 → op ≠ 0x30 → a = false) →
      (row op).all (fun w => decide (checkAck { op := op, ack := a } = true ↔ w.ack.Ok a)) = true := by decide +kernel
  intro op ho a ha w hw; have := h op ho a ha; rw [hw] at this; exact of_decide_eq_true this

theorem attr_row : ∀ op, op < 64 → ∀ a : Bool, ∀ w, row op = some w → (checkSnpAttr { op := op, snpAttr := a } = true ↔ w.attr.Ok a) := by
  have h : ∀ op, op < 64 → ∀ a : Bool,
      (row op).all (fun w => decide (checkSnpAttr { op := op, snpAttr := a } = true ↔ w.attr.Ok a)) = true := by decide +kernel
  intro op ho a w hw; have := h op ho a; rw [hw] at this; exact of_decide_eq_true this

theorem excl_row : ∀ op, op < 64 → ∀ a : Bool, ∀ w, row op = some w → (checkExcl { op := op, excl := a } = true ↔ (a = true → w.excl = true)) := by
  have h : ∀ op, op < 64 → ∀ a : Bool,
      (row op).all (fun w => decide (checkExcl { op := op, excl := a } = true ↔ (a = true → w.excl = true))) = true := by decide +kernel
  intro op ho a w hw; have := h op ho a; rw [hw] at this; exact of_decide_eq_true this

def orderOp (op : Nat) : Bool := [4, 3, 0x24, 0x25, 0x18, 0x19, 0x28, 0x30, 0x38, 0x39].contains op

theorem order_row : ∀ op, op < 64 → ¬ (0x29 ≤ op ∧ op ≤ 0x37 ∧ op ≠ 0x30) → ¬ (op = 0x1c ∨ op = 0x1d ∨ op = 0x20 ∨ op = 0x21) →
    ∀ w, row op = some w → (orderOp op = true ↔ w.order = true) := by
  have h : ∀ op, op < 64 → ¬ (0x29 ≤ op ∧ op ≤ 0x37 ∧ op ≠ 0x30) → ¬ (op = 0x1c ∨ op = 0x1d ∨ op = 0x20 ∨ op = 0x21) →
      (row op).all (fun w => decide (orderOp op = true ↔ w.order = true)) = true := by decide +kernel
  intro op ho a b w hw; have := h op ho a b; rw [hw] at this; exact of_decide_eq_true this

theorem order_nil (r : Req) : checkOrder r = [] ↔ r.order ≠ 1 ∧ (r.order ≠ 0 → orderOp r.op = true) := by
  unfold checkOrder
  rw [List.append_eq_nil_iff, err_nil, err_nil, ← orderOp]
  simp only [bne_iff_ne, Bool.or_eq_true, beq_iff_eq, ne_eq]
  have : (r.order = 0 ∨ orderOp r.op = true) ↔ (¬ r.order = 0 → orderOp r.op = true) := by
    by_cases h : r.order = 0 <;> simp [h]
  rw [this]

theorem retry_nil (r : Req) : checkRetry r = [] ↔ RetryOk r := by
  unfold checkRetry RetryOk
  cases r.retry <;> simp only [Bool.false_eq_true, if_false, if_true, false_implies, forall_const, List.append_eq_nil_iff, err_nil, bne_iff_ne, beq_iff_eq]
  constructor
  · rintro ⟨⟨a, b⟩, c⟩; exact ⟨b, a, c⟩
  · rintro ⟨b, a, c⟩; exact ⟨⟨a, b⟩, c⟩

theorem dvm_iff (r : Req) (h : r.op = 0x14 → 3 ≤ r.size) : checkDvm r = true ↔ DvmOk r := by
  unfold checkDvm DvmOk
  by_cases e : r.op = 0x14
  · have h := h e
    have : r.size ≤ 3 ↔ r.size = 3 := by omega
    simp [e, this, and_assoc]
  · simp [e]

theorem atomic_nil (r : Req) (h : r.op = 0x39 → r.size = 1 ∨ r.size = 2 ∨ 6 ≤ r.size) :
    (checkAddr r = [] ∧ checkSize r = []) ↔ (r.size ≠ 7 ∧ AtomicOk r) := by
  unfold checkAddr checkSize AtomicOk Req.isCompare Req.isAtomic
  by_cases e : r.op = 0x39
  · have h := h e
    simp only [e, beq_self_eq_true, if_true, List.append_eq_nil_iff, err_nil, decide_eq_true_eq, bne_iff_ne]
    rcases h with h | h | h
    · simp [h, err_nil]
    · rw [h, mult_iff _ _ (Nat.two_pow_pos _)]; simp [err_nil]
    · simp only [Nat.reduceLeDiff, and_self, decide_true, if_true, forall_const, false_implies, true_and, err_nil, decide_eq_true_eq]
      omega
  · have e' : (r.op == 0x39) = false := by simp [e]
    simp only [e', Bool.false_eq_true, if_false, List.append_nil, List.append_eq_nil_iff, err_nil, bne_iff_ne]
    by_cases a : 0x28 ≤ r.op ∧ r.op ≤ 0x39
    · have a' : r.op ≤ 0x38 := by omega
      rw [if_pos (by simpa using a), if_pos (by simpa using a), err_nil, err_nil, decide_eq_true_eq, decide_eq_true_eq,
        mult_iff _ _ (Nat.two_pow_pos _)]
      simp only [a.1, a', e, forall_const, false_implies, and_true]
      constructor
      · rintro ⟨x, y, z⟩; exact ⟨y, z, x⟩
      · rintro ⟨y, z, x⟩; exact ⟨x, y, z⟩
    · rw [if_neg (by simpa using a), if_neg (by simpa using a)]
      simp only [true_and, and_true, ne_eq, e, false_implies]
      constructor
      · intro x; exact ⟨x, fun y z => absurd ⟨y, by omega⟩ a⟩
      · intro x; exact x.1

/-- **Requests.** Of a request of the fields' widths, other than those of `requests_faults`, the checker reports nothing exactly
if it is one the specification allows. -/
theorem requests_exact_partial (r : Req) (ho : r.op < 64) (h : ReqPlain r) : checkReq r = [] ↔ ReqOk r := by
  obtain ⟨h1, h2, h3, h4⟩ := h
  have e1 : checkOpcode r = checkOpcode { op := r.op } := rfl
  have e2 : checkAck r = checkAck { op := r.op, ack := r.ack } := rfl
  have e3 : checkSnpAttr r = checkSnpAttr { op := r.op, snpAttr := r.snpAttr } := rfl
  have e4 : checkExcl r = checkExcl { op := r.op, excl := r.excl } := rfl
  have key : checkReq r = [] ↔ checkOpcode r = true ∧ checkAck r = true ∧ checkSnpAttr r = true ∧ checkOrder r = [] ∧
      checkRetry r = [] ∧ (checkAddr r = [] ∧ checkSize r = []) ∧ checkDvm r = true ∧ checkExcl r = true := by
    unfold checkReq; simp only [List.append_eq_nil_iff, err_nil, and_assoc]
  rw [key, e1, opcode_row _ ho, retry_nil, atomic_nil r h2, dvm_iff r h3, order_nil]
  unfold ReqOk
  rcases hw : row r.op with _ | w
  · simp
  · rw [e2, e3, e4, ack_row _ ho _ (fun a b c => (h1 a b c).1) w hw, attr_row _ ho _ w hw, excl_row _ ho _ w hw]
    have ord : (r.order ≠ 0 → orderOp r.op = true) ↔ (r.order ≠ 0 → w.order = true) := by
      by_cases z : r.order = 0
      · simp [z]
      · have := order_row _ ho (fun x => z (h1 x.1 x.2.1 x.2.2).2) (fun x => z (h4 x)) w hw
        simp [z, this]
    rw [ord]
    simp only [Option.isSome_some, Option.some.injEq, exists_eq_left', true_and]
    constructor
    · rintro ⟨a, b, ⟨c, d⟩, e, ⟨f, g⟩, i, j⟩; exact ⟨⟨a, b, d, j⟩, c, f, e, g, i⟩
    · rintro ⟨⟨a, b, d, j⟩, c, f, e, g, i⟩; exact ⟨a, b, ⟨c, d⟩, e, ⟨f, g⟩, i, j⟩

/-- An ordered `ReadOnce`, an `AtomicLoad` of eight bytes and a `DVMOp` are such requests and allowed; the `AtomicLoad` at an odd
address is not. -/
example : ReqPlain { op := 3, order := 2, snpAttr := true } ∧ checkReq { op := 3, order := 2, snpAttr := true } = [] ∧
    ReqPlain { op := 0x30, size := 3, addr := 64, order := 2 } ∧ checkReq { op := 0x30, size := 3, addr := 64, order := 2 } = [] ∧
    ReqPlain { op := 0x14, size := 3, addr := 6 } ∧ checkReq { op := 0x14, size := 3, addr := 6 } = [] ∧
    checkReq { op := 0x30, size := 3, addr := 65, order := 2 } = [.addrAtomic] := by
  refine ⟨⟨?_, ?_, ?_, ?_⟩, by decide, ⟨?_, ?_, ?_, ?_⟩, by decide, ⟨?_, ?_, ?_, ?_⟩, by decide, by decide⟩ <;> simp

/-- What is wrong on the other requests: an `AtomicStore` or `AtomicLoad` other than the first of its eight operations is accepted
with `ExpCompAck` and reported when ordered; of `AtomicCompare` the alignment asked for is `2 ^ (size / 2)` instead of half the
size, so that misaligned ones are accepted, and sizes of sixteen and thirty-two bytes are reported (`IsAtomic` contains
`AtomicCompare`); a `DVMOp` of less than eight bytes is accepted; an ordered `WriteNoSnp` is reported. -/
theorem requests_faults :
    (checkReq { op := 0x2b, size := 3, ack := true } = [] ∧ ¬ ReqOk { op := 0x2b, size := 3, ack := true }) ∧
    (checkReq { op := 0x33, size := 3, order := 2 } = [.orderOp] ∧ ReqOk { op := 0x33, size := 3, order := 2 }) ∧
    (checkReq { op := 0x39, size := 3, addr := 2 } = [] ∧ ¬ ReqOk { op := 0x39, size := 3, addr := 2 }) ∧
    (checkReq { op := 0x39, size := 5, addr := 16 } = [.sizeAtomic] ∧ ReqOk { op := 0x39, size := 5, addr := 16 }) ∧
    (checkReq { op := 0x14, size := 0 } = [] ∧ ¬ ReqOk { op := 0x14, size := 0 }) ∧
    (checkReq { op := 0x1d, size := 6, order := 3 } = [.orderOp] ∧ ReqOk { op := 0x1d, size := 6, order := 3 }) := by
  refine ⟨⟨by decide, ?_⟩, ⟨by decide, ?_⟩, ⟨by decide, ?_⟩, ⟨by decide, ?_⟩, ⟨by decide, ?_⟩, ⟨by decide, ?_⟩⟩ <;>
    simp [ReqOk, row, RetryOk, AtomicOk, DvmOk, Rule.Ok] <;> decide

/-! ## Other flits -/

/-- The data, snoop and response opcodes with a meaning. -/
def datOps : List Nat := [0 /- DataLCrdReturn -/, 1 /- SnpRespData -/, 2 /- CopyBackWrData -/, 3 /- NonCopyBackWrData -/, 4 /- CompData -/,
  5 /- SnpRespDataPtl -/, 6 /- SnpRespDataFwded -/, 7 /- WriteDataCancel -/, 0xb /- DataSepResp -/, 0xc /- NCBWrDataCompAck -/]
def snpOps : List Nat := [0 /- SnpLCrdReturn -/, 1 /- SnpShared -/, 2 /- SnpClean -/, 3 /- SnpOnce -/, 4 /- SnpNotSharedDirty -/,
  5 /- SnpUniqueStash -/, 6 /- SnpMakeInvalidStash -/, 7 /- SnpUnique -/, 8 /- SnpCleanShared -/, 9 /- SnpCleanInvalid -/,
  0xa /- SnpMakeInvalid -/, 0xb /- SnpStashUnique -/, 0xc /- SnpStashShared -/, 0xd /- SnpDVMOp -/, 0x11 /- SnpSharedFwd -/,
  0x12 /- SnpCleanFwd -/, 0x13 /- SnpOnceFwd -/, 0x14 /- SnpNotSharedDirtyFwd -/, 0x17 /- SnpUniqueFwd -/]
def rspOps : List Nat := [0 /- RespLCrdReturn -/, 1 /- SnpResp -/, 2 /- CompAck -/, 3 /- RetryAck -/, 4 /- Comp -/, 5 /- CompDBIDResp -/,
  6 /- DBIDResp -/, 7 /- PCrdGrant -/, 8 /- ReadReceipt -/, 9 /- SnpRespFwded -/, 0xb /- RespSepData -/]

/-- **Opcodes of data, snoops and responses**: reported exactly if they have no meaning. -/
theorem opcodes_exact (op : Nat) :
    (checkDatOp op = true ↔ op ∈ datOps) ∧ (checkSnpOp op = true ↔ op ∈ snpOps) ∧ (checkRspOp op = true ↔ op ∈ rspOps) := by
  unfold checkDatOp checkSnpOp checkRspOp datOps snpOps rspOps
  simp only [List.contains_iff_mem, and_self]

/-- **A `SnpDVMOp`** is reported exactly unless `FwdNID`, `NS`, `DoNotGoToSD` and `RetToSrc` are zero. -/
theorem snoop_dvm_exact (s : Snp) :
    checkSnpDvm s = true ↔ (s.op = 0xd → s.fwdNid = 0 ∧ s.ns = false ∧ s.noSd = false ∧ s.ret = false) := by
  unfold checkSnpDvm
  by_cases e : s.op = 0xd <;> simp [e, and_assoc]

example : checkDatOp 8 = false ∧ checkSnpOp 0x10 = false ∧ checkRspOp 0xa = false ∧ checkSnpDvm { op := 0xd, ns := true } = false := by
  decide

/-! ## Link credits -/

def flits (xs : List (Bool × Bool)) : Int := (xs.countP (·.1) : Nat)
def credits (xs : List (Bool × Bool)) : Int := (xs.countP (·.2) : Nat)

theorem lcrd_go (xs : List (Bool × Bool)) : ∀ n : Int, lcrdRun n xs = true ↔
    ∀ k, 0 < k → k ≤ xs.length → flits (xs.take k) ≤ n + credits (xs.take k) ∧ n + credits (xs.take k) ≤ flits (xs.take k) + 15 := by
  induction xs with
  | nil => intro n; simp only [lcrdRun, List.length_nil, true_iff]; intro k a b; omega
  | cons x xs ih =>
    intro n
    have hs : (lcrdStep n x.1 x.2).1 = n - flits [x] + credits [x] := by
      rcases x with ⟨_ | _, _ | _⟩ <;> simp [lcrdStep, flits, credits]
    have ho : (lcrdStep n x.1 x.2).2 = true ↔ flits [x] ≤ n + credits [x] ∧ n + credits [x] ≤ flits [x] + 15 := by
      have : (lcrdStep n x.1 x.2).2 = decide (0 ≤ (lcrdStep n x.1 x.2).1 ∧ (lcrdStep n x.1 x.2).1 ≤ 15) := rfl
      rw [this, hs, decide_eq_true_eq]; omega
    have fc : ∀ l, flits (x :: l) = flits [x] + flits l := by
      intro l; have : x :: l = [x] ++ l := rfl
      rw [this]; unfold flits; rw [List.countP_append]; simp
    have cc : ∀ l, credits (x :: l) = credits [x] + credits l := by
      intro l; have : x :: l = [x] ++ l := rfl
      rw [this]; unfold credits; rw [List.countP_append]; simp
    rw [lcrdRun, Bool.and_eq_true, ho, ih, hs]
    constructor
    · rintro ⟨a, b⟩ k k0 kl
      match k, k0 with
      | 1, _ => simpa using a
      | k + 2, _ =>
        rw [List.take_succ_cons, fc, cc]
        have := b (k + 1) (by omega) (by simpa using kl)
        omega
    · intro h
      refine ⟨by simpa using h 1 (by omega) (by simp), fun k k0 kl => ?_⟩
      have := h (k + 1) (by omega) (by simpa using kl)
      rw [List.take_succ_cons, fc, cc] at this
      omega

/-- **Link credits.** On a channel nothing is reported exactly if after each cycle at most as many flits were sent as credits
were given, and at most fifteen credits were given that were not used (a credit may be used in the cycle in which it is
given). -/
theorem credits_exact (xs : List (Bool × Bool)) : lcrdRun 0 xs = true ↔
    ∀ k, 0 < k → k ≤ xs.length → flits (xs.take k) ≤ credits (xs.take k) ∧ credits (xs.take k) ≤ flits (xs.take k) + 15 := by
  rw [lcrd_go]; simp only [Int.zero_add]

example : lcrdRun 0 [(false, true), (true, true), (true, false)] = true ∧ lcrdRun 0 [(false, true), (true, false), (true, false)] = false ∧
    lcrdRun 0 (List.replicate 15 (false, true)) = true ∧ lcrdRun 0 (List.replicate 16 (false, true)) = false := by decide

end Verif.PcChi
