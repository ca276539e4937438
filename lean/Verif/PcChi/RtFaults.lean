import Verif.PcChi.RtProps

/-! # Requests told to retry: cases, and where the checker is wrong -/

namespace Verif.PcChi

def rA : Req := { op := 4, txn := 1, tgt := 9, addr := 64, size := 6 }
def rB : Req := { op := 4, txn := 2, tgt := 9, addr := 128, size := 6 }
def retryAck (i c t : Nat) : REv := .rsp { op := 3, txn := i, src := c, pcrd := t }
def pGrant (c t : Nat) : REv := .rsp { op := 7, txn := 0, src := c, pcrd := t }
def withCredit (r : Req) (i t : Nat) : REv := .req { r with txn := i, retry := false, pcrd := t }
def pReturn (c t : Nat) : REv := .req { op := 5, tgt := c, pcrd := t, retry := false }

/-- Two reads are told to retry by two completers, one is sent again, the other's credit given back. -/
def retryRun : List REv :=
  [.req rA, .req rB, retryAck 1 9 3, pGrant 9 3, retryAck 2 8 0, pGrant 8 0, withCredit rA 5 3, .dat { op := 4, txn := 5 }, pReturn 8 0]

/-- The completer and type for the two reads. -/
def kAB (r : Req) : Nat × Nat := if r.addr = 64 then (9, 3) else (8, 0)

theorem kAB_again (a b : Req) (h : Again a b) : kAB a = kAB b := by obtain ⟨_, _, _, _, _, rfl⟩ := h; rfl

theorem upd_upd {α : Type} (f : Nat → Nat → α) (c t : Nat) (x y : α) : upd (upd f c t x) c t y = upd f c t y := by
  funext c' t'; unfold upd; split <;> rfl

/-- The hypotheses of `retry_silent_partial` are met by `retryRun`. -/
theorem retryRun_orderly : Orderly kAB {} retryRun := by
  have idle1 : ∀ S : RSpec, S.out 2 = some rB → Idle S := fun S h n => by have := n 2 (by decide); rw [h] at this; cases this
  refine ⟨_, .first rA (by decide) (by decide) rfl, ⟨by intros; contradiction, by intros; exact Nat.two_pow_pos 32, trivial⟩, ?_⟩
  refine ⟨_, .first rB (by decide) (by decide) rfl, ⟨by intros; contradiction, by intros; exact Nat.two_pow_pos 32, trivial⟩, ?_⟩
  refine ⟨_, .retry _ rA _ rfl (by decide) rfl rfl (idle1 _ rfl), ⟨by intros; contradiction, fun _ _ => Nat.two_pow_pos 32, ?_⟩, ?_⟩
  · intro _ a h; cases h; rfl
  refine ⟨_, .grant _ _ rfl (by decide) rfl (idle1 _ rfl), ⟨by intros; contradiction, ?_, fun h => by cases h⟩, ?_⟩
  · intro c t; dsimp only [RSpec.drop, upd]; split
    · decide
    · exact Nat.two_pow_pos 32
  refine ⟨_, .retry _ rB _ rfl (by decide) rfl rfl ?_, ⟨?_, ?_, ?_⟩, ?_⟩
  · intro _ c t _
    dsimp only [RSpec.drop, upd]
    by_cases e : c = 9 ∧ t = 3
    · obtain ⟨rfl, rfl⟩ := e; decide
    · rw [if_neg e]; exact Nat.zero_le _
  · intro c t a b; exact absurd b a
  · intro c t; dsimp only [RSpec.drop, upd]; split
    · decide
    · exact Nat.two_pow_pos 32
  · intro _ a h; cases h; rfl
  refine ⟨_, .grant _ _ rfl (by decide) rfl ?_, ⟨?_, ?_, fun h => by cases h⟩, ?_⟩
  · intro _ c t _
    dsimp only [RSpec.drop, upd]
    by_cases e : c = 8 ∧ t = 0
    · obtain ⟨rfl, rfl⟩ := e; decide
    · rw [if_neg e, if_neg e]
      by_cases e : c = 9 ∧ t = 3
      · obtain ⟨rfl, rfl⟩ := e; decide
      · rw [if_neg e]; exact Nat.zero_le _
  · intro c t a b
    dsimp only [RSpec.drop, upd] at a b
    by_cases e : c = 8 ∧ t = 0
    · rw [if_pos e] at b; cases b
    · rw [if_neg e] at b; exact absurd b a
  · intro c t; dsimp only [RSpec.drop, upd]; repeat' split
    all_goals decide
  refine ⟨_, .again _ rA 9 (by decide) (by decide) rfl (by decide) (by decide) ⟨_, _, _, _, _, rfl⟩ (by decide), ⟨?_, ?_, trivial⟩, ?_⟩
  · intro c t a b
    dsimp only [RSpec.drop, upd] at a b ⊢
    by_cases e : c = 9 ∧ t = 3
    · obtain ⟨rfl, rfl⟩ := e; decide
    · rw [if_neg e] at b; exact absurd b a
  · intro c t; dsimp only [RSpec.drop, upd]; repeat' split
    all_goals decide
  refine ⟨_, .data _ ?_, ⟨?_, ?_, trivial⟩, ?_⟩
  · intro _ c t _
    dsimp only [RSpec.drop, upd]
    by_cases e : c = 9 ∧ t = 3
    · obtain ⟨rfl, rfl⟩ := e; decide
    · rw [if_neg e, if_neg e]
      by_cases e : c = 8 ∧ t = 0
      · obtain ⟨rfl, rfl⟩ := e; decide
      · rw [if_neg e, if_neg e]; exact Nat.zero_le _
  · intro c t a b; exact absurd b a
  · intro c t; dsimp only [RSpec.drop, upd]; repeat' split
    all_goals decide
  refine ⟨_, .giveBack _ [] rfl rfl (by decide) (by decide) (.inr ⟨rB, by decide⟩), ⟨?_, ?_, trivial⟩, trivial⟩
  · intro c t a b
    dsimp only [RSpec.drop, upd] at a b ⊢
    by_cases e : c = 8 ∧ t = 0
    · obtain ⟨rfl, rfl⟩ := e; decide
    · rw [if_neg e] at b; exact absurd b a
  · intro c t; dsimp only [RSpec.drop, upd]; repeat' split
    all_goals decide

example : rtRun {} retryRun = some [] := retry_silent_partial kAB kAB_again _ retryRun_orderly

/-- What is wrong is found: a `RetryAck` for nothing, a credit for another type, a credit given back that was not granted, a
credit too many. -/
example : rtRun {} [.req rA, .dat { op := 4, txn := 1 }, retryAck 1 9 3] = some [.noReq] := by decide +kernel
example : rtRun {} [.req rA, retryAck 1 9 3, pGrant 9 3, withCredit rA 5 4] = some [.noRetried] := by decide +kernel
example : rtRun {} [pReturn 9 3] = some [.noCredit] := by decide +kernel
example : rtRun {} [pGrant 9 3] = some [.surplus] := by decide +kernel

/-- A `PrefetchTgt`, which may never be told to retry, is always reported. -/
theorem prefetch_false_alarm : checkReq { op := 58, txn := 1, retry := false, size := 6, snpAttr := true } = [] ∧
    rtRun {} [.req { op := 58, txn := 1, retry := false, size := 6 }] = some [.noRetried] := by
  constructor <;> decide +kernel

/-- Two requests are told to retry and a credit is granted and used for one: the checker forgets the other, and reports the
second credit and the second request. -/
theorem two_retries_false_alarm :
    rtRun {} [.req rA, .req rB, retryAck 1 9 3, retryAck 2 9 3, pGrant 9 3, withCredit rA 5 3, .dat { op := 4, txn := 5 },
      pGrant 9 3, withCredit rB 6 3] = some [.surplus, .noRetried] := by decide +kernel

/-- A request is sent again before its credit is granted: nothing is reported. -/
theorem early_resend_missed :
    rtRun {} [.req rB, .req rA, retryAck 1 9 3, withCredit rA 5 3, pGrant 9 3] = some [] := by decide +kernel

/-- It counts as `2 ^ 32 - 1` credits. -/
theorem early_resend_counts : rtRun {} [.req rA, retryAck 1 9 3, withCredit rA 5 3, .dat { op := 4, txn := 5 }] = some [.surplus] := by decide +kernel

/-- A request is sent again twice, with two credits but one `RetryAck`: nothing is reported while another request waits. -/
theorem second_resend_missed :
    rtRun {} [.req rB, .req rA, retryAck 1 9 3, pGrant 9 3, pGrant 9 3, withCredit rA 5 3, withCredit rA 6 3] = some [] := by decide +kernel

/-- A `RetryAck` for no request is reported, and the next request with a credit follows a null pointer. -/
theorem stray_retry_crashes (r : Req) (h : r.retry = false) (h5 : r.op ≠ 5) (h0 : ¬ (r.op = 0 ∧ r.txn = 0)) :
    rtRun {} [retryAck 7 9 3, .req r] = none := by
  have e : lookReq r (rtRsp {} { op := 3, txn := 7, src := 9, pcrd := 3 }).1.comps = none := by
    have : (r.op == 5) = false := by simpa using h5
    simp [rtRsp, atNode, lookReq, this, Comp.has, Comp.set, hasReq, Rt.clear]
  unfold retryAck
  rw [rtRun]
  show (rtRun (rtRsp {} { op := 3, txn := 7, src := 9, pcrd := 3 }).1 [.req r]).map _ = none
  rw [rtRun]
  show (((rtReq _ r)).bind _).map _ = none
  unfold rtReq
  rw [if_neg (by simpa using h0), if_neg (by rw [h]; exact Bool.false_ne_true), e]
  rfl

/-- A link credit returned on the data or response channel is taken for the answer to request 0. -/
theorem link_return_false_alarm : rtRun {} [.req { rA with txn := 0 }, .req rB, .rsp { op := 0, txn := 0 }, retryAck 0 9 3] = some [.noReq] ∧
    rtRun {} [.req { rA with txn := 0 }, .req rB, .dat { op := 0, txn := 0 }, retryAck 0 9 3] = some [.noReq] := by
  constructor <;> decide +kernel

/-- Two completers tell like requests to retry: the credit of the second is looked for at the first. -/
theorem like_requests_false_alarm :
    rtRun {} [.req rA, .req { rA with txn := 2 }, retryAck 1 9 3, retryAck 2 8 0, pGrant 9 3, pGrant 8 0, withCredit rA 5 0] = some [.noRetried] := by
  decide +kernel

end Verif.PcChi
