import Verif.RtlRam.Spec
import Verif.RtlRam.Order

/-!
# The data RAM allocator: the invariant

Helper definitions and lemmas.  Every node in use has a place `a` and a length
`len` on an unrolled RAM; the pieces follow each other there in the order of
the list, and the last one ends at most one turn after the start of the
first.
-/

namespace Verif.RtlRam

/-- The pieces on the unrolled RAM. -/
structure Geo (m : Nat) (v : Nat → Bool) (ll strt fin a len : Nat → Nat) : Prop where
  pos : ∀ i, v i = true → 1 ≤ len i ∧ len i ≤ m
  apart : ∀ i j, v i = true → v j = true → ll i < ll j → a i + len i ≤ a j ∧ a j + len j ≤ a i + m
  strt : ∀ i, v i = true → strt i = a i % m
  fin : ∀ i, v i = true → fin i = (a i + len i - 1) % m

/-- The pointers follow the order. -/
structure Links (v : Nat → Bool) (ll next : Nat → Nat) (nextVld : Nat → Bool) (head : Nat)
    (headVld : Bool) : Prop where
  head : headVld = true → v head = true ∧ ll head = 0
  some : ∀ i, v i = true → headVld = true
  next : ∀ i, v i = true → nextVld i = true → v (next i) = true ∧ ll (next i) = ll i + 1
  last : ∀ i, v i = true → nextVld i = false → ∀ j, v j = true → ll j ≤ ll i

/-- The list in each state of a release. -/
def ListOk (s : Regs) : Prop :=
  match s.dst with
  | .idle => Order s.vld s.ll ∧ Links s.vld s.ll s.next s.nextVld s.head s.headVld
  | .calSubVec => Order (fun n => s.vld n || s.logical n) s.ll ∧ ∀ n, s.vld n = true → s.logical n = false
  | .calSubcnt =>
      (Order (fun n => s.vld n || s.logical n) s.ll ∧ ∀ n, s.vld n = true → s.logical n = false) ∧
      ∀ n, s.vld n = true → s.sub n = fun m => s.logical m && decide (s.ll m < s.ll n)
  | .calLlIdx =>
      (Order (fun n => s.vld n || s.logical n) s.ll ∧ ∀ n, s.vld n = true → s.logical n = false) ∧
      ∀ n, s.vld n = true → s.subcnt n = below s.logical s.ll (s.ll n)
  | .calNextVec => Order s.vld s.ll
  | .updateLl =>
      Order s.vld s.ll ∧ (∀ n, s.headVec n = (s.ll n == 0 && s.vld n)) ∧
      ∀ n, s.vld n = true →
        ∀ m, s.nextVec n m = (decide (s.ll n ≤ 14) && (s.ll n + 1 == s.ll m) && s.vld m)

/-- The state machines run one at a time. -/
structure Fsm (s : Regs) : Prop where
  flags : s.serValid = (s.ser == .alc || s.ser == .dealc) ∧ (s.serDealc = (s.ser == .dealc))
  alc : s.ser ≠ .alc → s.alc = .idle
  preAlc : s.preAlc = (s.alc == .newLl || s.alc == .addNode)
  preFail : s.preFail = (s.alc == .failed)
  txn : s.ser = .alc → s.txn = true
  dst : s.ser ≠ .dealc → s.dst = .idle
  preDealc : s.preDealc = if s.dst = .updateLl then s.vec else fun _ => false
  vec : ∀ d, s.vec d = true → s.save d = true
  some : s.ser = .dealc → any s.vec = true
  svc : s.ser = .dealc → s.dst = .idle → s.svcFf = false

/-- The gap the allocator sees after node `n`. -/
def seenGap (c : Cfg) (s : Regs) (n : Nat) : Nat :=
  if after s n > s.fin n then gapNo c (s.fin n) (after s n) else gapWrap c (s.fin n) (after s n)

/-- The registers of an allocation in each of its states; `z` is the length
less one. -/
def AlcOk (c : Cfg) (s : Regs) (z : Nat) : Prop :=
  match s.alc with
  | .idle => True
  | .newLl => s.headVld = false
  | .udLl => True
  | .calDiff => ∀ n, s.vld n = true →
      s.wrap n = !(decide (after s n > s.fin n)) ∧
      s.nextNo n = gapNo c (s.fin n) (s.strt (s.next n)) ∧
      s.nextWrap n = gapWrap c (s.fin n) (s.strt (s.next n)) ∧
      s.headNo n = gapNo c (s.fin n) (s.strt s.head) ∧
      s.headWrap n = gapWrap c (s.fin n) (s.strt s.head)
  | .calSpace => ∀ n, s.diff n = if s.vld n then seenGap c s n else 0
  | .checkAvail => (∀ n, s.space n = (s.vld n && decide (z + 1 ≤ seenGap c s n))) ∧
      ∀ n, s.avail n = !s.vld n
  | .failed => (∀ n, n < 16 → s.vld n = true) ∨ ∀ n, s.vld n = true → seenGap c s n < z + 1
  | .calIdx => (∃ p, decode s.posVec = some p ∧ s.vld p = true ∧ z + 1 ≤ seenGap c s p) ∧
      ∃ n, n < 16 ∧ decode s.newVec = some n ∧ s.vld n = false
  | .addNode => (s.vld s.posIdx = true ∧ z + 1 ≤ seenGap c s s.posIdx) ∧
      s.newIdx < 16 ∧ s.vld s.newIdx = false

/-- The ledger agrees with the nodes. -/
structure Book (w : World) (a len : Nat → Nat) (m : Nat) : Prop where
  live : ∀ n x, w.g n = some x → w.s.vld n = true ∧ x.off = w.s.strt n ∧ x.len = len n
  attached : ∀ n x, w.g n = some x → w.s.descVld n = true → x.desc = some (w.s.descIdx n) ∧
    w.s.vec (w.s.descIdx n) = false ∧ w.s.save (w.s.descIdx n) = false
  free : ∀ n, w.s.vld n = false → w.s.descVld n = false

/-- The invariant. -/
structure Inv (c : Cfg) (w : World) : Prop where
  alcFf : w.s.alcFf = w.prev.alcValid
  txnFf : w.s.txnFf = w.prev.txnValid
  cmplFf : w.s.cmplFf = w.prev.cmpl
  busy : w.busy = w.s.txn
  fsm : Fsm w.s
  list : ListOk w.s
  alc : AlcOk c w.s w.prev.size
  geo : ∃ a len, Geo (2 ^ c.w) w.s.vld w.s.ll w.s.strt w.s.fin a len ∧ Book w a len (2 ^ c.w)

theorem inv_start (c : Cfg) : Inv c World.start := by
  refine ⟨rfl, rfl, rfl, rfl, ?_, ?_, ?_, fun _ => 0, fun _ => 0, ?_, ?_⟩
  · refine ⟨⟨rfl, rfl⟩, fun _ => rfl, rfl, rfl, ?_, fun _ => rfl, rfl, ?_, ?_, ?_⟩ <;>
      intro <;> simp_all [World.start, reset]
  · refine ⟨⟨?_, ?_, ?_⟩, ⟨?_, ?_, ?_, ?_⟩⟩ <;> intro <;> simp_all [World.start, reset]
  · trivial
  · refine ⟨?_, ?_, ?_, ?_⟩ <;> intro <;> simp_all [World.start, reset]
  · refine ⟨?_, ?_, ?_⟩ <;> intro <;> simp_all [World.start, reset]

/-! ## Gaps -/

/-- From where a piece ends to where the next starts, on the unrolled RAM. -/
theorem trueGap_eq {w x y : Nat} (hx : 1 ≤ x) (h1 : x ≤ y) (h2 : y < x + 2 ^ w) :
    trueGap w ((x - 1) % 2 ^ w) (y % 2 ^ w) = y - x := by
  have hm : 0 < 2 ^ w := Nat.two_pow_pos w
  unfold trueGap
  generalize 2 ^ w = m at *
  have e1 := Nat.div_add_mod (x - 1) m
  have r1 := Nat.mod_lt (x - 1) hm
  generalize hE : (x - 1) % m = E at *
  generalize (x - 1) / m = q at *
  have hy : y = m * q + (E + 1 + (y - x)) := by omega
  have : y % m = (E + 1 + (y - x)) % m := by
    rw [hy, Nat.mul_add_mod]
    congr 1
    omega
  rw [this]
  generalize hg : y - x = g at *
  have hgm : g < m := by omega
  by_cases e : E + 1 + g < m
  · rw [Nat.mod_eq_of_lt e]
    have : E + 1 + g + m - E - 1 = g + m := by omega
    rw [this, Nat.add_mod_right, Nat.mod_eq_of_lt hgm]
  · have : (E + 1 + g) % m = E + 1 + g - m := by
      rw [Nat.mod_eq_sub_mod (by omega), Nat.mod_eq_of_lt (by omega)]
    rw [this]
    have : E + 1 + g - m + m - E - 1 = g := by omega
    rw [this, Nat.mod_eq_of_lt hgm]

theorem seenGap_true {c : Cfg} (ht : c.top = 2 ^ c.w) {s : Regs} {n : Nat} (h1 : s.fin n < 2 ^ c.w)
    (h2 : after s n < 2 ^ c.w) : seenGap c s n = trueGap c.w (s.fin n) (after s n) := by
  unfold seenGap gapNo gapWrap trueGap trunc
  rw [ht, Nat.pow_succ]
  generalize 2 ^ c.w = m at *
  generalize after s n = t at *
  generalize s.fin n = e at *
  by_cases h : t > e
  · rw [if_pos h]
    have a : t + m * 2 - e - 1 = (t - e - 1) + m * 2 := by omega
    have b : t + m - e - 1 = (t - e - 1) + m := by omega
    rw [a, b, Nat.add_mod_right, Nat.add_mod_right, Nat.mod_eq_of_lt, Nat.mod_eq_of_lt] <;> omega
  · rw [if_neg h]
    have a : m + m * 2 + t - 1 - e = (t + m - e - 1) + m * 2 := by omega
    rw [a, Nat.add_mod_right, Nat.mod_eq_of_lt, Nat.mod_eq_of_lt] <;> omega

/-- Two pieces in order on the unrolled RAM have no location in common. -/
theorem apart_of {m a b k l : Nat} (h1 : a + k ≤ b) (h2 : b + l ≤ a + m) (i j : Nat) (hi : i < k)
    (hj : j < l) : (a % m + i) % m ≠ (b % m + j) % m := by
  rw [Nat.mod_add_mod, Nat.mod_add_mod]
  intro e
  have hd : (b + j - (a + i)) % m = 0 := by
    have h3 : a + i ≤ b + j := by omega
    exact (Nat.sub_mod_eq_zero_of_mod_eq e.symm)
  rw [Nat.mod_eq_of_lt (by omega)] at hd
  omega

end Verif.RtlRam
