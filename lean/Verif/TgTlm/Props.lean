import Verif.TgTlm.Model
/-! # The traffic generator: what it does with a list of transfers -/

namespace Verif.TgTlm
open Verif

/-! ## Specification -/

/-- The request `q` asks for the transfer `x`. -/
structure Carries (x : Xfer) (q : Req) : Prop where
  cmd : q.gp.cmd = if x.cmd = 0 then .read else if x.cmd = 1 then .write else .ignore
  addr : q.gp.addr = x.addr
  len : q.gp.data.length = x.length
  data : q.gp.cmd = .write → ∀ d, x.data = some d → ∀ i, i < x.length → q.gp.data[i]? = d[i]?
  beLen : q.gp.be.length = match x.byteEnable with | some _ => x.byteEnableLength | none => 0
  be : ∀ b, x.byteEnable = some b → ∀ i, i < x.byteEnableLength → q.gp.be[i]? = (b[i]?).map (· == 0xff)
  sw : q.gp.sw = x.sw

/-- The target's answers to requests, one after the other. -/
def replay {σ : Type} (t : Target σ) : σ → List Req → List (Status × List Byte)
  | _, [] => []
  | s, q :: qs => ((t s q).2.1, (t s q).2.2) :: replay t (t s q).1 qs

/-- The transfer went as it should. -/
def Good (x : Xfer) (a : Status × List Byte) : Prop := a.1 = .ok ∧ ∀ e, x.expect = some e → e.take x.length = a.2

/-! ## One transfer -/

theorem bytes_length {p : Option (List Byte)} {n : Nat} {d : List Byte} (h : bytes p n = some d) : d.length = n := by
  unfold bytes at h
  cases p with
  | none =>
    simp only [] at h
    by_cases hn : n = 0
    · rw [if_pos hn] at h; cases h; exact hn.symm
    · rw [if_neg hn] at h; cases h
  | some l =>
    simp only [] at h
    by_cases hn : n ≤ l.length
    · rw [if_pos hn] at h; cases h; rw [List.length_take]; omega
    · rw [if_neg hn] at h; cases h

theorem bytes_some {l d : List Byte} {n : Nat} (h : bytes (some l) n = some d) : d = l.take n := by
  unfold bytes at h
  simp only [] at h
  by_cases hn : n ≤ l.length
  · rw [if_pos hn] at h; cases h; rfl
  · rw [if_neg hn] at h; cases h

theorem request_parts {junk : Nat → Byte} {x : Xfer} {q : Req} (h : request junk x = some q) :
    ∃ d b, (if getCmd x = .write then bytes x.data x.length else some ((List.range x.length).map junk)) = some d ∧
      (match x.byteEnable with | some _ => bytes x.byteEnable x.byteEnableLength | none => some []) = some b ∧
      q = { gp := { cmd := getCmd x, addr := x.addr, data := d, be := b.map (· == 0xff), sw := x.sw }, ext := setExtensions x } := by
  unfold request at h
  simp only [] at h
  split at h
  · rename_i d b h1 h2
    cases h
    exact ⟨d, b, h1, h2, rfl⟩
  · cases h

theorem request_carries {junk : Nat → Byte} {x : Xfer} {q : Req} (h : request junk x = some q) : Carries x q := by
  obtain ⟨d, b, hd, hb, rfl⟩ := request_parts h
  refine { cmd := ?_, addr := rfl, len := ?_, data := ?_, beLen := ?_, be := ?_, sw := rfl }
  · show getCmd x = _
    unfold getCmd
    by_cases h1 : x.cmd = 1
    · rw [if_pos h1, if_neg (by omega), if_pos h1]
    · rw [if_neg h1]
      by_cases h0 : x.cmd = 0
      · rw [if_pos h0, if_pos h0]
      · rw [if_neg h0, if_neg h0, if_neg h1]
  · show d.length = x.length
    by_cases hc : getCmd x = .write
    · rw [if_pos hc] at hd; exact bytes_length hd
    · rw [if_neg hc] at hd; cases hd; simp
  · intro hc e he i hi
    replace hc : getCmd x = .write := hc
    rw [if_pos hc, he] at hd
    show d[i]? = e[i]?
    rw [bytes_some hd, List.getElem?_take, if_pos hi]
  · show (b.map _).length = _
    rw [List.length_map]
    cases hx : x.byteEnable with
    | none => rw [hx] at hb; cases hb; rfl
    | some l => rw [hx] at hb; exact bytes_length hb
  · intro l hl i hi
    show (b.map _)[i]? = _
    rw [hl] at hb
    rw [List.getElem?_map, bytes_some hb, List.getElem?_take, if_pos hi]

theorem check_good {x : Xfer} {st : Status} {d : List Byte} {r : List Report} (h : check x st d = some r) :
    r = [] ↔ Good x (st, d) := by
  unfold check at h
  have hst : (if st.isError = true then [Report.response st] else []) = [] ↔ st = .ok := by
    cases st <;> simp [Status.isError]
  cases hx : x.expect with
  | none =>
    rw [hx] at h
    simp only [Option.some.injEq] at h
    subst h
    unfold Good
    rw [hst, hx]
    exact ⟨fun h => ⟨h, fun e he => by (cases he)⟩, fun h => h.1⟩
  | some e =>
    rw [hx] at h
    simp only [] at h
    split at h
    · cases h
    · rename_i e' he'
      simp only [Option.some.injEq] at h
      subst h
      have := bytes_some he'
      subst this
      unfold Good
      rw [List.append_eq_nil_iff, hst, hx]
      constructor
      · rintro ⟨h1, h2⟩
        refine ⟨h1, fun e1 he1 => ?_⟩
        cases he1
        by_cases hq : e.take x.length = d
        · exact hq
        · rw [if_neg hq] at h2; cases h2
      · rintro ⟨h1, h2⟩
        exact ⟨h1, if_pos (h2 e rfl)⟩

/-! ## All transfers -/

/-- **Every transfer once, in order.** When error reports do not end the process, the
target is given one request for each transfer, in the order of the list, and ends in the
state these requests lead to. -/
theorem every_transfer_once {σ : Type} (t : Target σ) (junk : Nat → Nat → Byte) : ∀ (xs : List Xfer) (k : Nat) (s : σ) (u : Run σ),
    generate false t junk k xs s = some u →
    u.ended = true ∧ u.reqs.length = xs.length ∧
    (∀ (i : Nat) (x : Xfer), xs[i]? = some x → ∃ q, u.reqs[i]? = some q ∧ Carries x q ∧ q.ext = setExtensions x) ∧
    u.tgt = u.reqs.foldl (fun s q => (t s q).1) s
  | [], k, s, u, h => by
    cases h
    exact ⟨rfl, rfl, fun i x h => by (cases h), rfl⟩
  | x :: xs, k, s, u, h => by
    unfold generate at h
    cases hq : request (junk k) x with
    | none => rw [hq] at h; cases h
    | some q =>
      rw [hq] at h
      simp only [] at h
      obtain ⟨s', st, d, ht⟩ : ∃ s' st d, t s q = (s', st, d) := ⟨_, _, _, rfl⟩
      rw [ht] at h
      simp only [Bool.false_and] at h
      rw [if_neg (by decide)] at h
      cases hc : check x st d with
      | none => rw [hc] at h; cases h
      | some r =>
        rw [hc] at h
        simp only [] at h
        rw [if_neg (by decide)] at h
        cases hg : generate false t junk (k + 1) xs s' with
        | none => rw [hg] at h; cases h
        | some v =>
          rw [hg] at h
          cases h
          obtain ⟨h1, h2, h3, h4⟩ := every_transfer_once t junk xs (k + 1) s' v hg
          refine ⟨h1, by simp [h2], ?_, ?_⟩
          · intro i y hy
            cases i with
            | zero =>
              cases hy
              obtain ⟨_, _, _, _, e⟩ := request_parts hq
              exact ⟨q, rfl, request_carries hq, by rw [e]⟩
            | succ i => exact h3 i y hy
          · show v.tgt = _
            rw [h4, List.foldl_cons, ht]

/-- **A clean run.** Nothing is reported if and only if every transfer was answered OK
and every expectation was met. -/
theorem clean_iff {σ : Type} (t : Target σ) (junk : Nat → Nat → Byte) : ∀ (xs : List Xfer) (k : Nat) (s : σ) (u : Run σ),
    generate false t junk k xs s = some u →
    (u.reports = [] ↔ ∀ (i : Nat) (x : Xfer) (a : Status × List Byte), xs[i]? = some x → (replay t s u.reqs)[i]? = some a → Good x a)
  | [], k, s, u, h => by
    cases h
    exact ⟨fun _ i x a h => by (cases h), fun _ => rfl⟩
  | x :: xs, k, s, u, h => by
    unfold generate at h
    cases hq : request (junk k) x with
    | none => rw [hq] at h; cases h
    | some q =>
      rw [hq] at h
      simp only [] at h
      obtain ⟨s', st, d, ht⟩ : ∃ s' st d, t s q = (s', st, d) := ⟨_, _, _, rfl⟩
      rw [ht] at h
      simp only [Bool.false_and] at h
      rw [if_neg (by decide)] at h
      cases hc : check x st d with
      | none => rw [hc] at h; cases h
      | some r =>
        rw [hc] at h
        simp only [] at h
        rw [if_neg (by decide)] at h
        cases hg : generate false t junk (k + 1) xs s' with
        | none => rw [hg] at h; cases h
        | some v =>
          rw [hg] at h
          cases h
          have ih := clean_iff t junk xs (k + 1) s' v hg
          have hr := check_good hc
          show r ++ v.reports = [] ↔ _
          rw [List.append_eq_nil_iff, hr, ih]
          constructor
          · rintro ⟨h1, h2⟩ i y a hy ha
            cases i with
            | zero =>
              cases hy
              simp only [replay, List.getElem?_cons_zero, ht, Option.some.injEq] at ha
              subst ha
              exact h1
            | succ i =>
              simp only [replay, List.getElem?_cons_succ, ht] at ha
              exact h2 i y a hy ha
          · intro h
            refine ⟨h 0 x _ rfl (by simp only [replay, List.getElem?_cons_zero, ht]), fun i y a hy ha => ?_⟩
            exact h (i + 1) y a hy (by simp only [replay, List.getElem?_cons_succ, ht]; exact ha)

/-- **The first failure ends the process** when error reports throw, as they do by
default: the requests made are those of the first transfers, in order; all but the last
were good; the process reached its end exactly if all transfers were made and good. -/
theorem stops_at_first_failure {σ : Type} (t : Target σ) (junk : Nat → Nat → Byte) : ∀ (xs : List Xfer) (k : Nat) (s : σ) (u : Run σ),
    generate true t junk k xs s = some u →
    u.reqs.length ≤ xs.length ∧
    (∀ (i : Nat) (x : Xfer), i < u.reqs.length → xs[i]? = some x → ∃ q, u.reqs[i]? = some q ∧ Carries x q) ∧
    (∀ (i : Nat) (x : Xfer) (a : Status × List Byte), i + 1 < u.reqs.length → xs[i]? = some x → (replay t s u.reqs)[i]? = some a → Good x a) ∧
    (u.ended = true → u.reports = [] ∧ u.reqs.length = xs.length ∧
      ∀ (i : Nat) (x : Xfer) (a : Status × List Byte), xs[i]? = some x → (replay t s u.reqs)[i]? = some a → Good x a) ∧
    (u.ended = false → u.reports ≠ [] ∧ ∃ (i : Nat) (x : Xfer) (a : Status × List Byte), u.reqs.length = i + 1 ∧ xs[i]? = some x ∧ (replay t s u.reqs)[i]? = some a ∧ ¬Good x a)
  | [], k, s, u, h => by
    cases h
    refine ⟨Nat.le_refl _, fun i x h => absurd h (Nat.not_lt_zero _), fun i x a h => absurd h (Nat.not_lt_zero _), fun _ => ⟨rfl, rfl, fun i x a h => by (cases h)⟩, fun h => by (cases h)⟩
  | x :: xs, k, s, u, h => by
    unfold generate at h
    cases hq : request (junk k) x with
    | none => rw [hq] at h; cases h
    | some q =>
      rw [hq] at h
      simp only [] at h
      obtain ⟨s', st, d, ht⟩ : ∃ s' st d, t s q = (s', st, d) := ⟨_, _, _, rfl⟩
      rw [ht] at h
      simp only [Bool.true_and] at h
      have ha0 : (replay t s [q])[0]? = some (st, d) := by simp only [replay, List.getElem?_cons_zero, ht]
      have one : ∀ (r : List Report), r ≠ [] → ¬Good x (st, d) → u = { tgt := s', reqs := [q], reports := r, ended := false } →
          u.reqs.length ≤ (x :: xs).length ∧
          (∀ (i : Nat) (y : Xfer), i < u.reqs.length → (x :: xs)[i]? = some y → ∃ q, u.reqs[i]? = some q ∧ Carries y q) ∧
          (∀ (i : Nat) (y : Xfer) (a : Status × List Byte), i + 1 < u.reqs.length → (x :: xs)[i]? = some y → (replay t s u.reqs)[i]? = some a → Good y a) ∧
          (u.ended = true → u.reports = [] ∧ u.reqs.length = (x :: xs).length ∧
            ∀ (i : Nat) (y : Xfer) (a : Status × List Byte), (x :: xs)[i]? = some y → (replay t s u.reqs)[i]? = some a → Good y a) ∧
          (u.ended = false → u.reports ≠ [] ∧ ∃ (i : Nat) (y : Xfer) (a : Status × List Byte), u.reqs.length = i + 1 ∧ (x :: xs)[i]? = some y ∧ (replay t s u.reqs)[i]? = some a ∧ ¬Good y a) := by
        intro r hr hbad hu
        subst hu
        refine ⟨by simp, ?_, ?_, fun h => by (cases h), fun _ => ⟨hr, 0, x, (st, d), rfl, rfl, ha0, hbad⟩⟩
        · intro i y hi hy
          have : i = 0 := by
            have : i < 1 := hi
            omega
          subst this
          cases hy
          exact ⟨q, rfl, request_carries hq⟩
        · intro i y a hi
          have : i + 1 < 1 := hi
          omega
      by_cases he : st.isError = true
      · rw [if_pos he] at h
        refine one _ (by simp) ?_ (Option.some.inj h).symm
        rintro ⟨h1, _⟩
        simp only [] at h1
        subst h1
        cases he
      · rw [if_neg he] at h
        cases hc : check x st d with
        | none => rw [hc] at h; cases h
        | some r =>
          rw [hc] at h
          simp only [] at h
          have hr := check_good hc
          by_cases hre : (!r.isEmpty) = true
          · rw [if_pos hre] at h
            have hne : r ≠ [] := by rintro rfl; cases hre
            exact one r hne (fun hg => hne (hr.2 hg)) (Option.some.inj h).symm
          · rw [if_neg hre] at h
            have hnil : r = [] := by
              cases r with
              | nil => rfl
              | cons a l => exact absurd rfl hre
            have hgood := hr.1 hnil
            cases hg : generate true t junk (k + 1) xs s' with
            | none => rw [hg] at h; cases h
            | some v =>
              rw [hg] at h
              cases h
              obtain ⟨h1, h2, h3, h4, h5⟩ := stops_at_first_failure t junk xs (k + 1) s' v hg
              refine ⟨by simp only [List.length_cons]; omega, ?_, ?_, ?_, ?_⟩
              · intro i y hi hy
                cases i with
                | zero => cases hy; exact ⟨q, rfl, request_carries hq⟩
                | succ i => exact h2 i y (by simp only [List.length_cons] at hi; omega) hy
              · intro i y a hi hy ha
                cases i with
                | zero =>
                  cases hy
                  simp only [replay, List.getElem?_cons_zero, ht, Option.some.injEq] at ha
                  subst ha
                  exact hgood
                | succ i =>
                  simp only [replay, List.getElem?_cons_succ, ht] at ha
                  exact h3 i y a (by simp only [List.length_cons] at hi; omega) hy ha
              · intro hend
                obtain ⟨e1, e2, e3⟩ := h4 hend
                refine ⟨by show r ++ v.reports = []; rw [hnil, e1]; rfl, by simp [e2], ?_⟩
                intro i y a hy ha
                cases i with
                | zero =>
                  cases hy
                  simp only [replay, List.getElem?_cons_zero, ht, Option.some.injEq] at ha
                  subst ha
                  exact hgood
                | succ i =>
                  simp only [replay, List.getElem?_cons_succ, ht] at ha
                  exact e3 i y a hy ha
              · intro hend
                obtain ⟨e1, i, y, a, e2, e3, e4, e5⟩ := h5 hend
                refine ⟨by show r ++ v.reports ≠ []; rw [hnil]; exact e1, i + 1, y, a, by simp [e2], e3, ?_, e5⟩
                simp only [replay, List.getElem?_cons_succ, ht]
                exact e4

/-! ## On a memory -/

/-- A memory as target. -/
def memory : Target Mem := fun m q => ((q.gp.run m).1, .ok, (q.gp.run m).2)

/-- What the list of transfers means: the contents of memory afterwards, and the data
each transfer ends with, `none` for a byte not written to the buffer. -/
def meaning1 (m : Mem) (x : Xfer) : Mem × List (Option Byte) :=
  let on := fun i => beEnabled (((x.byteEnable.getD []).take x.byteEnableLength).map (· == 0xff)) i
  if x.cmd = 1 then
    (writeFrom m x.addr x.sw (((x.byteEnable.getD []).take x.byteEnableLength).map (· == 0xff)) 0 ((x.data.getD []).take x.length),
      ((x.data.getD []).take x.length).map some)
  else if x.cmd = 0 then (m, (List.range x.length).map fun i => if on i then some (m (x.addr + i % x.sw)) else none)
  else (m, List.replicate x.length none)

theorem readFrom_get (m : Mem) (a sw : Nat) (be : List Bool) : ∀ (d : List Byte) (k i : Nat) (b : Byte), d[i]? = some b →
    (readFrom m a sw be k d)[i]? = some (if beEnabled be (k + i) then m (a + (k + i) % sw) else b)
  | c :: d, k, 0, b, h => by cases h; rfl
  | c :: d, k, i + 1, b, h => by
    show (readFrom m a sw be (k + 1) d)[i]? = _
    rw [readFrom_get m a sw be d (k + 1) i b h, show k + 1 + i = k + (i + 1) by omega]

theorem memory_step {junk : Nat → Byte} {x : Xfer} {q : Req} (h : request junk x = some q) (m : Mem) :
    (memory m q).1 = (meaning1 m x).1 ∧ (memory m q).2.2.length = (meaning1 m x).2.length ∧
    ∀ (i : Nat) (o : Option Byte), (meaning1 m x).2[i]? = some o → (memory m q).2.2[i]? = some (o.getD (junk i)) := by
  obtain ⟨d, b, hd, hb, rfl⟩ := request_parts h
  have hbe : b.map (· == (0xff : Byte)) = ((x.byteEnable.getD []).take x.byteEnableLength).map (· == 0xff) := by
    cases hx : x.byteEnable with
    | none => rw [hx] at hb; cases hb; simp
    | some l => rw [hx] at hb; rw [bytes_some hb]; rfl
  unfold memory Gp.run meaning1
  simp only []
  by_cases h1 : x.cmd = 1
  · have hc : getCmd x = .write := by unfold getCmd; rw [if_pos h1]
    rw [if_pos hc] at hd
    have hde : d = (x.data.getD []).take x.length := by
      cases hx : x.data with
      | none =>
        rw [hx] at hd
        unfold bytes at hd
        simp only [] at hd
        by_cases h0 : x.length = 0
        · rw [if_pos h0] at hd; cases hd; simp
        · rw [if_neg h0] at hd; cases hd
      | some l => rw [hx] at hd; rw [bytes_some hd]; rfl
    rw [if_pos h1, hc, hbe, ← hde]
    refine ⟨rfl, by simp, fun i o ho => ?_⟩
    simp only [List.getElem?_map] at ho
    cases hi : d[i]? with
    | none => rw [hi] at ho; cases ho
    | some v => rw [hi] at ho; cases ho; exact rfl
  · rw [if_neg h1]
    by_cases h0 : x.cmd = 0
    · have hc : getCmd x = .read := by unfold getCmd; rw [if_neg h1, if_pos h0]
      rw [if_neg (by rw [hc]; decide)] at hd
      cases hd
      rw [if_pos h0, hc, hbe]
      refine ⟨rfl, by simp, fun i o ho => ?_⟩
      have hi : i < x.length := by
        rcases Nat.lt_or_ge i x.length with h | h
        · exact h
        · rw [List.getElem?_eq_none (by simpa using h)] at ho; cases ho
      simp only [List.getElem?_map, List.getElem?_range hi, Option.map_some, Option.some.injEq] at ho
      show (readFrom m x.addr x.sw _ 0 ((List.range x.length).map junk))[i]? = _
      rw [readFrom_get m x.addr x.sw _ _ 0 i (junk i) (by simp only [List.getElem?_map, List.getElem?_range hi, Option.map_some])]
      subst ho
      rw [Nat.zero_add]
      split <;> rfl
    · have hc : getCmd x = .ignore := by unfold getCmd; rw [if_neg h1, if_neg h0]
      rw [if_neg (by rw [hc]; decide)] at hd
      cases hd
      rw [if_neg h0, hc]
      refine ⟨rfl, by simp, fun i o ho => ?_⟩
      rw [List.getElem?_replicate] at ho
      by_cases hi : i < x.length
      · rw [if_pos hi] at ho
        cases ho
        simp [List.getElem?_map, List.getElem?_range hi]
      · rw [if_neg hi] at ho; cases ho

/-- The memory before transfer `i`. -/
def before (m : Mem) (xs : List Xfer) (i : Nat) : Mem := (xs.take i).foldl (fun m x => (meaning1 m x).1) m

theorem replay_get {junk : Nat → Nat → Byte} : ∀ (xs : List Xfer) (k : Nat) (m : Mem) (u : Run Mem),
    generate false memory junk k xs m = some u →
    u.tgt = xs.foldl (fun m x => (meaning1 m x).1) m ∧
    ∀ (i : Nat) (x : Xfer), xs[i]? = some x → ∃ d, (replay memory m u.reqs)[i]? = some (.ok, d) ∧ d.length = (meaning1 (before m xs i) x).2.length ∧
      ∀ (j : Nat) (o : Option Byte), (meaning1 (before m xs i) x).2[j]? = some o → d[j]? = some (o.getD (junk (k + i) j))
  | [], k, m, u, h => by
    cases h
    exact ⟨rfl, fun i x h => by (cases h)⟩
  | x :: xs, k, m, u, h => by
    unfold generate at h
    cases hq : request (junk k) x with
    | none => rw [hq] at h; cases h
    | some q =>
      rw [hq] at h
      simp only [] at h
      obtain ⟨s', st, d, ht⟩ : ∃ s' st d, memory m q = (s', st, d) := ⟨_, _, _, rfl⟩
      rw [ht] at h
      simp only [Bool.false_and] at h
      rw [if_neg (by decide)] at h
      cases hc : check x st d with
      | none => rw [hc] at h; cases h
      | some r =>
        rw [hc] at h
        simp only [] at h
        rw [if_neg (by decide)] at h
        cases hg : generate false memory junk (k + 1) xs s' with
        | none => rw [hg] at h; cases h
        | some v =>
          rw [hg] at h
          cases h
          obtain ⟨ih1, ih2⟩ := replay_get xs (k + 1) s' v hg
          obtain ⟨m1, m2, m3⟩ := memory_step hq m
          have hs : s' = (meaning1 m x).1 := by rw [← m1, ht]
          have hst : st = .ok := by
            have : (memory m q).2.1 = .ok := rfl
            rw [ht] at this
            exact this
          subst hst
          rw [ht] at m2 m3
          refine ⟨by show v.tgt = _; rw [ih1, hs]; rfl, ?_⟩
          intro i y hy
          cases i with
          | zero =>
            cases hy
            exact ⟨d, by simp only [replay, List.getElem?_cons_zero, ht], m2, m3⟩
          | succ i =>
            obtain ⟨d', e1, e2, e3⟩ := ih2 i y hy
            have hb : before m (x :: xs) (i + 1) = before s' xs i := by
              unfold before
              rw [List.take_succ_cons, List.foldl_cons, ← hs]
            rw [hb]
            refine ⟨d', by simp only [replay, List.getElem?_cons_succ, ht]; exact e1, e2, ?_⟩
            rw [show k + (i + 1) = k + 1 + i by omega]
            exact e3

/-- **A script on a memory.** The memory ends as the transfers say. If no read has byte
enables, nothing is reported exactly if each expectation equals the contents of memory (or
the data written) at its turn. -/
theorem script_on_memory (junk : Nat → Nat → Byte) (xs : List Xfer) (m : Mem) (u : Run Mem)
    (h : generate false memory junk 0 xs m = some u) :
    u.tgt = xs.foldl (fun m x => (meaning1 m x).1) m ∧
    ((∀ x ∈ xs, x.byteEnable = none ∧ x.cmd ≤ 1) →
      (u.reports = [] ↔ ∀ i x e, xs[i]? = some x → x.expect = some e → (e.take x.length).map some = (meaning1 (before m xs i) x).2)) := by
  obtain ⟨h1, h2⟩ := replay_get xs 0 m u h
  refine ⟨h1, fun hall => ?_⟩
  rw [clean_iff memory junk xs 0 m u h]
  have key : ∀ (i : Nat) (x : Xfer), xs[i]? = some x → ∃ d, (replay memory m u.reqs)[i]? = some (.ok, d) ∧ d.map some = (meaning1 (before m xs i) x).2 := by
    intro i x hx
    obtain ⟨d, e1, e2, e3⟩ := h2 i x hx
    refine ⟨d, e1, ?_⟩
    obtain ⟨hbe, hcmd⟩ := hall x (List.mem_of_getElem? hx)
    have hsome : ∀ (j : Nat) (o : Option Byte), (meaning1 (before m xs i) x).2[j]? = some o → o ≠ none := by
      intro j o ho
      unfold meaning1 at ho
      rw [hbe] at ho
      by_cases hw : x.cmd = 1
      · rw [if_pos hw] at ho
        simp only [List.getElem?_map] at ho
        cases hd : ((x.data.getD []).take x.length)[j]? with
        | none => rw [hd] at ho; cases ho
        | some v => rw [hd] at ho; cases ho; simp
      · rw [if_neg hw, if_pos (by omega)] at ho
        simp only [List.getElem?_map] at ho
        cases hd : (List.range x.length)[j]? with
        | none => rw [hd] at ho; cases ho
        | some v => rw [hd] at ho; cases ho; simp [beEnabled]
    apply List.ext_getElem?
    intro j
    rw [List.getElem?_map]
    cases hm : (meaning1 (before m xs i) x).2[j]? with
    | none =>
      rw [List.getElem?_eq_none_iff] at hm
      rw [List.getElem?_eq_none (by omega)]
      rfl
    | some o =>
      rw [e3 j o hm]
      cases o with
      | none => exact absurd rfl (hsome j none hm)
      | some v => rfl
  constructor
  · intro hg i x e hx he
    obtain ⟨d, e1, e2⟩ := key i x hx
    have := (hg i x _ hx e1).2 e he
    rw [this]
    exact e2
  · intro hg i x a hx ha
    obtain ⟨d, e1, e2⟩ := key i x hx
    rw [e1] at ha
    cases ha
    refine ⟨rfl, fun e he => ?_⟩
    have := hg i x e hx he
    rw [← e2] at this
    exact (List.map_inj_right (fun a b h => Option.some.inj h)).1 this

/-- **A read with a disabled byte and an expectation is checked against a byte nobody
set**: with one content of the freshly allocated buffer it is reported, whatever
memory holds. -/
theorem disabled_byte_reported (m : Mem) (x : Xfer) (e be : List Byte) (i : Nat) (hi : i < x.length) (hc : x.cmd = 0)
    (hbe : x.byteEnable = some be) (hbl : x.byteEnableLength ≤ be.length)
    (hoff : beEnabled ((be.take x.byteEnableLength).map (· == 0xff)) i = false)
    (he : x.expect = some e) (hel : x.length ≤ e.length) :
    ∃ (junk : Nat → Nat → Byte) (u : Run Mem), generate false memory junk 0 [x] m = some u ∧ u.reports ≠ [] := by
  obtain ⟨v, hv⟩ : ∃ v, e[i]? = some v := ⟨e[i]'(by omega), List.getElem?_eq_getElem (by omega)⟩
  have hcmd : getCmd x = .read := by unfold getCmd; rw [if_neg (by omega), if_pos hc]
  let junk : Nat → Nat → Byte := fun _ _ => v + 1
  have hq : ∃ q, request (junk 0) x = some q := by
    unfold request
    simp only []
    rw [if_neg (by rw [hcmd]; decide), hbe]
    simp only [bytes]
    rw [if_pos hbl]
    exact ⟨_, rfl⟩
  obtain ⟨q, hq⟩ := hq
  have hu : ∃ u, generate false memory junk 0 [x] m = some u := by
    unfold generate
    rw [hq]
    simp only [memory, Bool.false_and]
    rw [if_neg (by decide)]
    unfold check
    rw [he]
    simp only [bytes]
    rw [if_pos hel]
    simp only []
    rw [if_neg (by decide)]
    unfold generate
    exact ⟨_, rfl⟩
  obtain ⟨u, hu⟩ := hu
  refine ⟨junk, u, hu, fun hr => ?_⟩
  have hg := (clean_iff memory junk [x] 0 m u hu).1 hr
  obtain ⟨_, h2⟩ := replay_get [x] 0 m u hu
  obtain ⟨d, e1, _, e3⟩ := h2 0 x rfl
  have hgood := (hg 0 x _ rfl e1).2 e he
  have hm : (meaning1 (before m [x] 0) x).2[i]? = some none := by
    unfold meaning1
    rw [if_neg (by omega), if_pos hc]
    simp only [List.getElem?_map, List.getElem?_range hi, Option.map_some, hbe, Option.getD_some]
    rw [if_neg (by rw [hoff]; decide)]
  have hd := e3 i none hm
  simp only [] at hgood
  rw [← hgood, List.getElem?_take, if_pos hi, hv] at hd
  simp only [Option.getD_none, Option.some.injEq] at hd
  have hne : ∀ w : Byte, w ≠ w + 1 := by decide
  exact hne v hd

/-! ## Attributes -/

/-- What the transfer says an attribute is. -/
def said (x : Xfer) : Genattr.Name → Option Nat
  | .masterId => some x.attr.masterId
  | .secure => some x.attr.secure.toNat
  | .eop => some x.attr.eop.toNat
  | .wrap => some x.attr.wrap.toNat
  | .burstWidth => some x.attr.burstWidth
  | .transactionId => some x.attr.transactionId
  | .exclusive => some x.attr.exclusive.toNat
  | .locked => some x.attr.locked.toNat
  | .bufferable => some x.attr.bufferable.toNat
  | .modifiable => some x.attr.modifiable.toNat
  | .readAllocate => some x.attr.readAllocate.toNat
  | .writeAllocate => some x.attr.writeAllocate.toNat
  | .qos => some x.attr.qos
  | .region => some x.attr.region
  | .snoop => some x.attr.snoop
  | .domain => some x.attr.domain
  | .barrier => some x.attr.barrier.toNat
  | .isReadTx => some x.attr.isRead.toNat
  | _ => none

/-- Every attribute but the region is passed on as the transfer says; attributes it does
not mention are zero; without `enabled` there is no extension. -/
theorem attributes_partial (x : Xfer) :
    (x.attr.enabled = false → setExtensions x = none) ∧
    (x.attr.enabled = true → ∃ e, setExtensions x = some e ∧ ∀ n, n ≠ .region → e n = (said x n).getD 0) := by
  constructor
  · intro h
    unfold setExtensions
    rw [h]
    rfl
  · intro h
    unfold setExtensions
    rw [if_pos h]
    refine ⟨_, rfl, fun n hn => ?_⟩
    cases n
    case region => exact absurd rfl hn
    all_goals rfl

/-- **The region is replaced by the quality of service.** -/
theorem region_is_qos (x : Xfer) (h : x.attr.enabled = true) : ∃ e, setExtensions x = some e ∧ e .region = x.attr.qos := by
  unfold setExtensions
  rw [if_pos h]
  exact ⟨_, rfl, rfl⟩

theorem region_lost : ∃ x e, setExtensions x = some e ∧ e .region ≠ x.attr.region :=
  ⟨{ addr := 0, cmd := 0, data := none, length := 4, byteEnable := none, byteEnableLength := 0, sw := 4, expect := none,
     attr := { enabled := true, region := 3 } }, _, rfl, by decide⟩

/-! ## Cases that meet the hypotheses -/

/-- A write, and a read that expects what was written. -/
def script : List Xfer :=
  [{ addr := 0x10, cmd := 1, data := some [1, 2, 3, 4], length := 4, byteEnable := none, byteEnableLength := 0, sw := 4, expect := none },
   { addr := 0x12, cmd := 0, data := none, length := 2, byteEnable := none, byteEnableLength := 0, sw := 2, expect := some [3, 4] }]

example : ∃ u, generate false memory (fun _ _ => 0xaa) 0 script (fun _ => 0) = some u ∧ u.reports = [] ∧ u.reqs.length = 2 :=
  ⟨_, rfl, by decide, by decide⟩

example : ∃ u, generate true memory (fun _ _ => 0xaa) 0 (script ++ script.map (fun x => { x with expect := some [0, 0, 0, 0] }) ++ script) (fun _ => 0) = some u ∧
    u.ended = false ∧ u.reqs.length = 3 :=
  ⟨_, rfl, by decide, by decide⟩

example : beEnabled (([0xff, 0] : List Byte).map (· == 0xff)) 1 = false := by decide

end Verif.TgTlm
