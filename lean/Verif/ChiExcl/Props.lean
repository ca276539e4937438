import Verif.ChiExcl.Lemmas

/-! # CHI exclusive accesses: what holds, and where it is lost -/

set_option maxRecDepth 100000

namespace Verif.ChiExcl

/-- **C97** (part).  A load served from a node's own cache sees every write the other nodes did,
whatever exclusive accesses there were. -/
theorem loads_fresh {n : Nat} {s : State} {h : List Ev} (hr : Reach n s h)
    (m k : Nat) (hit : (step n s (.load m k)).2 = .hit) : Fresh m k h := by
  refine (coh_reach hr).fresh m k fun hl => ?_
  simp only [step] at hit
  split at hit
  · cases hit
  · rw [if_neg (fun hc => hc hl)] at hit; cases hit

example : let r := exec 3 init [] [.load 0 7, .ldx 1 7 0, .stx 1 7 0, .writeU 2 7, .load 1 7,
      .once 0 7 false]
    (step 3 r.1 (.load 1 7)).2 = .hit ∧ Fresh 1 7 r.2 ∧ ¬ Fresh 0 7 r.2 := by
  simp only [Fresh]; decide +kernel

/-- **C97** (part).  If exclusive loads are at the start of a line and no cache drops a line its
node loaded from exclusively: an exclusive store succeeds only if no other node wrote the line
since the exclusive load. -/
theorem exclusive_atomic_partial {n : Nat} {s : State} {h : List Ev} (hr : Reach n s h)
    (ht : Tame h) (m k o : Nat) (hok : (step n s (.stx m k o)).2 = .ok) : Untouched m k o h := by
  refine (mon_reach hr ht).calm m k o ?_
  simp only [step] at hok
  split at hok
  · cases hok
  · unfold stx at hok
    cases hx : s.mon m k o with
    | true => rfl
    | false => rw [if_pos hx] at hok; cases hok

example : let r := exec 3 init [] [.ldx 0 7 0, .store 1 8]
    (step 3 r.1 (.stx 0 7 0)).2 = .ok ∧ Untouched 0 7 0 r.2 ∧
    (step 3 (exec 3 init [] [.ldx 0 7 0, .store 1 7]).1 (.stx 0 7 0)).2 = .failed := by
  simp only [Untouched]; decide +kernel

/-- **C97** (part).  An exclusive store which succeeds uses up an exclusive load of the same
address by the same node. -/
theorem one_store_per_load {n : Nat} {s : State} {h : List Ev} (hr : Reach n s h) (m k o : Nat)
    (hok : (step n s (.stx m k o)).2 = .ok) : Open m k o h := by
  refine open_reach hr m k o ?_
  simp only [step] at hok
  split at hok
  · cases hok
  · unfold stx at hok
    cases hx : s.mon m k o with
    | true => rfl
    | false => rw [if_pos hx] at hok; cases hok

example : let r := exec 2 init [] [.ldx 0 7 4, .ldx 0 7 4]
    (step 2 r.1 (.stx 0 7 4)).2 = .ok ∧ Open 0 7 4 r.2 ∧
    ¬ Open 0 7 4 ((.stx 0 7 4, .ok) :: r.2) ∧
    (step 2 (step 2 r.1 (.stx 0 7 4)).1 (.stx 0 7 4)).2 = .failed := by
  simp only [Open]; decide +kernel

/-- A node that has the line and no monitor set never gets an exclusive store done. -/
theorem hit_never_succeeds {n m k o : Nat} (hm : m < n) (s : State)
    (hl : s.line m k ≠ .inv) (hmon : s.mon m k o = false) (h : List Ev) (t : Nat) :
    exec n s h ((List.replicate t [Op.ldx m k o, .stx m k o]).flatten) =
      (s, (List.replicate t [(Op.stx m k o, Res.failed), (.ldx m k o, .hit)]).flatten ++ h) := by
  induction t generalizing h with
  | zero => rfl
  | succ t ih =>
    have hn : ¬ n ≤ m := by omega
    have e1 : step n s (.ldx m k o) = (s, .hit) := by
      simp only [step, if_neg hn, ldx, if_pos hl]
    have e2 : step n s (.stx m k o) = (s, .failed) := by
      simp only [step, if_neg hn, stx, if_pos hmon]
    rw [List.replicate_succ, List.flatten_cons]
    simp only [List.cons_append, List.nil_append, exec, e1, e2]
    rw [ih, List.replicate_succ']
    simp

/-- **C97**, violated: when another node has a copy of the line too, an exclusive store fails, and
so does every later one, with an exclusive load before each, though nobody disturbs the node. -/
theorem contended_never_succeeds {n m k o j : Nat} {s : State} {h : List Ev} (hr : Reach n s h)
    (hm : m < n) (hl : s.line m k ≠ .inv) (hj : j ≠ m) (hlj : s.line j k ≠ .inv) (t : Nat) :
    ∀ r, (Op.stx m k o, r) ∈ (exec n s [] (.stx m k o ::
      (List.replicate t [Op.ldx m k o, .stx m k o]).flatten)).2 → r = .failed := by
  have hn : ¬ n ≤ m := by omega
  have hsh : s.line m k = .shared := by
    cases hx : s.line m k with
    | inv => exact absurd hx hl
    | uniq => exact absurd ((coh_reach hr).alone m j k hx hj) hlj
    | shared => rfl
  have hfail : (step n s (.stx m k o)).2 = .failed ∧
      (step n s (.stx m k o)).1.line m k ≠ .inv ∧
      (step n s (.stx m k o)).1.mon m k o = false := by
    simp only [step, if_neg hn, stx]
    by_cases hmon : s.mon m k o = false
    · rw [if_pos hmon]; exact ⟨rfl, hl, hmon⟩
    · rw [if_neg hmon, hsh]
      refine ⟨rfl, ?_, ?_⟩
      · simp [clrMon, claim]
      · simp [clrMon]
  intro r hx
  simp only [exec] at hx
  rw [hit_never_succeeds hm _ hfail.2.1 hfail.2.2, hfail.1] at hx
  rcases List.mem_append.mp hx with hx | hx
  · obtain ⟨l, hl1, hl2⟩ := List.mem_flatten.mp hx
    rw [List.mem_replicate] at hl1
    rw [hl1.2] at hl2
    simp at hl2
    exact hl2
  · simp at hx
    exact hx

example : let r := exec 2 init [] [.ldx 0 7 0, .ldx 1 7 0]
    r.1.line 0 7 ≠ .inv ∧ r.1.line 1 7 ≠ .inv ∧ r.1.mon 0 7 0 = true ∧
    (exec 2 r.1 [] [.stx 0 7 0, .ldx 0 7 0, .stx 0 7 0]).2 =
      [(.stx 0 7 0, .failed), (.ldx 0 7 0, .hit), (.stx 0 7 0, .failed)] := by decide +kernel

/-- **C97**, violated: an exclusive load that is recorded does not report ExclusiveOkay, and one
that reports it records nothing. -/
theorem okay_inverted {n m k o : Nat} (hm : m < n) (s : State) (hmon : s.mon m k o = false) :
    (step n s (.ldx m k o)).1.mon m k o = true ↔ (step n s (.ldx m k o)).2 ≠ .hit := by
  have hn : ¬ n ≤ m := by omega
  simp only [step, if_neg hn, ldx]
  split
  · simp [hmon]
  · simp [setMon]

example : (step 2 init (.ldx 0 7 0)).1.mon 0 7 0 = true ∧ (step 2 init (.ldx 0 7 0)).2 = .miss := by
  decide +kernel

/-- **C97**, violated: an exclusive store that is not at the start of a line succeeds although
another node has written it since the exclusive load. -/
theorem offset_lost_update :
    let r := exec 2 init [] [.ldx 0 7 4, .store 1 7]
    Reach 2 r.1 r.2 ∧ (step 2 r.1 (.stx 0 7 4)).2 = .ok ∧ ¬ Untouched 0 7 4 r.2 := by
  refine ⟨reach_exec _ _ _ _ Reach.init, ?_⟩
  simp only [Untouched]; decide +kernel

/-- **C97**, violated: so does one whose line was evicted in between. -/
theorem evicted_lost_update :
    let r := exec 2 init [] [.ldx 0 7 0, .evict 0 7, .writeU 1 7]
    Reach 2 r.1 r.2 ∧ (step 2 r.1 (.stx 0 7 0)).2 = .ok ∧ ¬ Untouched 0 7 0 r.2 := by
  refine ⟨reach_exec _ _ _ _ Reach.init, ?_⟩
  simp only [Untouched]; decide +kernel

/-- **C97** (part).  The interconnect answers a request ExclusiveOkay exactly if it is an exclusive
CleanUnique of a logical processor with an exclusive read or CleanUnique no earlier than the last
exclusive store that passed. -/
theorem exokay_iff {l : List Nat} {h : List (Rq × Got)} (hs : Served l h) (r : Rq) :
    (route l r).2.exokay = true ↔
      r.excl = true ∧ r.opc = .cleanUnique ∧ Entitled r.lpid h := by
  rw [← served_list hs r.lpid]
  cases hx : r.excl <;> simp [route, handle, hx]

example : (serve [] [] [⟨1, 5, .readShared, true, true⟩, ⟨2, 6, .readClean, true, true⟩,
    ⟨1, 5, .cleanUnique, true, true⟩, ⟨2, 6, .cleanUnique, true, true⟩,
    ⟨2, 6, .cleanUnique, true, true⟩, ⟨1, 5, .cleanUnique, true, true⟩]).2.map (·.2.exokay) =
    [false, true, false, true, false, false] := by decide +kernel

/-- **C97** (part).  A request that is not exclusive is snooped whenever it should be, and so is an
exclusive store that passes. -/
theorem snooped_partial (l : List Nat) (r : Rq) (h : r.excl = false ∨ (route l r).2.exokay = true) :
    (route l r).2.snooped = (r.snpAttr && isSnooping r.opc) := by
  rcases h with h | h
  · simp [route, h]
  · simp only [route, Bool.and_eq_true] at h ⊢
    rw [h.2, Bool.and_true]

example : (route [5] ⟨1, 5, .cleanUnique, true, true⟩).2 = ⟨true, true⟩ ∧
    (route [] ⟨1, 5, .readShared, false, true⟩).2.snooped = true := by decide +kernel

/-- **C97**, violated: an exclusive read is never snooped and never answered ExclusiveOkay: it is
read from memory although another cache may have the line dirty. -/
theorem exclusive_read_unsnooped (l : List Nat) (r : Rq) (hx : r.excl = true)
    (ho : r.opc ≠ .cleanUnique) : (route l r).2 = ⟨false, false⟩ := by
  simp [route, handle, hx, ho]

/-- **C97**, violated: an exclusive store that does not pass is answered as one that does, with
Comp_UC, but without a snoop (iconnect-chi.h 1085-1088, 2359-2366). -/
theorem refused_unsnooped {l : List Nat} (r : Rq) (hx : r.excl = true)
    (hn : r.lpid ∉ l) : (route l r).2 = ⟨false, false⟩ := by
  simp [route, handle, hx, hn]

/-- **C97**, violated: the monitor does not look at the source: a node's exclusive store passes on
the exclusive read of another node with the same LPID. -/
theorem same_lpid_passes :
    (serve [] [] [⟨1, 0, .readShared, true, true⟩, ⟨2, 0, .cleanUnique, true, true⟩]).2.head? =
      some (⟨2, 0, .cleanUnique, true, true⟩, ⟨true, true⟩) := by decide +kernel

end Verif.ChiExcl
