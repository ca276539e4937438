import Verif.ChiLive.Props

/-! # Two stores that never end -/

namespace Verif.ChiLive

open Verif.ChiCoh

/-- The store of cache `i`. -/
def mine (i : Nat) : Chunk := st0 1 (BitVec.ofNat 8 (i + 1))

/-- Cache `a` has just received line 1 for its store and has not run yet; cache `b`'s request waits. -/
structure Held (a b : Nat) (s : St) : Prop where
  cur : s.cur = none
  pca : ∃ w, (s.cache a).pc = some w ∧ w.st = .done ∧ w.op = .readUnique ∧ w.c = mine a
  pcb : (s.cache b).pc = some (fillReq (mine b) .readUnique false)
  l : ((s.cache a).slot 1).valid = true ∧ ((s.cache a).slot 1).tag = 1 ∧ ((s.cache a).slot 1).shared = false ∧
    ((s.cache a).slot 1).dirty = false ∧ ((s.cache a).slot 1).full = true
  fa : s.filt a 1 = true

/-- Cache `b` takes the line, then cache `a` runs, finds it gone and asks again. -/
def take (a b : Nat) : List Label := [.pick b, .snoop a, .resp a noBytes, .rxDat, .ack, .resume a {}]

theorem take_turns {a b : Nat} (hab : (a = 0 ∧ b = 1) ∨ (a = 1 ∧ b = 0)) {s : St} (h : Held a b s) :
    ∃ s', run cfgN s (take a b) = some (s', []) ∧ Held b a s' := by
  obtain ⟨h1, ⟨w, h2, h3, h4, h5⟩, h6, ⟨l1, l2, l3, l4, l5⟩, h7⟩ := h
  have hne : a ≠ b := by omega
  have t : targets cfgN s b 1 = [a] := by
    unfold targets
    rcases hab with ⟨rfl, rfl⟩ | ⟨rfl, rfl⟩ <;> simp [cfgN, cfgD, List.range_succ, h7]
  have st : ((s.cache a).slot 1).status = .uc := by unfold Line.status; simp [l1, l3, l4, l5]
  -- the home node picks `b`'s request and snoops `a`
  obtain ⟨s1, e1, k, c1, k1, k2, k3, k4, k5, k6, k7, k8, k9, k10, f1, p1, q1⟩ : ∃ s1, step cfgN s (.pick b) = .next s1 [] ∧
      ∃ k, s1.cur = some k ∧ k.src = b ∧ k.kind = .readUnique ∧ k.tag = 1 ∧ k.fwd = false ∧
        k.snp = (fun j => if j = a then .sent else .off) ∧ k.shared = false ∧ k.pd = false ∧ k.got = false ∧
        k.ptl = false ∧ k.phase = .snoop ∧ s1.filt = s.filt ∧ s1.cache a = s.cache a ∧
        (s1.cache b).pc = some { fillReq (mine b) .readUnique false with st := .active } := by
    refine ⟨{ setCache s b (setSt (s.cache b) .active) with cur := some (newCur cfgN s b (fillReq (mine b) .readUnique false)) },
      ?_, newCur cfgN s b (fillReq (mine b) .readUnique false), rfl, ?_⟩
    · simp only [step, stepPick, h1, h6]
      rfl
    · have en : newCur cfgN s b (fillReq (mine b) .readUnique false) = cur0 cfgN s b (fillReq (mine b) .readUnique false) := by
        rw [newCur_eq]
        refine if_pos ?_
        rw [show (fillReq (mine b) .readUnique false).tag = 1 from rfl, t]
        rfl
      rw [en]
      refine ⟨rfl, rfl, rfl, rfl, ?_, rfl, rfl, rfl, rfl, rfl, rfl, cache_set_ne _ _ hne, ?_⟩
      · funext j
        show (if ((snpOp _ Kind.readUnique).isSome && (targets cfgN s b 1).contains j) = true then SnpSt.sent else .off) = _
        rw [t]
        by_cases c : j = a <;> simp [c, snpOp]
      · refine (congrArg Cache.pc (cache_set s b _)).trans ?_
        unfold setSt; simp only [h6, Option.map_some]
  -- the snoop takes the line
  obtain ⟨s2, e2, k', c2, g1, g2, g3, g5, g6, g7, g8, g9, g10, f2, p2, q2, r2⟩ : ∃ s2, step cfgN s1 (.snoop a) = .next s2 [] ∧
      ∃ k', s2.cur = some k' ∧ k'.src = b ∧ k'.kind = .readUnique ∧ k'.tag = 1 ∧
        k'.snp = (fun j => if j = a then .handled (rsp false false true false none) else .off) ∧ k'.shared = false ∧
        k'.pd = false ∧ k'.got = false ∧
        k'.ptl = false ∧ k'.phase = .snoop ∧ s2.filt = s.filt ∧ (s2.cache a).pc = (s.cache a).pc ∧
        ((s2.cache a).slot 1).valid = false ∧
        (s2.cache b).pc = some { fillReq (mine b) .readUnique false with st := .active } := by
    have sl : snpLine .unique 1 ((s.cache a).slot 1) = ({ (s.cache a).slot 1 with valid := false }, rsp false false true false none) := by
      unfold snpLine
      rw [if_pos ⟨l1, l2⟩]
      show snpUnique _ = _
      unfold snpUnique
      rw [st]
    refine ⟨{ setCache s1 a { s1.cache a with slot := upd (s1.cache a).slot 1 (snpLine .unique 1 ((s1.cache a).slot 1)).1 } with
        cur := some { k with snp := upd k.snp a (.handled (snpLine .unique 1 ((s1.cache a).slot 1)).2) } }, ?_,
        { k with snp := upd k.snp a (.handled (snpLine .unique 1 ((s1.cache a).slot 1)).2) }, rfl, k1, k2, k3, ?_,
        k6, k7, k8, k9, k10, f1, ?_, ?_, ?_⟩
    · simp only [step, stepSnoop, c1]
      rw [k5, k4, k2, k3]
      simp only [if_true]
      rfl
    · show upd k.snp a _ = _
      rw [p1, sl, k5]
      funext j
      by_cases c : j = a
      · rw [c, upd_same, if_pos rfl]
      · rw [upd_ne _ _ _ c, if_neg c, if_neg c]
    · refine (congrArg Cache.pc (cache_set s1 a _)).trans ?_
      show (s1.cache a).pc = _
      rw [p1]
    · refine (congrArg (fun c : Cache => (c.slot 1).valid) (cache_set s1 a _)).trans ?_
      show ((upd (s1.cache a).slot 1 (snpLine .unique 1 ((s1.cache a).slot 1)).1) 1).valid = false
      rw [upd_same, p1, sl]
    · exact (congrArg Cache.pc (cache_set_ne s1 _ hne.symm)).trans q1
  -- its answer reaches the home node, with the data
  obtain ⟨s3, e3, m, c3, m1, m2, m3, ⟨da, m4⟩, f3, p3, q3, r3⟩ : ∃ s3, step cfgN s2 (.resp a noBytes) = .next s3 [] ∧
      ∃ m, s3.cur = some m ∧ m.src = b ∧ m.kind = .readUnique ∧ m.tag = 1 ∧
        (∃ da : Data × Be, m.phase = .dat ⟨true, false, false⟩ da.1 (some da.2)) ∧ True ∧ (s3.cache a).pc = (s.cache a).pc ∧
        ((s3.cache a).slot 1).valid = false ∧
        (s3.cache b).pc = some { fillReq (mine b) .readUnique false with st := .active } := by
    refine ⟨{ s2 with
        filt := updFilt s2.filt a k'.tag false
        cur := some (takeResp cfgN k' a (rsp false false true false none) ((s2.cache a).slot 1) noBytes) }, ?_, _, rfl, ?_⟩
    · simp only [step, stepResp, c2]
      rw [g5, g3]
      simp only [if_true]
      rfl
    · rw [takeResp_eq]
      have ad : (resp1 k' a (rsp false false true false none) ((s2.cache a).slot 1)).allDone cfgN.n = true := by
        unfold resp1 Cur.allDone
        rw [g5]
        rcases hab with ⟨rfl, rfl⟩ | ⟨rfl, rfl⟩ <;> simp [cfgN, cfgD, List.range_succ, upd]
      rw [if_pos ad]
      show _ ∧ _
      have pe : procSnpd (resp1 k' a (rsp false false true false none) ((s2.cache a).slot 1)) =
          { resp1 k' a (rsp false false true false none) ((s2.cache a).slot 1) with
            phase := .dat ⟨true, false, false⟩ (fun o => if ((s2.cache a).slot 1).be o then ((s2.cache a).slot 1).data o else 0)
              (some ((s2.cache a).slot 1).be) } := by
        unfold procSnpd
        simp [resp1, rsp, g2, g6, g7, g8, g9, Kind.isRd, Cur.grant, Kind.isOnce]
      simp only [rsp] at pe ⊢
      rw [pe]
      exact ⟨g1, g2, g3, ⟨(_, _), rfl⟩, trivial, p2, q2, r2⟩
  -- the data reaches `b`
  obtain ⟨s4, e4, m', c4, n1, n2, n3, n4, p4, q4, r4, ll⟩ : ∃ s4, step cfgN s3 .rxDat = .next s4 [] ∧
      ∃ m', s4.cur = some m' ∧ m'.src = b ∧ m'.kind = .readUnique ∧ m'.tag = 1 ∧ m'.phase = .ack ∧
        (s4.cache a).pc = (s.cache a).pc ∧ ((s4.cache a).slot 1).valid = false ∧
        (s4.cache b).pc = some { fillReq (mine b) .readUnique false with st := .done } ∧
        (((s4.cache b).slot 1).valid = true ∧ ((s4.cache b).slot 1).tag = 1 ∧ ((s4.cache b).slot 1).shared = false ∧
          ((s4.cache b).slot 1).dirty = false ∧ ((s4.cache b).slot 1).full = true) := by
    refine ⟨{ setCache s3 b
        { slot := upd (s3.cache b).slot 1 ⟨true, 1, false, false, merge ((s3.cache b).slot 1).data da.2 da.1, allBytes⟩
          pc := some { fillReq (mine b) .readUnique false with st := .done } } with
        cur := some { m with phase := .ack } }, ?_, { m with phase := .ack }, rfl, m1, m2, m3, rfl, ?_, ?_, ?_, ?_⟩
    · simp only [step, stepRxDat, c3]
      rw [m1, m4, r3]
      simp only [rxDatCache, m2]
      rfl
    · exact (congrArg Cache.pc (cache_set_ne s3 _ hne)).trans p3
    · exact (congrArg (fun c : Cache => (c.slot 1).valid) (cache_set_ne s3 _ hne)).trans q3
    · exact congrArg Cache.pc (cache_set s3 b _)
    · have e : ∀ ca : Cache, ({ setCache s3 b ca with cur := some { m with phase := .ack } } : St).cache b = ca := fun ca => cache_set s3 b ca
      rw [e]
      simp only [upd_same]
      exact ⟨trivial, trivial, trivial, trivial, by simp [Line.full, allBytes]⟩
  -- the request is finished
  have e5 : step cfgN s4 .ack = .next { s4 with filt := updFilt s4.filt b 1 true, cur := none } [] := by
    simp only [step, stepAck, c4]
    rw [n4, n1, n2, n3]
    rfl
  -- `a` runs, finds the line gone and asks for it
  have e6 : step cfgN { s4 with filt := updFilt s4.filt b 1 true, cur := none } (.resume a {}) =
      .next (setCache { s4 with filt := updFilt s4.filt b 1 true, cur := none } a
        { slot := upd (s4.cache a).slot 1 ((s4.cache a).slot 1), pc := some (fillReq (mine a) .readUnique false) }) [] := by
    have ra : resumeAt 4 a w {} (s4.cache a) = ({ slot := upd (s4.cache a).slot 1 ((s4.cache a).slot 1), pc := some (fillReq (mine a) .readUnique false) }, []) := by
      unfold resumeAt
      rw [h4, h5]
      simp only [top, topStore]
      rw [show (mine a).wr = true from rfl, show (mine a).tag % 4 = 1 from rfl]
      rw [if_pos rfl, if_neg (by rw [q4]; simp), if_pos trivial]
      simp only [clearFill, evictNext, q4]
      rfl
    simp only [step]
    rw [show (s4.cache a).pc = some w from p4.trans h2]
    simp only [h3, if_true]
    show Out.next (setCache _ a (resumeAt 4 a w {} (s4.cache a)).1) (resumeAt 4 a w {} (s4.cache a)).2 = _
    rw [ra]
  refine ⟨_, run_cons e1 (run_cons e2 (run_cons e3 (run_cons e4 (run_cons e5 (run_cons e6 rfl))))), ⟨rfl, ?_, ?_, ?_, ?_⟩⟩
  · refine ⟨{ fillReq (mine b) .readUnique false with st := .done }, ?_, rfl, rfl, rfl⟩
    exact (congrArg Cache.pc (cache_set_ne { s4 with filt := updFilt s4.filt b 1 true, cur := none } _ hne.symm)).trans r4
  · exact congrArg Cache.pc (cache_set { s4 with filt := updFilt s4.filt b 1 true, cur := none } a _)
  · rw [cache_set_ne { s4 with filt := updFilt s4.filt b 1 true, cur := none } _ hne.symm]
    exact ll
  · show updFilt s4.filt b 1 true b 1 = true
    unfold updFilt
    rw [upd_same, upd_same]

/-- `n` turns. -/
def turns : Nat → List Label
  | 0 => []
  | n + 1 => turns n ++ (take 0 1 ++ take 1 0)

/-- Both stores are started; cache 0 gets the line first. -/
def begin2 : List Label := [.start 0 (mine 0) {}, .start 1 (mine 1) {}, .pick 0, .memRead, .rxDat, .ack]

theorem held0 (m : Nat → Data) : ∃ s es, run cfgN (init m) begin2 = some (s, es) ∧ Held 0 1 s ∧
    ∀ i d, Ev.finish i d ∉ es := by
  refine ⟨_, [.begin 0 (mine 0), .begin 1 (mine 1)], rfl, ⟨rfl, ⟨_, rfl, rfl, rfl, rfl⟩, rfl, ⟨rfl, rfl, rfl, rfl, ?_⟩, rfl⟩, ?_⟩
  · exact decide_eq_true fun _ => rfl
  · intro i d; simp

/-- **Finding: two stores to one line can keep each other from ever ending.** Cache 0 and cache 1 store to
the same line. Each in turn is granted the line, loses it to the other's request before its own CPU side
runs again, and asks anew. Both CPU sides run in every turn and the home node serves every request, yet
after any number of turns neither store has ended. -/
theorem stores_can_starve (m : Nat → Data) (n : Nat) : ∃ s es, run cfgN (init m) (begin2 ++ turns n) = some (s, es) ∧
    Waiting s 0 ∧ Waiting s 1 ∧ ∀ i d, Ev.finish i d ∉ es := by
  obtain ⟨s0, es, r, h, f⟩ := held0 m
  have : ∃ s, run cfgN s0 (turns n) = some (s, []) ∧ Held 0 1 s := by
    induction n with
    | zero => exact ⟨s0, rfl, h⟩
    | succ n ih =>
      obtain ⟨s, a, b⟩ := ih
      obtain ⟨s1, a1, b1⟩ := take_turns (.inl ⟨rfl, rfl⟩) b
      obtain ⟨s2, a2, b2⟩ := take_turns (.inr ⟨rfl, rfl⟩) b1
      exact ⟨s2, run_cat _ a (run_cat _ a1 a2), b2⟩
  obtain ⟨s, a, b⟩ := this
  refine ⟨s, _, run_cat _ r a, ?_, ?_, by rw [List.append_nil]; exact f⟩
  · obtain ⟨w, x, _⟩ := b.pca
    unfold Waiting; rw [x]; nofun
  · unfold Waiting; rw [b.pcb]; nofun

end Verif.ChiLive
