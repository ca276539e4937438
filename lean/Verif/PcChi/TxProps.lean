import Verif.PcChi.TxSnp

/-! # Transactions: what is reported -/

namespace Verif.PcChi

theorem at_none (s : St) (i : Option Nat) (f : Txn → Option Txn) (h : ∀ t, f t = none) : s.at i f = none := by
  unfold St.at
  split
  · rfl
  · split
    · rfl
    · rw [h]; rfl

theorem txDat_none_of (t : Txn) (d : Dat) (h2 : d.op ≠ 2) (h3 : d.op ≠ 3) (hc : d.op ≠ 0xc) : t.txDat d = none := by
  rcases t with ⟨r, f, i⟩
  cases f <;> simp [Txn.txDat, h2, h3, hc]

theorem sent_cases (op : Nat) (l : L) (h : sentL op = some l) : op = 2 ∨ op = 3 ∨ op = 0xc := by
  unfold sentL at h; split at h <;> simp_all

theorem sent_none (op : Nat) (h : sentL op = none) : op ≠ 2 ∧ op ≠ 3 ∧ op ≠ 0xc := by
  unfold sentL at h; split at h <;> simp_all

theorem txDat_iff (S : Spec) (hS : Inv S) (d : Dat) (hl : ¬ isLink d.op d.txn) (hF : Fair S (.txDat d)) :
    (∀ S', Step S (.txDat d) S' → txDat (toSt S) d = some (toSt S')) ∧
    (∀ s', txDat (toSt S) d = some s' → ∃ S', Step S (.txDat d) S' ∧ s' = toSt S') := by
  obtain ⟨h7, f1, f2, f3⟩ := hF
  rcases hs : sentL d.op with _ | l
  · obtain ⟨n2, n3, nc⟩ := sent_none _ hs
    by_cases h4 : d.op = 4
    · obtain ⟨fc, ff⟩ := f2 h4
      have e : txDat (toSt S) d = (toSt S).fwdTo (handle (fun x => x.done && x.snp.fwdNid == d.tgt && x.snp.fwdTxn == d.txn) (·.txDat d) SFwd.over (S.fwd.map toFwd)) := by
        unfold txDat
        rw [at_none _ _ _ (fun t => txDat_none_of t d n2 n3 nc), h4]; rfl
      have t := turns_iff (fun x => x.done && x.snp.fwdNid == d.tgt && x.snp.fwdTxn == d.txn) (fun x => x.txDat d) SFwd.over toFwd
        (fun x => x.snp.fwdNid = d.tgt ∧ x.snp.fwdTxn = d.txn ∧ .copy ∉ x.word ∧ .resp ∉ x.word)
        (fun x => if .fwded ∈ x.word then none else some { x with word := x.word ++ [.copy] }) S.fwd
        (by
          rintro x hx ⟨a, b, c, _⟩
          simp [toFwd, a, b, ff x hx a b])
        (by
          rintro x hx ⟨a, b, c, _⟩
          have hf := ff x hx a b
          exact ⟨⟨x.snp, true, true⟩, by simp [toFwd, SFwd.txDat, hf, c, h4], by simp [SFwd.over, hf]⟩)
        (by
          intro x hx a b
          have a : .fwded ∈ x.word ∧ x.snp.fwdNid = d.tgt ∧ x.snp.fwdTxn = d.txn := by simpa [toFwd, and_assoc] using a
          have : x.word = [.fwded] := by
            rcases hS.fwd x hx with w | w
            · rw [w] at a; simp at a
            · exact w
          exact absurd ⟨a.2.1, a.2.2, by simp [this], by simp [this]⟩ b)
        (by
          refine Nat.le_trans (List.countP_mono_left ?_) fc
          intro x hx
          simp [toFwd]
          intro _ a b; exact ⟨a, b⟩)
      rw [e]
      constructor
      · rintro S' (h | ⟨l, i, o, h, _⟩ | ⟨_, f, rfl, h⟩ | ⟨h, _⟩)
        · exact absurd h.1 hl
        · rw [hs] at h; cases h
        · rw [t.1 f h]; rfl
        · rw [h4] at h; simp at h
      · intro s' h
        rcases hh : handle (fun x => x.done && x.snp.fwdNid == d.tgt && x.snp.fwdTxn == d.txn) (·.txDat d) SFwd.over (S.fwd.map toFwd) with _ | m'
        · rw [hh] at h; cases h
        · obtain ⟨l', ht, rfl⟩ := t.2 m' hh
          rw [hh] at h
          exact ⟨_, .inr (.inr (.inl ⟨h4, l', rfl, ht⟩)), (Option.some.inj h).symm⟩
    · by_cases ha : d.op ∈ [1, 5, 6]
      · have t := answer_dat S hS d ha (f3 ha)
        constructor
        · rintro S' (h | ⟨l, i, o, h, _⟩ | ⟨h, _⟩ | ⟨_, h⟩)
          · exact absurd h.1 hl
          · rw [hs] at h; cases h
          · exact absurd h h4
          · exact t.1 S' h
        · intro s' h
          obtain ⟨S', a, b⟩ := t.2 s' h
          exact ⟨S', .inr (.inr (.inr ⟨ha, a⟩)), b⟩
      · have hn : txDat (toSt S) d = none := by
          have hi : isSnpDat d.op = false := by
            simp only [List.mem_cons, List.not_mem_nil, or_false, not_or] at ha
            simp [isSnpDat, ha]
          unfold txDat
          rw [at_none _ _ _ (fun t => txDat_none_of t d n2 n3 nc), handle_none _ _ _ _ (by
            intro x _ _; simp [SFwd.txDat, hi, h4]), hi]
          rfl
        constructor
        · rintro S' (h | ⟨l, i, o, h, _⟩ | ⟨h, _⟩ | ⟨h, _⟩)
          · exact absurd h.1 hl
          · rw [hs] at h; cases h
          · exact absurd h h4
          · exact absurd h ha
        · intro s' h; rw [hn] at h; cases h
  · have h23 := sent_cases _ _ hs
    have hi : isSnpDat d.op = false := by rcases h23 with e | e | e <;> rw [e] <;> rfl
    have h4 : d.op ≠ 4 := by omega
    have ha : d.op ∉ [1, 5, 6] := by
      simp only [List.mem_cons, List.not_mem_nil, or_false]; omega
    have e : txDat (toSt S) d = (toSt S).at ((toSt S).withIds d.tgt d.txn) fun t => t.txDat d := by
      unfold txDat
      rw [handle_none _ _ _ _ (by intro x _ _; simp [SFwd.txDat, hi, h4]), hi]
      cases (toSt S).at ((toSt S).withIds d.tgt d.txn) fun t => t.txDat d <;> rfl
    have t := named_to S hS d.tgt d.txn (fun t => t.txDat d) (sentL d.op) f1 (fun o ht hm => txDat_to o d ht hm)
    rw [e]
    constructor
    · rintro S' (h | ⟨l', i, o, h, ho, hid, hg⟩ | ⟨h, _⟩ | ⟨h, _⟩)
      · exact absurd h.1 hl
      · exact t.1 l' i o S' h ho hid hg
      · exact absurd h h4
      · exact absurd h ha
    · intro s' h
      obtain ⟨l', i, o, S', a, b, c, g, k⟩ := t.2 s' h
      exact ⟨S', .inr (.inl ⟨l', i, o, a, b, c, g⟩), k⟩

theorem txRsp_iff (S : Spec) (hS : Inv S) (p : Rsp) (hl : ¬ isLink p.op p.txn) (hF : Fair S (.txRsp p)) :
    (∀ S', Step S (.txRsp p) S' → txRsp (toSt S) p = some (toSt S')) ∧
    (∀ s', txRsp (toSt S) p = some s' → ∃ S', Step S (.txRsp p) S' ∧ s' = toSt S') := by
  obtain ⟨f1, f2⟩ := hF
  by_cases h2 : p.op = 2
  · obtain ⟨fs, fc, fx⟩ := f1 h2
    have ha : p.op ∉ [1, 9] := by rw [h2]; simp
    have t := named_to S hS p.tgt p.txn (fun t => t.txRsp p) (some .ack) (by rintro l ⟨⟩; exact fs) (by
      intro o ht hm
      rw [txRsp_to o p ht (fun _ => hm _ rfl)]
      simp only [Option.bind_some]
      by_cases hn : Next o.req o.word o.kind .ack
      · rw [if_pos ⟨h2, hn⟩, if_pos hn]
      · rw [if_neg (fun x => hn x.2), if_neg hn])
    have e : txRsp (toSt S) p = orElse ((toSt S).at ((toSt S).withIds p.tgt p.txn) fun t => t.txRsp p)
        ((toSt S).stashTo (handle (fun x => x.ids == some (p.tgt, p.txn)) (·.txRsp p) SStash.over (S.stash.map toStash))) := by
      unfold txRsp stashRsp; rw [h2]; rfl
    have u := turns_iff (fun x => x.ids == some (p.tgt, p.txn)) (fun x => x.txRsp p) SStash.over toStash
      (fun x => x.ids = some (p.tgt, p.txn) ∧ x.word = [.pull, .copy]) (fun _ => none) S.stash
      (by rintro x hx ⟨a, b⟩; simpa [toStash] using a)
      (by
        rintro x hx ⟨a, b⟩
        exact ⟨⟨x.snp, true, true, true, true, x.ids, x.pull⟩, by simp [toStash, SStash.txRsp, b, h2], by simp [SStash.over]⟩)
      (by
        intro x hx a b
        have a : x.ids = some (p.tgt, p.txn) := by simpa [toStash] using a
        rcases hS.stash x hx with w | w | w
        · rw [w.2] at a; cases a
        · rw [w.2] at a; cases a
        · exact absurd ⟨a, w.1⟩ b)
      (by simpa [toStash] using fc)
    rw [e]
    constructor
    · rintro S' (h | ⟨_, i, o, ho, hid, hg⟩ | ⟨_, l, rfl, h⟩ | ⟨h, _⟩)
      · exact absurd h.1 hl
      · rw [t.1 .ack i o S' rfl ho hid hg]; rfl
      · have : (toSt S).withIds p.tgt p.txn = none := by
          apply withIds_none S hS
          intro i o ho hid
          obtain ⟨x, hx, hP⟩ := turns_ex h
          exact fx i o x ho hx hid hP.1
        rw [this, u.1 l h]; rfl
      · exact absurd h ha
    · intro s' h
      rcases hh : (toSt S).at ((toSt S).withIds p.tgt p.txn) fun t => t.txRsp p with _ | s2
      · rw [hh] at h
        rcases hq : handle (fun x => x.ids == some (p.tgt, p.txn)) (·.txRsp p) SStash.over (S.stash.map toStash) with _ | m'
        · rw [hq] at h; cases h
        · obtain ⟨l', ht, rfl⟩ := u.2 m' hq
          rw [hq] at h
          exact ⟨_, .inr (.inr (.inl ⟨h2, l', rfl, ht⟩)), (Option.some.inj h).symm⟩
      · obtain ⟨l, i, o, S', a, b, c, g, k⟩ := t.2 s2 hh
        cases a
        rw [hh] at h
        have : s' = s2 := (Option.some.inj h).symm
        exact ⟨S', .inr (.inl ⟨h2, i, o, b, c, g⟩), by rw [this, k]⟩
  · by_cases ha : p.op ∈ [1, 9]
    · have t := answer_rsp S hS p ha (f2 ha)
      constructor
      · rintro S' (h | ⟨h, _⟩ | ⟨h, _⟩ | ⟨_, h⟩)
        · exact absurd h.1 hl
        · exact absurd h h2
        · exact absurd h h2
        · exact t.1 S' h
      · intro s' h
        obtain ⟨S', a, b⟩ := t.2 s' h
        exact ⟨S', .inr (.inr (.inr ⟨ha, a⟩)), b⟩
    · have hn : txRsp (toSt S) p = none := by
        have ha' : p.op ≠ 1 ∧ p.op ≠ 9 := by simpa using ha
        have hi : isSnpRsp p.op = false := by simp [isSnpRsp, ha']
        unfold txRsp
        rw [at_none _ _ _ (fun t => by rcases t with ⟨r, f, i⟩; cases f <;> simp [Txn.txRsp, h2]), hi]
        simp [orElse, stashRsp, ha', h2]
      constructor
      · rintro S' (h | ⟨h, _⟩ | ⟨h, _⟩ | ⟨h, _⟩)
        · exact absurd h.1 hl
        · exact absurd h h2
        · exact absurd h h2
        · exact absurd h ha
      · intro s' h; rw [hn] at h; cases h

theorem rxDat_iff (S : Spec) (hS : Inv S) (d : Dat) (hl : ¬ isLink d.op d.txn) (hF : Fair S (.rxDat d)) :
    (∀ S', Step S (.rxDat d) S' → rxDat (toSt S) d = some (toSt S')) ∧
    (∀ s', rxDat (toSt S) d = some s' → ∃ S', Step S (.rxDat d) S' ∧ s' = toSt S') := by
  obtain ⟨f1, f2⟩ := hF
  rcases ho : S.req d.txn with _ | o
  · have e : rxDat (toSt S) d = (toSt S).stashTo (handle (fun x => x.exp && d.txn == x.pullId) (·.rxDat d) (fun _ => false) (S.stash.map toStash)) := by
      unfold rxDat
      have : (toSt S).txn d.txn = none := by simp [toSt, ho]
      rw [this]; rfl
    rw [e]
    by_cases h4 : d.op = 4
    · have u := turns_iff (fun x => x.exp && d.txn == x.pullId) (fun x => x.rxDat d) (fun _ => false) toStash
        (fun x => x.word = [.pull] ∧ x.pull = d.txn)
        (fun x => some { x with word := [.pull, .copy], ids := some (d.home, d.dbid) }) S.stash
        (by rintro x hx ⟨a, b⟩; simp [toStash, a, b])
        (by
          rintro x hx ⟨a, b⟩
          exact ⟨_, by simp [toStash, SStash.rxDat, a, h4]; rfl, by simp [toStash]⟩)
        (by
          intro x hx a b
          have a : .pull ∈ x.word ∧ d.txn = x.pull := by simpa [toStash] using a
          rcases hS.stash x hx with w | w | w
          · rw [w.1] at a; simp at a
          · exact absurd ⟨w.1, a.2.symm⟩ b
          · simp [toStash, SStash.rxDat, w.1])
        (by
          refine Nat.le_trans (Nat.le_of_eq ?_) f2
          congr 1
          funext x
          simp [toStash, Bool.beq_comm (a := d.txn), List.contains_iff_mem, BEq.comm (a := d.txn)])
      constructor
      · rintro S' (h | ⟨l, _, o', h, _⟩ | ⟨_, l, rfl, h⟩)
        · exact absurd h.1 hl
        · rw [ho] at h; cases h
        · rw [u.1 l h]; rfl
      · intro s' h
        rcases hq : handle (fun x => x.exp && d.txn == x.pullId) (·.rxDat d) (fun _ => false) (S.stash.map toStash) with _ | m'
        · rw [hq] at h; cases h
        · obtain ⟨l', ht, rfl⟩ := u.2 m' hq
          rw [hq] at h
          exact ⟨_, .inr (.inr ⟨h4, l', rfl, ht⟩), (Option.some.inj h).symm⟩
    · constructor
      · rintro S' (h | ⟨l, _, o', h, _⟩ | ⟨h, _⟩)
        · exact absurd h.1 hl
        · rw [ho] at h; cases h
        · exact absurd h h4
      · intro s' h
        rw [handle_none _ _ _ _ (by intro x _ _; simp [SStash.rxDat, h4])] at h
        cases h
  · obtain ⟨fs, fm, fx⟩ := f1 o ho
    have hids : datIds S d = if o.kind = .read then some (d.home, d.dbid) else none := by
      unfold datIds; rw [ho]
    have e : rxDat (toSt S) d = (toSt S).at (some d.txn) fun t => t.rxDat d := by
      unfold rxDat
      have : (toSt S).txn d.txn = some (toTxn o) := by simp [toSt, ho]
      rw [this]
    have t := at_to S d.txn o (fun t => t.rxDat d) (datL d.op) (datIds S d) ho (by rw [hids]; exact rxDat_to o d fs fm)
    rw [e]
    constructor
    · rintro S' (h | ⟨l, h, hg⟩ | ⟨_, l, _, h⟩)
      · exact absurd h.1 hl
      · exact t.1 l S' h hg
      · obtain ⟨x, hx, hP⟩ := turns_ex h
        exact absurd hP.2 (fx x hx (by rw [hP.1]; simp))
    · intro s' h
      obtain ⟨l, S', a, g, k⟩ := t.2 s' h
      exact ⟨S', .inr (.inl ⟨l, a, g⟩), k⟩

theorem rxRsp_iff (S : Spec) (p : Rsp) (hl : ¬ isLink p.op p.txn) (h7 : p.op ≠ 7) (hF : Fair S (.rxRsp p)) :
    (∀ S', Step S (.rxRsp p) S' → rxRsp (toSt S) p = some (toSt S')) ∧
    (∀ s', rxRsp (toSt S) p = some s' → ∃ S', Step S (.rxRsp p) S' ∧ s' = toSt S') := by
  rcases ho : S.req p.txn with _ | o
  · have e : rxRsp (toSt S) p = none := by
      unfold rxRsp
      have : (toSt S).txn p.txn = none := by simp [toSt, ho]
      rw [this]
    constructor
    · rintro S' (h | h | ⟨_, o', h, _⟩ | ⟨l, _, o', h, _⟩)
      · exact absurd h.1 hl
      · exact absurd h.1 h7
      · rw [ho] at h; cases h
      · rw [ho] at h; cases h
    · intro s' h; rw [e] at h; cases h
  · obtain ⟨f3, fm⟩ := hF o ho
    have ht : (toSt S).txn p.txn = some (toTxn o) := by simp [toSt, ho]
    by_cases h3 : p.op = 3
    · have e : rxRsp (toSt S) p = some (toSt { S with req := fun j => if j = p.txn then none else S.req j }) := by
        unfold rxRsp
        rw [ht, h3]
        simp only [beq_self_eq_true, if_true, Option.some.injEq]
        unfold toSt
        simp only [St.mk.injEq, and_true]
        funext j
        by_cases hj : j = p.txn <;> simp [hj]
      rw [e]
      constructor
      · rintro S' (h | h | ⟨_, o', _, _, _, rfl⟩ | ⟨l, h, _⟩)
        · exact absurd h.1 hl
        · exact absurd h.1 h7
        · rfl
        · rw [h3] at h; cases h
      · intro s' h
        exact ⟨_, .inr (.inr (.inl ⟨h3, o, ho, (f3 h3).1, (f3 h3).2, rfl⟩)), (Option.some.inj h).symm⟩
    · have e : rxRsp (toSt S) p = (toSt S).at (some p.txn) fun t => t.rxRsp p := by
        unfold rxRsp; rw [ht]; simp [h3]
      have t := at_to S p.txn o (fun t => t.rxRsp p) (rspL p.op) (rspIds p) ho (rxRsp_to o p fm)
      rw [e]
      constructor
      · rintro S' (h | h | ⟨h, _⟩ | ⟨l, h, hg⟩)
        · exact absurd h.1 hl
        · exact absurd h.1 h7
        · exact absurd h h3
        · exact t.1 l S' h hg
      · intro s' h
        obtain ⟨l, S', a, g, k⟩ := t.2 s' h
        exact ⟨S', .inr (.inr (.inr ⟨l, a, g⟩)), k⟩

theorem kind_row : ∀ op, op < 64 → kindOf op = (row op).bind (·.kind) := by decide +kernel

theorem snp_iff (S : Spec) (n : Snp) (hF : Fair S (.snp n)) :
    (∀ S', Step S (.snp n) S' → sampleSnp (toSt S) n = toSt S') ∧ ∃ S', Step S (.snp n) S' := by
  unfold Step
  dsimp only
  have hb : (n.op == 0 && n.txn == 0) = decide (isLink n.op n.txn) := by
    rw [Bool.eq_iff_iff, decide_eq_true_eq]; simp [isLink]
  by_cases hl : isLink n.op n.txn
  · constructor
    · intro S' h
      rw [if_pos hl] at h; subst h
      unfold sampleSnp; rw [hb]; simp [hl]
    · exact ⟨S, by rw [if_pos hl]⟩
  · by_cases h1 : n.op ∈ [0x11, 0x12, 0x13, 0x14, 0x17]
    · have h1' : isFwd n.op = true := by unfold isFwd; rwa [List.contains_iff_mem]
      constructor
      · intro S' h; rw [if_neg hl, if_pos h1] at h; subst h
        unfold sampleSnp; rw [hb]; simp [hl, h1', toSt, toFwd]
      · exact ⟨_, by rw [if_neg hl, if_pos h1]⟩
    · have h1' : isFwd n.op = false := by
        rw [Bool.eq_false_iff]; unfold isFwd; rwa [ne_eq, List.contains_iff_mem]
      by_cases h2 : n.op ∈ [5, 6, 0xb, 0xc]
      · have h2' : isStash n.op = true := by unfold isStash; rwa [List.contains_iff_mem]
        have hd : n.op ≠ 0xd := by
          simp only [List.mem_cons, List.not_mem_nil, or_false] at h2; omega
        constructor
        · intro S' h; rw [if_neg hl, if_neg h1, if_pos h2] at h; subst h
          unfold sampleSnp; rw [hb]; simp [hl, h1', h2', hd, toSt, toStash]
        · exact ⟨_, by rw [if_neg hl, if_neg h1, if_pos h2]⟩
      · have h2' : isStash n.op = false := by
          rw [Bool.eq_false_iff]; unfold isStash; rwa [ne_eq, List.contains_iff_mem]
        by_cases h3 : n.op = 0xd ∧ ∃ x ∈ S.plain, x.snp.txn = n.txn
        · obtain ⟨fc, ff⟩ := hF h3.1
          constructor
          · intro S' h; rw [if_neg hl, if_neg h1, if_neg h2, if_pos h3] at h
            obtain ⟨l, rfl, a, x, b, e, hP, rfl⟩ := h
            unfold sampleSnp; rw [hb]
            have : (toSt S).plain.any (fun x => x.snp.txn == n.txn) = true := by
              rw [List.any_eq_true]
              exact ⟨toPlain x, List.mem_map.mpr ⟨x, by rw [e]; simp, rfl⟩, by simpa [toPlain] using hP.1⟩
            have hd : (n.op == 0xd) = true := by rw [h3.1]; rfl
            rw [if_neg (by simpa using hl), if_neg (by rw [h1']; exact Bool.false_ne_true), if_pos hd, if_pos this]
            simp [toSt, e, toPlain]
          · obtain ⟨x, hx, ht⟩ := h3.2
            obtain ⟨a, b, e⟩ := List.append_of_mem hx
            exact ⟨_, by
              rw [if_neg hl, if_neg h1, if_neg h2, if_pos h3]
              exact ⟨_, rfl, a, x, b, e, ⟨ht, ff x hx ht⟩, rfl⟩⟩
        · constructor
          · intro S' h; rw [if_neg hl, if_neg h1, if_neg h2, if_neg h3] at h; subst h
            unfold sampleSnp; rw [hb]
            by_cases hd : n.op = 0xd
            · have : (toSt S).plain.any (fun x => x.snp.txn == n.txn) = false := by
                rw [List.any_eq_false]
                intro z hz
                obtain ⟨x, hx, rfl⟩ := List.mem_map.mp hz
                intro hp
                exact h3 ⟨hd, x, hx, by simpa [toPlain] using hp⟩
              have hd' : (n.op == 0xd) = true := by rw [hd]; rfl
              rw [if_neg (by simpa using hl), if_neg (by rw [h1']; exact Bool.false_ne_true), if_pos hd', this]
              simp [toSt, toPlain]
            · simp [hl, h1', hd, h2', toSt, toPlain]
          · exact ⟨_, by rw [if_neg hl, if_neg h1, if_neg h2, if_neg h3]⟩

theorem req_iff (S : Spec) (r : Req) (hF : Fair S (.req r)) :
    (∀ S', Step S (.req r) S' → sampleReq (toSt S) r = (toSt S', [])) ∧
    ((sampleReq (toSt S) r).2 = [] → ∃ S', Step S (.req r) S') := by
  obtain ⟨h64, h256, h4⟩ := hF
  have hq : (r.op != 0x3a && r.op != 5 && !(r.op == 0 && r.txn == 0)) = true ↔ ¬ Quick r := by
    unfold Quick isLink
    simp only [Bool.and_eq_true, bne_iff_ne, Bool.not_eq_true', Bool.and_eq_false_iff, beq_eq_false_iff_ne]
    constructor
    · rintro ⟨⟨a, b⟩, c⟩ (d | d | d)
      · exact c.elim (fun c => c d.1) (fun c => c d.2)
      · exact b d
      · exact a d
    · intro h
      refine ⟨⟨fun e => h (.inr (.inr e)), fun e => h (.inr (.inl e))⟩, ?_⟩
      by_cases e : r.op = 0
      · right; intro f; exact h (.inl ⟨e, f⟩)
      · exact .inl e
  by_cases q : Quick r
  · have hk : kindOf r.op = none := by
      rcases q with q | q | q
      · rw [q.1]; rfl
      · rw [q]; rfl
      · rw [q]; rfl
    have e : sampleReq (toSt S) r = (toSt S, []) := by
      unfold sampleReq
      rw [hk, if_neg (fun x => hq.mp x q)]
    rw [e]
    refine ⟨?_, fun _ => ⟨S, .inl ⟨q, rfl⟩⟩⟩
    rintro S' (⟨_, rfl⟩ | ⟨h, _⟩)
    · rfl
    · exact absurd q h
  · have e2 : (sampleReq (toSt S) r).2 = err (S.req r.txn).isNone .dup := by
      unfold sampleReq
      rw [if_pos (hq.mpr q)]
      simp [toSt]
    constructor
    · rintro S' (⟨h, _⟩ | ⟨_, hn, rfl⟩)
      · exact absurd h q
      · refine Prod.ext ?_ (by rw [e2, hn]; rfl)
        unfold sampleReq
        rw [kind_row _ h64]
        rcases (row r.op).bind (·.kind) with _ | k
        · rfl
        · dsimp only
          rw [mkTxn_to r k h4]
          unfold toSt
          simp only [St.mk.injEq, and_true]
          funext j
          by_cases hj : j = r.txn <;> simp [hj]
    · intro h
      rw [e2, err_nil] at h
      exact ⟨_, .inr ⟨q, by simpa using h, rfl⟩⟩

theorem step_iff (S : Spec) (hS : Inv S) (e : Ev) (hF : Fair S e) :
    (∀ S', Step S e S' → step (toSt S) e = (toSt S', [])) ∧ ((step (toSt S) e).2 = [] → ∃ S', Step S e S') := by
  have lk : ∀ a b : Nat, (a == 0 && b == 0) = decide (isLink a b) := by
    intro a b; rw [Bool.eq_iff_iff, decide_eq_true_eq]; simp [isLink]
  have op : ∀ (x : Option St) (er : TErr) (P : Spec → Prop), (∀ S', P S' → x = some (toSt S')) → (∀ s', x = some s' → ∃ S', P S' ∧ s' = toSt S') →
      (∀ S', P S' → opt (toSt S) er x = (toSt S', [])) ∧ ((opt (toSt S) er x).2 = [] → ∃ S', P S') := by
    intro x er P h1 h2
    constructor
    · intro S' h; rw [h1 S' h]; rfl
    · intro h
      rcases x with _ | s'
      · cases h
      · obtain ⟨S', a, _⟩ := h2 s' rfl; exact ⟨S', a⟩
  cases e with
  | req r => exact req_iff S r hF
  | txDat d =>
    by_cases hl : isLink d.op d.txn
    · have e : step (toSt S) (.txDat d) = (toSt S, []) := by unfold step; dsimp only; rw [lk]; simp [hl]
      rw [e]
      refine ⟨?_, fun _ => ⟨S, .inl ⟨hl, rfl⟩⟩⟩
      rintro S' (⟨_, rfl⟩ | ⟨l, i, o, h, _⟩ | ⟨h, _⟩ | ⟨h, _⟩)
      · rfl
      · rw [hl.1] at h; cases h
      · rw [hl.1] at h; cases h
      · rw [hl.1] at h; simp at h
    · have e : step (toSt S) (.txDat d) = opt (toSt S) .txDat (txDat (toSt S) d) := by unfold step; dsimp only; rw [lk]; simp [hl]
      rw [e]
      have t := txDat_iff S hS d hl hF
      exact op _ _ _ t.1 t.2
  | txRsp p =>
    by_cases hl : isLink p.op p.txn
    · have e : step (toSt S) (.txRsp p) = (toSt S, []) := by unfold step; dsimp only; rw [lk]; simp [hl]
      rw [e]
      refine ⟨?_, fun _ => ⟨S, .inl ⟨hl, rfl⟩⟩⟩
      rintro S' (⟨_, rfl⟩ | ⟨h, _⟩ | ⟨h, _⟩ | ⟨h, _⟩)
      · rfl
      · rw [hl.1] at h; cases h
      · rw [hl.1] at h; cases h
      · rw [hl.1] at h; simp at h
    · have e : step (toSt S) (.txRsp p) = opt (toSt S) .txRsp (txRsp (toSt S) p) := by unfold step; dsimp only; rw [lk]; simp [hl]
      rw [e]
      have t := txRsp_iff S hS p hl hF
      exact op _ _ _ t.1 t.2
  | rxDat d =>
    by_cases hl : isLink d.op d.txn
    · have e : step (toSt S) (.rxDat d) = (toSt S, []) := by unfold step; dsimp only; rw [lk]; simp [hl]
      rw [e]
      refine ⟨?_, fun _ => ⟨S, .inl ⟨hl, rfl⟩⟩⟩
      rintro S' (⟨_, rfl⟩ | ⟨l, h, _⟩ | ⟨h, _⟩)
      · rfl
      · rw [hl.1] at h; cases h
      · rw [hl.1] at h; cases h
    · have e : step (toSt S) (.rxDat d) = opt (toSt S) .rxDat (rxDat (toSt S) d) := by unfold step; dsimp only; rw [lk]; simp [hl]
      rw [e]
      have t := rxDat_iff S hS d hl hF
      exact op _ _ _ t.1 t.2
  | rxRsp p =>
    by_cases hl : isLink p.op p.txn
    · have e : step (toSt S) (.rxRsp p) = (toSt S, []) := by unfold step; dsimp only; rw [lk]; simp [hl]
      rw [e]
      refine ⟨?_, fun _ => ⟨S, .inl ⟨hl, rfl⟩⟩⟩
      rintro S' (⟨_, rfl⟩ | ⟨h, _⟩ | ⟨h, _⟩ | ⟨l, h, _⟩)
      · rfl
      · rw [hl.1] at h; cases h
      · rw [hl.1] at h; cases h
      · rw [hl.1] at h; cases h
    · by_cases h7 : p.op = 7
      · have e : step (toSt S) (.rxRsp p) = (toSt S, []) := by unfold step; dsimp only; rw [lk]; simp [hl, h7]
        rw [e]
        refine ⟨?_, fun _ => ⟨S, .inr (.inl ⟨h7, rfl⟩)⟩⟩
        rintro S' (⟨h, _⟩ | ⟨_, rfl⟩ | ⟨h, _⟩ | ⟨l, h, _⟩)
        · exact absurd h hl
        · rfl
        · rw [h7] at h; cases h
        · rw [h7] at h; cases h
      · have e : step (toSt S) (.rxRsp p) = opt (toSt S) .rxRsp (rxRsp (toSt S) p) := by unfold step; dsimp only; rw [lk]; simp [hl, h7]
        rw [e]
        have t := rxRsp_iff S p hl h7 hF
        exact op _ _ _ t.1 t.2
  | snp n =>
    have t := snp_iff S n hF
    refine ⟨?_, fun _ => t.2⟩
    intro S' h
    have e : step (toSt S) (.snp n) = (sampleSnp (toSt S) n, []) := rfl
    rw [e, t.1 S' h]

/-! ## What stays true -/

/-- The flits that tell the identifiers. -/
def tells : Kind → L → Bool
  | .read, .compData => true | .read, .sepData => true | .read, .sepResp => true
  | .dataless, .comp => true | .atomic, .dbid => true
  | .write, .comp => true | .write, .dbid => true | .write, .compDbid => true
  | _, _ => false

theorem told_app (r : Req) (w : List L) (k : Kind) (l : L) (ids : Option (Nat × Nat)) (h : Next r w k l)
    (hi : ids.isSome = tells k l) (old : Option (Nat × Nat)) (ho : old.isSome = Told w k) : (ids.or old).isSome = Told (w ++ [l]) k := by
  have e : (ids.or old).isSome = (ids.isSome || old.isSome) := by cases ids <;> simp
  rw [e, ho, hi]
  cases k <;> cases l <;> simp only [Next] at h <;> simp only [Told, m_app, tells] <;> simp

theorem goes_inv (S : Spec) (hS : Inv S) (i : Nat) (l : L) (ids : Option (Nat × Nat)) (S' : Spec) (h : Goes S i l ids S')
    (hi : ∀ o, S.req i = some o → Next o.req o.word o.kind l → ids.isSome = tells o.kind l) : Inv S' := by
  obtain ⟨o, ho, hn, rfl⟩ := h
  refine ⟨?_, ?_, hS.fwd, hS.stash, hS.plain⟩
  · intro j o' h
    dsimp only at h
    by_cases hj : j = i
    · rw [hj]; exact hS.lt i o ho
    · rw [if_neg hj] at h; exact hS.lt j o' h
  · intro j o' h
    dsimp only at h
    by_cases hj : j = i
    · rw [if_pos hj] at h
      split at h
      · cases h
      · cases h
        exact told_app o.req o.word o.kind l ids hn (hi o ho hn) o.ids (hS.told i o ho)
    · rw [if_neg hj] at h; exact hS.told j o' h

theorem answers_inv (S : Spec) (hS : Inv S) (txn op : Nat) (data pull : Bool) (dbid : Nat) (S' : Spec)
    (h : Answers S txn op data pull dbid S') : Inv S' := by
  unfold Answers at h
  dsimp only at h
  rcases h with ⟨l, rfl, h⟩ | ⟨l, rfl, h⟩ | ⟨l, rfl, h⟩
  · refine ⟨hS.lt, hS.told, ?_, hS.stash, hS.plain⟩
    intro z hz
    rcases turns_mem h z hz with h | ⟨x, hx, hP, hy⟩
    · exact hS.fwd z h
    · have hw : x.word = [] := by
        rcases hS.fwd x hx with w | w
        · exact w
        · have := hP.2.2.1; rw [w] at this; simp at this
      rw [hw] at hy
      split at hy <;> simp at hy <;> rw [← hy.2] <;> simp
  · refine ⟨hS.lt, hS.told, hS.fwd, ?_, hS.plain⟩
    intro z hz
    rcases turns_mem h z hz with h | ⟨x, hx, hP, hy⟩
    · exact hS.stash z h
    · have hids : x.ids = none := by
        rcases hS.stash x hx with w | w | w
        · exact w.2
        · exact w.2
        · have := hP.2.1; rw [w.1] at this; cases this
      cases pull
      · cases hy
      · simp at hy; rw [← hy]; exact .inr (.inl ⟨rfl, hids⟩)
  · refine ⟨hS.lt, hS.told, hS.fwd, hS.stash, ?_⟩
    intro z hz
    rcases turns_mem h z hz with h | ⟨x, hx, hP, hy⟩
    · exact hS.plain z h
    · cases hy

theorem step_inv (S : Spec) (hS : Inv S) (e : Ev) (hF : Fair S e) (S' : Spec) (h : Step S e S') : Inv S' := by
  cases e with
  | req r =>
    rcases h with ⟨_, rfl⟩ | ⟨_, _, rfl⟩
    · exact hS
    · rcases (row r.op).bind (·.kind) with _ | k
      · exact hS
      · refine ⟨?_, ?_, hS.fwd, hS.stash, hS.plain⟩
        · intro j o ho
          dsimp only at ho
          by_cases hj : j = r.txn
          · rw [hj]; exact hF.2.1
          · rw [if_neg hj] at ho; exact hS.lt j o ho
        · intro j o ho
          dsimp only at ho
          by_cases hj : j = r.txn
          · rw [if_pos hj] at ho; cases ho; cases k <;> rfl
          · rw [if_neg hj] at ho; exact hS.told j o ho
  | txDat d =>
    rcases h with ⟨_, rfl⟩ | ⟨l, i, o, hl, ho, _, hg⟩ | ⟨h4, f, rfl, h⟩ | ⟨_, h⟩
    · exact hS
    · refine goes_inv S hS i l none S' hg ?_
      intro o' _ hn
      unfold sentL at hl
      split at hl <;> cases hl <;> cases o'.kind <;> rfl
    · refine ⟨hS.lt, hS.told, ?_, hS.stash, hS.plain⟩
      intro z hz
      rcases turns_mem h z hz with h | ⟨x, hx, hP, hy⟩
      · exact hS.fwd z h
      · rw [if_pos ((hF.2.2.1 h4).2 x hx hP.1 hP.2.1)] at hy; cases hy
    · exact answers_inv S hS _ _ _ _ _ S' h
  | txRsp p =>
    rcases h with ⟨_, rfl⟩ | ⟨_, i, o, ho, _, hg⟩ | ⟨_, l, rfl, h⟩ | ⟨_, h⟩
    · exact hS
    · refine goes_inv S hS i .ack none S' hg ?_
      intro o' _ _
      cases o'.kind <;> rfl
    · refine ⟨hS.lt, hS.told, hS.fwd, ?_, hS.plain⟩
      intro z hz
      rcases turns_mem h z hz with h | ⟨x, hx, hP, hy⟩
      · exact hS.stash z h
      · cases hy
    · exact answers_inv S hS _ _ _ _ _ S' h
  | rxDat d =>
    rcases h with ⟨_, rfl⟩ | ⟨l, hl, hg⟩ | ⟨_, l, rfl, h⟩
    · exact hS
    · refine goes_inv S hS d.txn l _ S' hg ?_
      intro o ho hn
      unfold datIds
      rw [ho]
      unfold datL at hl
      split at hl <;> cases hl <;> cases hk : o.kind <;> rw [hk] at hn <;> simp [hk, tells] <;> simp [Next] at hn
    · refine ⟨hS.lt, hS.told, hS.fwd, ?_, hS.plain⟩
      intro z hz
      rcases turns_mem h z hz with h | ⟨x, hx, hP, hy⟩
      · exact hS.stash z h
      · cases hy; exact .inr (.inr ⟨rfl, by simp⟩)
  | rxRsp p =>
    rcases h with ⟨_, rfl⟩ | ⟨_, rfl⟩ | ⟨_, o, ho, _, _, rfl⟩ | ⟨l, hl, hg⟩
    · exact hS
    · exact hS
    · refine ⟨?_, ?_, hS.fwd, hS.stash, hS.plain⟩
      · intro j o' h
        dsimp only at h
        by_cases hj : j = p.txn
        · rw [if_pos hj] at h; cases h
        · rw [if_neg hj] at h; exact hS.lt j o' h
      · intro j o' h
        dsimp only at h
        by_cases hj : j = p.txn
        · rw [if_pos hj] at h; cases h
        · rw [if_neg hj] at h; exact hS.told j o' h
    · refine goes_inv S hS p.txn l _ S' hg ?_
      intro o ho hn
      unfold rspIds
      have : p.op = 0xb ∧ l = .sepResp ∨ p.op = 8 ∧ l = .receipt ∨ p.op = 4 ∧ l = .comp ∨ p.op = 6 ∧ l = .dbid ∨ p.op = 5 ∧ l = .compDbid := by
        unfold rspL at hl
        split at hl <;> cases hl <;> simp_all
      rcases this with ⟨e, rfl⟩ | ⟨e, rfl⟩ | ⟨e, rfl⟩ | ⟨e, rfl⟩ | ⟨e, rfl⟩ <;> cases hk : o.kind <;> rw [hk] at hn <;> simp [e, tells] <;> simp [Next] at hn
  | snp n =>
    unfold Step at h
    dsimp only at h
    by_cases hl : isLink n.op n.txn
    · rw [if_pos hl] at h; rw [h]; exact hS
    rw [if_neg hl] at h
    by_cases h1 : n.op ∈ [0x11, 0x12, 0x13, 0x14, 0x17]
    · rw [if_pos h1] at h; subst h
      refine ⟨hS.lt, hS.told, ?_, hS.stash, hS.plain⟩
      intro x hx
      rcases List.mem_append.mp hx with hx | hx
      · exact hS.fwd x hx
      · rw [List.mem_singleton.mp hx]; exact .inl rfl
    rw [if_neg h1] at h
    by_cases h2 : n.op ∈ [5, 6, 0xb, 0xc]
    · rw [if_pos h2] at h; subst h
      refine ⟨hS.lt, hS.told, hS.fwd, ?_, hS.plain⟩
      intro x hx
      rcases List.mem_append.mp hx with hx | hx
      · exact hS.stash x hx
      · rw [List.mem_singleton.mp hx]; exact .inl ⟨rfl, rfl⟩
    rw [if_neg h2] at h
    by_cases h3 : n.op = 0xd ∧ ∃ x ∈ S.plain, x.snp.txn = n.txn
    · rw [if_pos h3] at h
      obtain ⟨l, rfl, h⟩ := h
      refine ⟨hS.lt, hS.told, hS.fwd, hS.stash, ?_⟩
      intro z hz
      rcases turns_mem h z hz with h | ⟨x, hx, hP, hy⟩
      · exact hS.plain z h
      · cases hy; intro hd; exact absurd hP.2.1 hd
    · rw [if_neg h3] at h; subst h
      refine ⟨hS.lt, hS.told, hS.fwd, hS.stash, ?_⟩
      intro x hx
      rcases List.mem_append.mp hx with hx | hx
      · exact hS.plain x hx
      · rw [List.mem_singleton.mp hx]; intro _; rfl

theorem run_iff (es : List Ev) : ∀ S, Inv S → FairRun S es → (run (toSt S) es = [] ↔ Allowed S es) := by
  induction es with
  | nil => intro S _ _; simp [run, Allowed]
  | cons e es ih =>
    intro S hS hF
    obtain ⟨f, fr⟩ := hF
    have t := step_iff S hS e f
    rw [run, List.append_eq_nil_iff, Allowed]
    constructor
    · rintro ⟨a, b⟩
      obtain ⟨S', h⟩ := t.2 a
      rw [t.1 S' h] at b
      exact ⟨S', h, (ih S' (step_inv S hS e f S' h) (fr S' h)).mp b⟩
    · rintro ⟨S', h, b⟩
      rw [t.1 S' h]
      exact ⟨rfl, (ih S' (step_inv S hS e f S' h) (fr S' h)).mpr b⟩

theorem events_seen : Clk.events = Clk.seen := by
  funext x
  rcases x with ⟨a, b, c, d, e, f⟩
  cases a <;> cases b <;> cases c <;> cases d <;> cases e <;> cases f <;> rfl

/-- **Transactions.** Of flits that are `Fair`, however many and however they interleave, the checker reports nothing exactly if
every flit may follow the ones before it: each belongs to a request or a snoop that is outstanding and waits for it. -/
theorem transactions_exact_partial (tr : List Clk) (h : FairRun {} (tr.flatMap Clk.seen)) :
    runClk {} tr = [] ↔ Allowed {} (tr.flatMap Clk.seen) := by
  have e : ({} : St) = toSt {} := rfl
  unfold runClk
  rw [e, events_seen]
  refine run_iff _ _ ⟨?_, ?_, ?_, ?_, ?_⟩ h
  · intro i o h; cases h
  · intro i o h; cases h
  · intro x hx; cases hx
  · intro x hx; cases hx
  · intro x hx; cases hx

end Verif.PcChi
