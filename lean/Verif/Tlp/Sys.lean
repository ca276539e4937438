import Verif.Tlp.Faults

/-! # C48: the bridge under every schedule

Calls, packets received and the steps of the waiting processes in any order. -/

namespace Verif.Tlp
open Verif

/-- A call of `cfg_b_transport` or `mem_b_transport` with the packet built for it. -/
structure Call where
  id : Nat
  req : Req
  hdr : List Nat
  posted : Bool

/-- The call whose packet is in `m_tlps`: `m_done`, and status and data of its payload. -/
structure Out where
  call : Call
  done : Bool
  st : Status
  data : List Byte

/-- What the outside sees of the bridge, in order. -/
inductive Ev where
  | req (c : Call)
  | cpl (l : List Byte)
  | got (l : List Byte)
  | did (t : Dma)
  | ret (c : Call) (st : Status) (d : List Byte)
  | err (l : List Byte)

structure Sys where
  waiting : List Call := []
  out : Option Out := none
  queue : List Dma := []
  m : Mem
  log : List Ev := []

inductive Act where
  | call (id : Nat) (cfg : Bool) (r : Req)
  | send (i : Nat)
  | rx (l : List Byte)
  | ret
  | dma

/-- `transmit` (959-965): the packet is built when the call is made. -/
def doCall (s : Sys) (id : Nat) (cfg : Bool) (r : Req) : Option Sys :=
  (if cfg then conf r else mem r).map fun h =>
    { s with waiting := s.waiting ++ [⟨id, r, h, !cfg && r.gp.cmd == .write⟩] }

/-- First half of `transmitTLP` (929-942) for some waiting call, when it finds `m_tlps` empty. -/
def doSend (s : Sys) (i : Nat) : Sys :=
  match s.out, s.waiting[i]? with
  | none, some c =>
    { s with
      waiting := s.waiting.eraseIdx i
      out := some ⟨c, c.posted, if c.posted then .ok else .incomplete, c.req.gp.data⟩
      log := s.log ++ [.req c] }
  | _, _ => s

/-- Second half of `transmitTLP` (944-956), when `Done()`. -/
def doRet (s : Sys) : Sys :=
  match s.out with
  | some o => if o.done then { s with out := none, log := s.log ++ [.ret o.call o.st o.data] } else s
  | none => s

/-- `b_transport` (1002-1061) on a completion.  `keep` is what the other side has left of the header of
the request.  A completion without a request is an SC_REPORT_ERROR, here an event. -/
def doCpl (keep : List Nat → List Nat) (s : Sys) (l : List Byte) : Option Sys :=
  (rxCpl l).bind fun cs =>
    match s.out with
    | some o =>
      if reqTx (keep o.call.hdr) = cplTx cs then
        (complete o.call.req (keep o.call.hdr) cs).map fun (st, d) =>
          { s with
            out := some ⟨o.call, true, st, if st = .ok then d else o.data⟩
            log := s.log ++ [.got l] }
      else some { s with log := s.log ++ [.got l, .err l] }
    | none => some { s with log := s.log ++ [.got l, .err l] }

/-- `b_transport` (1002-1061) on any packet; the type is taken from the first byte, 0 when there is
none. -/
def doRx (keep : List Nat → List Nat) (s : Sys) (l : List Byte) : Option Sys :=
  if (l.getD 0 0).toNat % 32 = 10 then doCpl keep s l
  else if (l.getD 0 0).toNat % 32 = 0 then
    (rxMem l).map fun t => { s with queue := s.queue ++ [t], log := s.log ++ [.got l] }
  else some { s with log := s.log ++ [.got l, .err l] }

/-- One round of `dma_thread` (1140-1161).  The access and the completion are one step. -/
def doDma (s : Sys) : Option Sys :=
  match s.queue with
  | [] => some s
  | t :: q => (dma s.m t).map fun (m', c) =>
    { s with queue := q, m := m', log := s.log ++ .did t :: c.toList.map .cpl }

/-- One step; `none` is an abort. -/
def step (keep : List Nat → List Nat) (s : Sys) : Act → Option Sys
  | .call id cfg r => doCall s id cfg r
  | .send i => some (doSend s i)
  | .rx l => doRx keep s l
  | .ret => some (doRet s)
  | .dma => doDma s

/-- A schedule from the reset state. -/
def run (keep : List Nat → List Nat) (m : Mem) (as : List Act) : Option Sys :=
  as.foldlM (step keep) { m := m }

/-! ## What the log has to say -/

/-- The call `c` may return `st` and `d` when `g` are the packets received since its request was sent: it
is a memory write, or one of the packets is a completion with its identifiers that says so. -/
def Justified (keep : List Nat → List Nat) (c : Call) (g : List (List Byte)) (st : Status) (d : List Byte) : Prop :=
  (c.posted = true ∧ st = .ok ∧ d = c.req.gp.data) ∨
    ∃ l ∈ g, ∃ cs d', rxCpl l = some cs ∧ cplTx cs = reqTx (keep c.hdr) ∧
      complete c.req (keep c.hdr) cs = some (st, d') ∧ (st = .ok → d = d')

/-- Requests and returns alternate, every return is that of the request before it and is justified. -/
def Serial (keep : List Nat → List Nat) : Option (Call × List (List Byte)) → List Ev → Prop
  | _, [] => True
  | none, .req c :: t => Serial keep (some (c, [])) t
  | some _, .req _ :: _ => False
  | none, .got _ :: t => Serial keep none t
  | some (c, g), .got l :: t => Serial keep (some (c, g ++ [l])) t
  | none, .ret _ _ _ :: _ => False
  | some (c, g), .ret c' st d :: t => c' = c ∧ Justified keep c g st d ∧ Serial keep none t
  | cur, .cpl _ :: t => Serial keep cur t
  | cur, .did _ :: t => Serial keep cur t
  | cur, .err _ :: t => Serial keep cur t

/-- The request outstanding after a log, and the packets received since. -/
def after : Option (Call × List (List Byte)) → List Ev → Option (Call × List (List Byte))
  | cur, [] => cur
  | _, .req c :: t => after (some (c, [])) t
  | none, .got _ :: t => after none t
  | some (c, g), .got l :: t => after (some (c, g ++ [l])) t
  | _, .ret _ _ _ :: t => after none t
  | cur, .cpl _ :: t => after cur t
  | cur, .did _ :: t => after cur t
  | cur, .err _ :: t => after cur t

theorem after_append (a b : List Ev) (cur : Option (Call × List (List Byte))) :
    after cur (a ++ b) = after (after cur a) b := by
  induction a generalizing cur with
  | nil => rfl
  | cons e t ih =>
    cases e <;> rcases cur with _ | ⟨c, g⟩ <;> exact ih _

theorem serial_append (keep : List Nat → List Nat) (a b : List Ev) (cur : Option (Call × List (List Byte)))
    (ha : Serial keep cur a) (hb : Serial keep (after cur a) b) : Serial keep cur (a ++ b) := by
  induction a generalizing cur with
  | nil => exact hb
  | cons e t ih =>
    cases e <;> rcases cur with _ | ⟨c, g⟩ <;> first
      | exact ih _ ha hb
      | exact ⟨ha.1, ha.2.1, ih _ ha.2.2 hb⟩
      | exact False.elim ha

/-- The outstanding call and what the log says about it. -/
def Agree (keep : List Nat → List Nat) : Option Out → Option (Call × List (List Byte)) → Prop
  | none, none => True
  | some o, some (c, g) => o.call = c ∧ (o.done = true → Justified keep c g o.st o.data)
  | _, _ => False

/-- State and log agree. -/
def Inv (keep : List Nat → List Nat) (s : Sys) : Prop :=
  Serial keep none s.log ∧ Agree keep s.out (after none s.log)

theorem Justified.mono {keep : List Nat → List Nat} {c : Call} {g : List (List Byte)} {st : Status} {d : List Byte}
    (h : Justified keep c g st d) (l : List Byte) : Justified keep c (g ++ [l]) st d := by
  rcases h with h | ⟨x, hx, r⟩
  · exact Or.inl h
  · exact Or.inr ⟨x, List.mem_append_left _ hx, r⟩

theorem inv_got (keep : List Nat → List Nat) (s : Sys) (l : List Byte) (h : Inv keep s) (q : List Dma) :
    Inv keep { s with queue := q, log := s.log ++ [.got l] } := by
  obtain ⟨h1, h2⟩ := h
  obtain ⟨w, o, q', m, log⟩ := s
  dsimp only at h1 h2
  refine ⟨?_, ?_⟩
  · apply serial_append _ _ _ _ h1
    cases after none log <;> simp [Serial]
  · show Agree keep o (after none (log ++ [Ev.got l]))
    rw [after_append]
    generalize after none log = cur at *
    match o, cur, h2 with
    | none, none, _ => trivial
    | some o, some (c, g), h2 => exact ⟨h2.1, fun hd => (h2.2 hd).mono l⟩

theorem inv_err (keep : List Nat → List Nat) (s : Sys) (l : List Byte) (h : Inv keep s) :
    Inv keep { s with log := s.log ++ [.err l] } := by
  obtain ⟨h1, h2⟩ := h
  obtain ⟨w, o, q', m, log⟩ := s
  dsimp only at h1 h2
  refine ⟨?_, ?_⟩
  · apply serial_append _ _ _ _ h1
    cases after none log <;> simp [Serial]
  · show Agree keep o (after none (log ++ [Ev.err l]))
    rw [after_append]
    generalize after none log = cur at *
    match o, cur, h2 with
    | none, none, _ => trivial
    | some o, some (c, g), h2 => exact h2

theorem inv_step (keep : List Nat → List Nat) (s s' : Sys) (a : Act) (h : Inv keep s) (hs : step keep s a = some s') :
    Inv keep s' := by
  cases a with
  | call id cfg r =>
    simp only [step, doCall, Option.map_eq_some_iff] at hs
    obtain ⟨hd, _, rfl⟩ := hs
    exact h
  | send i =>
    simp only [step, doSend, Option.some.injEq] at hs
    subst hs
    split
    · rename_i c ho hw
      obtain ⟨h1, h2⟩ := h
      rw [ho] at h2
      have ha : after none s.log = none := by
        generalize after none s.log = cur at h2
        match cur, h2 with
        | none, _ => rfl
      refine ⟨serial_append _ _ _ _ h1 (by rw [ha]; simp [Serial]), ?_⟩
      show Agree keep (some ⟨c, c.posted, if c.posted then Status.ok else Status.incomplete, c.req.gp.data⟩)
        (after none (s.log ++ [Ev.req c]))
      rw [after_append, ha]
      refine ⟨rfl, fun hp => Or.inl ⟨hp, ?_, rfl⟩⟩
      have hp : c.posted = true := hp
      show (if c.posted = true then Status.ok else Status.incomplete) = _
      rw [if_pos hp]
    · exact h
  | ret =>
    simp only [step, doRet, Option.some.injEq] at hs
    subst hs
    obtain ⟨h1, h2⟩ := h
    cases ho : s.out with
    | none => exact ⟨h1, h2⟩
    | some o =>
      rw [ho] at h2
      dsimp only
      by_cases hd : o.done = true
      · rw [if_pos hd]
        cases ha : after none s.log with
        | none => rw [ha] at h2; exact h2.elim
        | some cg =>
          obtain ⟨c, g⟩ := cg
          rw [ha] at h2
          refine ⟨serial_append _ _ _ _ h1 (by rw [ha]; exact ⟨h2.1, h2.2 hd, trivial⟩), ?_⟩
          show Agree keep none (after none (s.log ++ [Ev.ret o.call o.st o.data]))
          rw [after_append, ha]
          trivial
      · rw [if_neg hd]
        exact ⟨h1, by rw [ho]; exact h2⟩
  | dma =>
    simp only [step, doDma] at hs
    obtain ⟨h1, h2⟩ := h
    cases hq : s.queue with
    | nil => rw [hq] at hs; cases hs; exact ⟨h1, h2⟩
    | cons t q =>
      rw [hq] at hs
      simp only [Option.map_eq_some_iff] at hs
      obtain ⟨⟨m', c⟩, _, rfl⟩ := hs
      have key : ∀ (k : List Byte) (cur : Option (Call × List (List Byte))) (l : List (List Byte)),
          Serial keep cur (Ev.did t :: l.map Ev.cpl) ∧ after cur (Ev.did t :: l.map Ev.cpl) = cur := by
        intro _ cur l
        have : Serial keep cur (l.map Ev.cpl) ∧ after cur (l.map Ev.cpl) = cur := by
          induction l with
          | nil => cases cur <;> exact ⟨trivial, rfl⟩
          | cons x l ih => cases cur <;> exact ih
        cases cur <;> exact this
      refine ⟨serial_append _ _ _ _ h1 (key [] _ _).1, ?_⟩
      show Agree keep s.out (after none (s.log ++ Ev.did t :: c.toList.map Ev.cpl))
      rw [after_append, (key [] _ _).2]
      exact h2
  | rx l =>
    simp only [step, doRx] at hs
    have herr : Inv keep { s with log := s.log ++ [.got l, .err l] } := by
      have := inv_err keep _ l (inv_got keep s l h s.queue)
      simpa using this
    by_cases c1 : (l.getD 0 0).toNat % 32 = 10
    · rw [if_pos c1] at hs
      simp only [doCpl, Option.bind_eq_some_iff] at hs
      obtain ⟨cs, hcs, hs⟩ := hs
      cases ho : s.out with
      | none => rw [ho] at hs herr; cases hs; exact herr
      | some o =>
        rw [ho] at hs herr
        dsimp only at hs
        by_cases c2 : reqTx (keep o.call.hdr) = cplTx cs
        · rw [if_pos c2, Option.map_eq_some_iff] at hs
          obtain ⟨⟨st, d⟩, hc, rfl⟩ := hs
          obtain ⟨h1, h2⟩ := inv_got keep s l h s.queue
          refine ⟨h1, ?_⟩
          show Agree keep (some ⟨o.call, true, st, if st = .ok then d else o.data⟩ : Option Out) (after none (s.log ++ [Ev.got l]))
          obtain ⟨_, h0⟩ := h
          rw [ho] at h0
          rw [after_append]
          cases ha : after none s.log with
          | none => rw [ha] at h0; exact h0.elim
          | some cg =>
            obtain ⟨c, g⟩ := cg
            rw [ha] at h0
            refine ⟨h0.1, fun _ => Or.inr ⟨l, by simp, cs, d, hcs, ?_, ?_, ?_⟩⟩
            · rw [← h0.1]; exact c2.symm
            · rw [← h0.1]; exact hc
            · intro he
              show (if st = Status.ok then d else o.data) = d
              rw [if_pos he]
        · rw [if_neg c2] at hs; cases hs; exact herr
    · rw [if_neg c1] at hs
      by_cases c2 : (l.getD 0 0).toNat % 32 = 0
      · rw [if_pos c2, Option.map_eq_some_iff] at hs
        obtain ⟨t, _, rfl⟩ := hs
        exact inv_got keep s l h _
      · rw [if_neg c2] at hs; cases hs; exact herr

/-- **Every call returns once, after its own packet, and only what a completion of its own said**: in
every schedule the requests on the link are serialised, and each return is that of the request before
it, justified by a completion with its identifiers received in between (or a memory write, which is
posted). -/
theorem calls_serial (keep : List Nat → List Nat) (m : Mem) (as : List Act) (s : Sys) (h : run keep m as = some s) :
    Serial keep none s.log := by
  have : ∀ (as : List Act) (s0 : Sys), Inv keep s0 → as.foldlM (step keep) s0 = some s → Inv keep s := by
    intro as
    induction as with
    | nil => intro s0 h0 he; cases he; exact h0
    | cons a as ih =>
      intro s0 h0 he
      rw [List.foldlM_cons] at he
      obtain ⟨s1, e1, e2⟩ := Option.bind_eq_some_iff.mp he
      exact ih s1 (inv_step keep s0 s1 a h0 e1) e2
  exact (this as { m := m } ⟨trivial, trivial⟩ h).1

/-! ## Accesses of the device -/

/-- The memory requests received, in order. -/
def memPkts : List Ev → List (List Byte)
  | [] => []
  | .got l :: t => if Spec.typ l = 0 then l :: memPkts t else memPkts t
  | _ :: t => memPkts t

/-- The completions sent, in order. -/
def cpls : List Ev → List (List Byte)
  | [] => []
  | .cpl l :: t => l :: cpls t
  | _ :: t => cpls t

theorem memPkts_append (a b : List Ev) : memPkts (a ++ b) = memPkts a ++ memPkts b := by
  induction a with
  | nil => rfl
  | cons e t ih =>
    cases e <;> simp only [List.cons_append, memPkts, ih]
    split <;> rfl

theorem cpls_append (a b : List Ev) : cpls (a ++ b) = cpls a ++ cpls b := by
  induction a with
  | nil => rfl
  | cons e t ih => cases e <;> simp only [List.cons_append, cpls, ih]

/-- The requests `ls` carried out one after the other on a memory, with the completions `cs`. -/
inductive Replay : Mem → List (List Byte) → Mem → List (List Byte) → Prop
  | nil (m : Mem) : Replay m [] m []
  | write (m m' : Mem) (l : List Byte) (ls cs : List (List Byte)) : Spec.IsMemWrite l →
      Replay (Spec.effect l (Spec.address l) m) ls m' cs → Replay m (l :: ls) m' cs
  | read (m m' : Mem) (l c : List Byte) (ls cs : List (List Byte)) : Spec.IsMemRead l →
      Spec.AnswersData l c (m.range (Spec.address l) (4 * Spec.len l)) → Spec.byteCount c = 4 * Spec.len l →
      Replay m ls m' cs → Replay m (l :: ls) m' (c :: cs)

theorem Replay.append {m m' m'' : Mem} {a b ca cb : List (List Byte)} (h : Replay m a m' ca) (h' : Replay m' b m'' cb) :
    Replay m (a ++ b) m'' (ca ++ cb) := by
  induction h with
  | nil => exact h'
  | write m m' l ls cs hw _ ih => exact .write _ _ _ _ _ hw (ih h')
  | read m m' l c ls cs hr ha hb _ ih => exact .read _ _ _ _ _ _ hr ha hb (ih h')

/-- A write with all byte enables, or a read with an 8-bit tag. -/
def Plain (l : List Byte) : Prop :=
  (Spec.IsMemWrite l ∧ ∀ i, i < 4 * Spec.len l → Spec.lane l i = true) ∨
    (Spec.IsMemRead l ∧ 12 ≤ l.length ∧ (Spec.wide l = true → 16 ≤ l.length) ∧ Spec.tagHigh l = 0)

theorem plain_dma (m m' : Mem) (l : List Byte) (t : Dma) (c : Option (List Byte)) (h : Plain l) (ht : rxMem l = some t)
    (hd : dma m t = some (m', c)) : Replay m [l] m' c.toList := by
  rcases h with ⟨hw, hb⟩ | ⟨hr, h12, h16, htag⟩
  · obtain ⟨t', e1, e2⟩ := dma_write_exact_partial m l hw hb
    rw [ht] at e1
    cases e1
    rw [hd] at e2
    cases e2
    exact .write _ _ _ _ _ hw (.nil _)
  · obtain ⟨t', c', e1, e2, e3, e4⟩ := dma_read_exact_partial m l hr h12 h16 htag
    rw [ht] at e1
    cases e1
    rw [hd] at e2
    cases e2
    exact .read _ _ _ _ _ _ hr e3 e4 (.nil _)

/-- State and log agree about the requests of the device. -/
def DInv (m : Mem) (s : Sys) : Prop :=
  (∀ l ∈ memPkts s.log, Plain l) →
    ∃ done pend, memPkts s.log = done ++ pend ∧ pend.map rxMem = s.queue.map some ∧ Replay m done s.m (cpls s.log)

theorem typ_eq (l : List Byte) : (l.getD 0 0).toNat % 32 = Spec.typ l := rfl

theorem dinv_same (m : Mem) (s s' : Sys) (evs : List Ev) (h : DInv m s) (hm : s'.m = s.m) (hq : s'.queue = s.queue)
    (hl : s'.log = s.log ++ evs) (h1 : memPkts evs = []) (h2 : cpls evs = []) : DInv m s' := by
  intro hp
  have e1 : memPkts s'.log = memPkts s.log := by rw [hl, memPkts_append, h1, List.append_nil]
  have e2 : cpls s'.log = cpls s.log := by rw [hl, cpls_append, h2, List.append_nil]
  rw [e1] at hp
  obtain ⟨d, p, q1, q2, q3⟩ := h hp
  exact ⟨d, p, by rw [e1]; exact q1, by rw [hq]; exact q2, by rw [hm, e2]; exact q3⟩

theorem dinv_step (keep : List Nat → List Nat) (m : Mem) (s s' : Sys) (a : Act) (h : DInv m s)
    (hs : step keep s a = some s') : DInv m s' := by
  cases a with
  | call id cfg r =>
    simp only [step, doCall, Option.map_eq_some_iff] at hs
    obtain ⟨hd, _, rfl⟩ := hs
    exact h
  | send i =>
    simp only [step, doSend, Option.some.injEq] at hs
    subst hs
    split
    · exact dinv_same m s _ _ h rfl rfl rfl rfl rfl
    · exact h
  | ret =>
    simp only [step, doRet, Option.some.injEq] at hs
    subst hs
    split
    · split
      · exact dinv_same m s _ _ h rfl rfl rfl rfl rfl
      · exact h
    · exact h
  | dma =>
    simp only [step, doDma] at hs
    cases hq : s.queue with
    | nil => rw [hq] at hs; cases hs; exact h
    | cons t q =>
      rw [hq] at hs
      simp only [Option.map_eq_some_iff] at hs
      obtain ⟨⟨m', c⟩, hd, rfl⟩ := hs
      intro hp
      have hk : ∀ l : List (List Byte), memPkts (Ev.did t :: l.map Ev.cpl) = [] ∧ cpls (Ev.did t :: l.map Ev.cpl) = l := by
        intro l
        have : memPkts (l.map Ev.cpl) = [] ∧ cpls (l.map Ev.cpl) = l := by
          induction l with
          | nil => exact ⟨rfl, rfl⟩
          | cons x l ih => exact ⟨ih.1, by show x :: cpls (l.map Ev.cpl) = _; rw [ih.2]⟩
        exact this
      have e1 : memPkts (s.log ++ Ev.did t :: c.toList.map Ev.cpl) = memPkts s.log := by
        rw [memPkts_append, (hk _).1, List.append_nil]
      have e2 : cpls (s.log ++ Ev.did t :: c.toList.map Ev.cpl) = cpls s.log ++ c.toList := by
        rw [cpls_append, (hk _).2]
      dsimp only at hp ⊢
      rw [e1] at hp ⊢
      rw [e2]
      obtain ⟨d, p, q1, q2, q3⟩ := h hp
      rw [hq] at q2
      match p, q2 with
      | l :: p, q2 =>
        simp only [List.map_cons, List.cons.injEq] at q2
        refine ⟨d ++ [l], p, by rw [q1]; simp, q2.2, q3.append (plain_dma _ _ l t c (hp l ?_) q2.1 hd)⟩
        rw [q1]; simp
  | rx l =>
    simp only [step, doRx] at hs
    have noMem : ∀ evs, Spec.typ l ≠ 0 → evs = [Ev.got l] ∨ evs = [Ev.got l, Ev.err l] → memPkts evs = [] ∧ cpls evs = [] := by
      rintro evs hn (rfl | rfl) <;> exact ⟨by simp [memPkts, hn], rfl⟩
    by_cases c1 : (l.getD 0 0).toNat % 32 = 10
    · rw [if_pos c1] at hs
      have h0 : Spec.typ l ≠ 0 := by rw [← typ_eq]; omega
      simp only [doCpl, Option.bind_eq_some_iff] at hs
      obtain ⟨cs, hcs, hs⟩ := hs
      have n1 := noMem _ h0 (Or.inl rfl)
      have n2 := noMem _ h0 (Or.inr rfl)
      cases ho : s.out with
      | none => rw [ho] at hs; cases hs; exact dinv_same m s _ _ h rfl rfl rfl n2.1 n2.2
      | some o =>
        rw [ho] at hs
        dsimp only at hs
        by_cases c2 : reqTx (keep o.call.hdr) = cplTx cs
        · rw [if_pos c2, Option.map_eq_some_iff] at hs
          obtain ⟨⟨st, d⟩, hc, rfl⟩ := hs
          exact dinv_same m s _ _ h rfl rfl rfl n1.1 n1.2
        · rw [if_neg c2] at hs; cases hs; exact dinv_same m s _ _ h rfl rfl rfl n2.1 n2.2
    · rw [if_neg c1] at hs
      by_cases c2 : (l.getD 0 0).toNat % 32 = 0
      · rw [if_pos c2, Option.map_eq_some_iff] at hs
        obtain ⟨t, ht, rfl⟩ := hs
        intro hp
        have e1 : memPkts (s.log ++ [Ev.got l]) = memPkts s.log ++ [l] := by
          rw [typ_eq] at c2
          rw [memPkts_append]; simp [memPkts, c2]
        have e2 : cpls (s.log ++ [Ev.got l]) = cpls s.log := by
          rw [cpls_append]; simp [cpls]
        dsimp only at hp ⊢
        rw [e1] at hp ⊢
        rw [e2]
        obtain ⟨d, p, q1, q2, q3⟩ := h (fun x hx => hp x (List.mem_append_left _ hx))
        exact ⟨d, p ++ [l], by rw [q1]; simp, by simp [q2, ht], q3⟩
      · rw [if_neg c2] at hs; cases hs
        have n2 := noMem _ c2 (Or.inr rfl)
        exact dinv_same m s _ _ h rfl rfl rfl n2.1 n2.2

/-- **Accesses of the device are carried out in the order they arrive**, each once and whatever calls are
going on: in every schedule the memory is what the first requests received make of it, the completions
sent are exactly theirs, and the others wait.  For writes with all byte enables and 8-bit tags. -/
theorem device_accesses_in_order_partial (keep : List Nat → List Nat) (m : Mem) (as : List Act) (s : Sys)
    (h : run keep m as = some s) (hp : ∀ l ∈ memPkts s.log, Plain l) :
    ∃ done pend, memPkts s.log = done ++ pend ∧ pend.length = s.queue.length ∧ Replay m done s.m (cpls s.log) := by
  have : ∀ (as : List Act) (s0 : Sys), DInv m s0 → as.foldlM (step keep) s0 = some s → DInv m s := by
    intro as
    induction as with
    | nil => intro s0 h0 he; cases he; exact h0
    | cons a as ih =>
      intro s0 h0 he
      rw [List.foldlM_cons] at he
      obtain ⟨s1, e1, e2⟩ := Option.bind_eq_some_iff.mp he
      exact ih s1 (dinv_step keep m s0 s1 a h0 e1) e2
  obtain ⟨d, p, q1, q2, q3⟩ := this as { m := m } (fun _ => ⟨[], [], rfl, rfl, .nil _⟩) h hp
  exact ⟨d, p, q1, by have := congrArg List.length q2; simpa using this, q3⟩

/-! ## Reads of the host -/

/-- A read call: one word of memory. -/
def OneWordRead (c : Call) : Prop :=
  mem c.req = some c.hdr ∧ c.req.gp.cmd = .read ∧ c.req.gp.addr < 2 ^ 64 ∧ c.req.gp.be = [] ∧ 0 < c.req.gp.len ∧
    c.req.gp.addr % 4 + c.req.gp.len ≤ 4 ∧ c.req.gp.len ≤ c.req.gp.sw ∧ c.req.master < 65536 ∧ c.req.tag < 256 ∧
    c.posted = false

/-- A justified return of a read, when what arrived with the identifiers of the read were completions
with the contents of the memory `dm` of the device, is that of the read on `dm`. -/
theorem read_returns (c : Call) (g : List (List Byte)) (st : Status) (d : List Byte) (dm : Mem) (hc : OneWordRead c)
    (hj : Justified id c g st d)
    (hg : ∀ l ∈ g, ∀ cs, rxCpl l = some cs → cplTx cs = reqTx c.hdr →
      Spec.AnswersData (wire c.hdr) l (dm.range (Spec.address (wire c.hdr)) (4 * Spec.len (wire c.hdr)))) :
    st = .ok ∧ d = (c.req.gp.run dm).2 := by
  obtain ⟨h1, h2, h3, h4, h5, h6, h7, h8, h9, h10⟩ := hc
  rcases hj with ⟨hp, _⟩ | ⟨l, hl, cs, d', q1, q2, q3, q4⟩
  · rw [h10] at hp; exact absurd hp (by decide)
  · have ha := hg l hl cs q1 q2
    obtain ⟨ws, e, k⟩ := mem_read_exact_partial c.req dm h2 h3 h4 h5 h6 h7 h8 h9
    rw [h1] at e
    cases e
    obtain ⟨cs', r1, _, r3⟩ := k l ha
    rw [q1] at r1
    cases r1
    have q3 : complete c.req c.hdr cs = some (st, d') := q3
    rw [r3] at q3
    cases q3
    exact ⟨rfl, q4 rfl⟩

/-- Every return in a log is justified by packets of the log. -/
theorem serial_justified (keep : List Nat → List Nat) (log : List Ev) (cur : Option (Call × List (List Byte)))
    (h : Serial keep cur log) (c : Call) (st : Status) (d : List Byte) (hm : Ev.ret c st d ∈ log) :
    ∃ g, Justified keep c g st d ∧ ∀ l ∈ g, Ev.got l ∈ log ∨ ∃ c0 g0, cur = some (c0, g0) ∧ l ∈ g0 := by
  induction log generalizing cur with
  | nil => exact absurd hm (by simp)
  | cons e t ih =>
    have same : ∀ cur', Serial keep cur' t → (Ev.ret c st d ∈ t) →
        (∀ c0 g0, cur' = some (c0, g0) → ∀ l ∈ g0, Ev.got l ∈ e :: t ∨ ∃ c1 g1, cur = some (c1, g1) ∧ l ∈ g1) →
        ∃ g, Justified keep c g st d ∧ ∀ l ∈ g, Ev.got l ∈ e :: t ∨ ∃ c0 g0, cur = some (c0, g0) ∧ l ∈ g0 := by
      intro cur' hs hr hcur
      obtain ⟨g, j, k⟩ := ih cur' hs hr
      refine ⟨g, j, fun l hl => ?_⟩
      rcases k l hl with k | ⟨c0, g0, e0, k⟩
      · exact Or.inl (List.mem_cons_of_mem _ k)
      · exact hcur c0 g0 e0 l k
    cases e with
    | req c1 =>
      rcases cur with _ | ⟨c0, g0⟩
      · refine same (some (c1, [])) h (by simpa using hm) ?_
        intro c0 g0 e0; cases e0; intro l hl; exact absurd hl (by simp)
      · exact False.elim h
    | got l1 =>
      rcases cur with _ | ⟨c0, g0⟩
      · exact same none h (by simpa using hm) (fun _ _ e0 => by cases e0)
      · refine same (some (c0, g0 ++ [l1])) h (by simpa using hm) ?_
        intro c2 g2 e0; cases e0
        intro l hl
        rcases List.mem_append.mp hl with hl | hl
        · exact Or.inr ⟨_, _, rfl, hl⟩
        · rw [List.mem_singleton.mp hl]; exact Or.inl (by simp)
    | ret c1 st1 d1 =>
      rcases cur with _ | ⟨c0, g0⟩
      · exact False.elim h
      · obtain ⟨h1, h2, h3⟩ := h
        rcases List.mem_cons.mp hm with hm | hm
        · cases hm
          subst h1
          exact ⟨g0, h2, fun l hl => Or.inr ⟨_, _, rfl, hl⟩⟩
        · exact same none h3 hm (fun _ _ e0 => by cases e0)
    | cpl l1 =>
      rcases cur with _ | ⟨c0, g0⟩
      · exact same _ h (by simpa using hm) (fun _ _ e0 => by cases e0)
      · exact same _ h (by simpa using hm) (fun c2 g2 e0 l hl => by cases e0; exact Or.inr ⟨_, _, rfl, hl⟩)
    | did t1 =>
      rcases cur with _ | ⟨c0, g0⟩
      · exact same _ h (by simpa using hm) (fun _ _ e0 => by cases e0)
      · exact same _ h (by simpa using hm) (fun c2 g2 e0 l hl => by cases e0; exact Or.inr ⟨_, _, rfl, hl⟩)
    | err l1 =>
      rcases cur with _ | ⟨c0, g0⟩
      · exact same _ h (by simpa using hm) (fun _ _ e0 => by cases e0)
      · exact same _ h (by simpa using hm) (fun c2 g2 e0 l hl => by cases e0; exact Or.inr ⟨_, _, rfl, hl⟩)

/-- **Reads return the device's memory under every schedule**: whatever else is going on, if the packets
with the identifiers of a one-word read are completions with the contents of the device's memory, then
the read returns OK with those contents.  Same provisos as `mem_read_exact_partial`. -/
theorem reads_return_partial (m dm : Mem) (as : List Act) (s : Sys) (h : run id m as = some s) (c : Call) (st : Status)
    (d : List Byte) (hr : Ev.ret c st d ∈ s.log) (hc : OneWordRead c)
    (hg : ∀ l, Ev.got l ∈ s.log → ∀ cs, rxCpl l = some cs → cplTx cs = reqTx c.hdr →
      Spec.AnswersData (wire c.hdr) l (dm.range (Spec.address (wire c.hdr)) (4 * Spec.len (wire c.hdr)))) :
    st = .ok ∧ d = (c.req.gp.run dm).2 := by
  obtain ⟨g, j, k⟩ := serial_justified id s.log none (calls_serial id m as s h) c st d hr
  refine read_returns c g st d dm hc j fun l hl cs e1 e2 => ?_
  rcases k l hl with k | ⟨_, _, e, _⟩
  · exact hg l k cs e1 e2
  · exact absurd e (by simp)

/-! ## Examples -/

/-- A read of the host, a DMA write before its completion, a DMA read, and the completions. -/
def exSchedule : List Act :=
  [.call 1 false ⟨{ cmd := .read, addr := 4098, data := [0, 0], sw := 2 }, 0x100, 7⟩,
   .send 0,
   .rx [0x40, 0, 0, 1, 0, 0, 0, 15, 0, 0, 0x10, 0, 1, 2, 3, 4],
   .rx [0x00, 0, 0, 1, 0, 5, 9, 15, 0, 0, 0x10, 0],
   .dma,
   .rx [0x4a, 0, 0, 1, 0, 0, 0, 4, 1, 0, 7, 0, 11, 12, 13, 14],
   .dma, .ret]

/-- The read ends with the bytes of the completion, and the device reads what it wrote. -/
example : ((run id (fun _ => 0) exSchedule).map fun s =>
    (s.log.filterMap fun | .ret _ st d => some (st, d) | _ => none, cpls s.log)) =
    some ([(.ok, [13, 14])], [[0x4a, 0, 0, 1, 0, 0, 0, 4, 0, 5, 9, 0, 1, 2, 3, 4]]) := by decide +kernel

/-- With the header left in link byte order the same schedule never returns. -/
example : ((run (·.map swap) (fun _ => 0) exSchedule).map fun s =>
    (s.log.filterMap fun | .ret _ st d => some (st, d) | _ => none, s.out.isSome)) = some ([], true) := by decide +kernel

/-- A write of two words at an address above 4 GB meets the hypotheses of `mem_write_exact_partial`. -/
example : ∃ ws, mem ⟨{ cmd := .write, addr := 0x100000010, data := [1, 2, 3, 4, 5, 6, 7, 8], sw := 8 }, 3, 4⟩ = some ws ∧
    Spec.IsMemWrite (wire ws) :=
  let ⟨ws, h1, h2, _⟩ := mem_write_exact_partial
    ⟨{ cmd := .write, addr := 0x100000010, data := [1, 2, 3, 4, 5, 6, 7, 8], sw := 8 }, 3, 4⟩ (fun _ => 0)
    (by decide) (by decide) (by decide) (by decide) (by decide) (by decide) (by decide) (by decide) (by decide) (by decide)
  ⟨ws, h1, h2⟩

/-- A configuration write of the upper half of a register, with one byte disabled, meets those of
`conf_write_exact_partial`. -/
example : ∃ ws, conf ⟨{ cmd := .write, addr := 0x123456, data := [1, 2], be := [true, false], sw := 2 }, 3, 4⟩ = some ws ∧
    Spec.cfgAddress (wire ws) = 0x123454 :=
  let ⟨ws, h1, _, h2, _⟩ := conf_write_exact_partial
    ⟨{ cmd := .write, addr := 0x123456, data := [1, 2], be := [true, false], sw := 2 }, 3, 4⟩ (fun _ => 0)
    (by decide) (by decide) (by decide) (by decide) (by decide) (by decide)
  ⟨ws, h1, h2⟩

/-- The packets of the device in the schedule above are plain. -/
example : Plain [0x40, 0, 0, 1, 0, 0, 0, 15, 0, 0, 0x10, 0, 1, 2, 3, 4] ∧ Plain [0x00, 0, 0, 1, 0, 5, 9, 15, 0, 0, 0x10, 0] := by
  constructor
  · exact Or.inl ⟨⟨by decide +kernel, by decide +kernel, by decide +kernel, by decide +kernel⟩, by decide +kernel⟩
  · exact Or.inr ⟨⟨by decide +kernel, by decide +kernel, by decide +kernel, by decide +kernel⟩, by decide +kernel,
      by decide +kernel, by decide +kernel⟩

/-- The completion of the schedule above answers the read. -/
example : ∃ ws, mem ⟨{ cmd := .read, addr := 4098, data := [0, 0], sw := 2 }, 0x100, 7⟩ = some ws ∧
    Spec.AnswersData (wire ws) [0x4a, 0, 0, 1, 0, 0, 0, 4, 1, 0, 7, 0, 11, 12, 13, 14] [11, 12, 13, 14] :=
  ⟨[1, 0x0100070f, 4096], by decide +kernel,
    ⟨by decide +kernel, by decide +kernel, by decide +kernel, by decide +kernel, by decide +kernel⟩,
    by decide +kernel, by decide +kernel, by decide +kernel, by decide +kernel, by decide +kernel⟩

end Verif.Tlp
