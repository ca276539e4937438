import Verif.Qdma.Props

/-! # C49: whole histories of a queue and of an interrupt ring -/

namespace Verif.Qdma

/-- What can happen to the device: a register access, an access to the user BAR,
somebody else writing host or card memory, an edge of reset. -/
inductive Op
  | cfg (env : Env) (g : Gp)
  | user (g : Gp)
  | host (m : Mem)
  | card (m : Mem)
  | reset

def step (v : Ver) (s : S) : Op → Except Fault S
  | .cfg env g => (cfg v env g s).map (·.1)
  | .user g => (user g s).map (·.1)
  | .host m => .ok { s with host := m }
  | .card m => .ok { s with card := m }
  | .reset => .ok (reset s)

/-- A history without a fault. -/
def hist (v : Ver) : S → List Op → Except Fault S
  | s, [] => .ok s
  | s, o :: os =>
    match step v s o with
    | .ok s => hist v s os
    | .error e => .error e

/-- The producer index an operation posts to a queue, if it does. -/
def bellOf (v : Ver) (q : Nat) (h2c : Bool) : Op → Option Nat
  | .cfg _ g =>
    if g.cmd = .write ∧ refused g = false ∧ g.addr = dmap v + 0x10 * q + (if h2c then 4 else 8) then
      some (leDec g.data % 65536)
    else none
  | _ => none

/-- Queue, selector and command of a context command, if the operation is one. -/
def command (v : Ver) : Op → Option (Nat × Nat × Nat)
  | .cfg _ g =>
    if g.cmd = .write ∧ refused g = false ∧ g.addr / 4 = cmdReg v then
      some (getF (wordOf g.data) 7 13, getF (wordOf g.data) 1 4, getF (wordOf g.data) 5 2)
    else none
  | _ => none

/-- The operation may change a context (any command on it but reading it). -/
def Touches (v : Ver) (q sel : Nat) (o : Op) : Prop := ∃ c, c ≠ 2 ∧ command v o = some (q, sel, c)

/-- The descriptors executed for a queue, in order. -/
def descsOf (q : Nat) (h2c : Bool) : List Ev → List Nat
  | [] => []
  | .desc q' h' i :: t => if q' = q ∧ h' = h2c then i :: descsOf q h2c t else descsOf q h2c t
  | _ :: t => descsOf q h2c t

/-- The entries written to an interrupt ring, in order. -/
def entriesOf (r : Nat) : List Ev → List (Nat × BitVec 64)
  | [] => []
  | .entry r' a e :: t => if r' = r then (a, e) :: entriesOf r t else entriesOf r t
  | _ :: t => entriesOf r t

/-! ### Helpers -/

theorem descsOf_append (q : Nat) (h2c : Bool) (a b : List Ev) :
    descsOf q h2c (a ++ b) = descsOf q h2c a ++ descsOf q h2c b := by
  induction a with
  | nil => rfl
  | cons e t ih =>
    cases e with
    | desc q' h' i =>
      simp only [List.cons_append, descsOf]
      split
      · rw [ih]; rfl
      · exact ih
    | _ => exact ih

theorem descsOf_notDesc (q : Nat) (h2c : Bool) (a : List Ev) (h : ∀ e ∈ a, e.notDesc = true) :
    descsOf q h2c a = [] := by
  induction a with
  | nil => rfl
  | cons e t ih =>
    cases e with
    | desc q' h' i => exact absurd (h _ (List.mem_cons_self ..)) (by simp [Ev.notDesc])
    | _ => exact ih fun e he => h e (List.mem_cons_of_mem _ he)

theorem descsOf_map (q : Nat) (h2c : Bool) (is : List Nat) :
    descsOf q h2c (is.map (.desc q h2c ·)) = is := by
  induction is with
  | nil => rfl
  | cons i t ih => simp only [List.map_cons, descsOf, and_self, if_true, ih]

theorem descsOf_map_ne (q : Nat) (h2c : Bool) (q' : Nat) (h' : Bool) (is : List Nat)
    (h : ¬ (q' = q ∧ h' = h2c)) : descsOf q h2c (is.map (.desc q' h' ·)) = [] := by
  induction is with
  | nil => rfl
  | cons i t ih => simp only [List.map_cons, descsOf, if_neg h, ih]

theorem entriesOf_append (r : Nat) (a b : List Ev) :
    entriesOf r (a ++ b) = entriesOf r a ++ entriesOf r b := by
  induction a with
  | nil => rfl
  | cons e t ih =>
    cases e with
    | entry r' x i =>
      simp only [List.cons_append, entriesOf]
      split
      · rw [ih]; rfl
      · exact ih
    | _ => exact ih

theorem entriesOf_map (r q : Nat) (h2c : Bool) (is : List Nat) :
    entriesOf r (is.map (.desc q h2c ·)) = [] := by
  induction is with
  | nil => rfl
  | cons i t ih => simpa only [List.map_cons, entriesOf] using ih

/-- Everything a configuration access can be. -/
inductive CfgCase (v : Ver) (env : Env) (g : Gp) (s s' : S) : Prop
  | quiet (h : s' = s ∨ ∃ w x, w ≠ 0 ∧ s' = s.setReg w x)
      (hb : ∀ q h2c, q < 2 → bellOf v q h2c (.cfg env g) = none) (hc : command v (.cfg env g) = none)
  | bell (q : Nat) (h2c : Bool) (p : Nat) (hb : bellOf v q h2c (.cfg env g) = some p)
      (hc : command v (.cfg env g) = none)
      (ho : ∀ q' h', ¬ (q' = q ∧ h' = h2c) → bellOf v q' h' (.cfg env g) = none)
      (hp : (wordOf g.data).toNat % 65536 = p)
      (hr : run v env q h2c (s.setReg (pidxReg v h2c q) (wordOf g.data)) = .ok s')
  | ctx (s1 : S) (hb : ∀ q h2c, q < 2 → bellOf v q h2c (.cfg env g) = none)
      (hc : command v (.cfg env g) =
        some (getF (wordOf g.data) 7 13, getF (wordOf g.data) 1 4, getF (wordOf g.data) 5 2))
      (h1 : ctxCmd (wordOf g.data) s = .ok s1) (hs : s' = s1.setReg (cmdReg v) (wordOf g.data &&& 0xFFFFFFFE#32))

theorem bellOf_none (v : Ver) (env : Env) (g : Gp) (h : g.cmd ≠ .write ∨ refused g = true) (q : Nat) (h2c : Bool) :
    bellOf v q h2c (.cfg env g) = none := by
  unfold bellOf
  refine if_neg fun x => ?_
  rcases h with h | h
  · exact h x.1
  · rw [h] at x; exact absurd x.2.1 (by decide)

theorem command_none (v : Ver) (env : Env) (g : Gp) (h : g.cmd ≠ .write ∨ refused g = true) :
    command v (.cfg env g) = none := by
  unfold command
  refine if_neg fun x => ?_
  rcases h with h | h
  · exact h x.1
  · rw [h] at x; exact absurd x.2.1 (by decide)

theorem wordOf_mod (d : List Byte) : (wordOf d).toNat % 65536 = leDec d % 65536 := by
  unfold wordOf
  rw [BitVec.toNat_ofNat]
  exact Nat.mod_mod_of_dvd _ (by decide)

theorem cfg_cases (v : Ver) (env : Env) (g : Gp) (s s' : S) (h : step v s (.cfg env g) = .ok s') :
    CfgCase v env g s s' := by
  simp only [step, cfg] at h
  by_cases hr : refused g = true
  · rw [if_pos hr] at h
    cases h
    exact .quiet (Or.inl rfl) (fun _ _ _ => bellOf_none v env g (Or.inr hr) _ _) (command_none v env g (Or.inr hr))
  rw [if_neg hr] at h
  rw [Bool.not_eq_true] at hr
  cases hcmd : g.cmd with
  | read =>
    have hn : g.cmd ≠ .write := by rw [hcmd]; decide
    rw [hcmd] at h
    simp only at h
    cases hx : cfgRead v g.addr s with
    | error e => rw [hx] at h; cases h
    | ok x =>
      rw [hx] at h
      cases h
      exact .quiet (Or.inl rfl) (fun _ _ _ => bellOf_none v env g (Or.inl hn) _ _) (command_none v env g (Or.inl hn))
  | ignore =>
    have hn : g.cmd ≠ .write := by rw [hcmd]; decide
    rw [hcmd] at h
    cases h
    exact .quiet (Or.inl rfl) (fun _ _ _ => bellOf_none v env g (Or.inl hn) _ _) (command_none v env g (Or.inl hn))
  | write =>
    rw [hcmd] at h
    simp only at h
    cases hx : cfgWrite v env g.addr (wordOf g.data) s with
    | error e => rw [hx] at h; cases h
    | ok s2 =>
      rw [hx] at h
      have hs2 : s2 = s' := by injection h
      subst hs2
      have hd : dmap v % 16 = 0 := by cases v <;> rfl
      have hcr : cmdReg v < dmap v / 4 := by cases v <;> decide
      unfold cfgWrite at hx
      simp only at hx
      by_cases c1 : dmap v / 4 ≤ g.addr / 4 ∧ g.addr / 4 ≤ (dmap v + 0xC + 0x10 * queueCount) / 4
      · rw [if_pos c1] at hx
        have hcn : command v (.cfg env g) = none := by
          unfold command
          exact if_neg fun x => by omega
        obtain ⟨c1a, c1b⟩ := c1
        unfold queueCount at c1b
        by_cases c2 : g.addr % 0x10 = 4
        · rw [if_pos c2] at hx
          have ha : g.addr = dmap v + 0x10 * ((g.addr - dmap v) / 0x10) + 4 := by omega
          refine .bell ((g.addr - dmap v) / 0x10) true (leDec g.data % 65536) ?_ hcn ?_ (wordOf_mod _) ?_
          · exact if_pos ⟨hcmd, hr, ha⟩
          · intro q' h' hne
            unfold bellOf
            refine if_neg fun x => hne ?_
            have x := x.2.2
            cases h' with
            | true => simp only [if_true] at x; exact ⟨by omega, rfl⟩
            | false => simp only [Bool.false_eq_true, if_false] at x; omega
          · rw [← hx]
            congr 2
            unfold pidxReg
            simp only [if_true]; omega
        · rw [if_neg c2] at hx
          by_cases c3 : g.addr % 0x10 = 8
          · rw [if_pos c3] at hx
            have ha : g.addr = dmap v + 0x10 * ((g.addr - dmap v) / 0x10) + 8 := by omega
            refine .bell ((g.addr - dmap v) / 0x10) false (leDec g.data % 65536) ?_ hcn ?_ (wordOf_mod _) ?_
            · exact if_pos ⟨hcmd, hr, ha⟩
            · intro q' h' hne
              unfold bellOf
              refine if_neg fun x => hne ?_
              have x := x.2.2
              cases h' with
              | true => simp only [if_true] at x; omega
              | false => simp only [Bool.false_eq_true, if_false] at x; exact ⟨by omega, rfl⟩
            · rw [← hx]
              congr 2
              unfold pidxReg
              simp only [Bool.false_eq_true, if_false]; omega
          · rw [if_neg c3] at hx
            injection hx with hx
            refine .quiet (Or.inr ⟨_, _, (by omega), hx.symm⟩) ?_ hcn
            intro q' h' _
            unfold bellOf
            refine if_neg fun x => ?_
            have x := x.2.2
            cases h' with
            | true => simp only [if_true] at x; omega
            | false => simp only [Bool.false_eq_true, if_false] at x; omega
      · rw [if_neg c1] at hx
        -- a doorbell address of a queue beyond the checked range is a plain register
        by_cases c2 : g.addr / 4 = cmdReg v
        · rw [if_pos c2] at hx
          have hb : ∀ q h2c, q < 2 → bellOf v q h2c (.cfg env g) = none := by
            intro q' h' hq'
            unfold bellOf
            refine if_neg fun x => ?_
            have x := x.2.2
            cases h' with
            | true => simp only [if_true] at x; omega
            | false => simp only [Bool.false_eq_true, if_false] at x; omega
          cases hk : ctxCmd (wordOf g.data) s with
          | error e => rw [hk] at hx; cases hx
          | ok s1 =>
            rw [hk] at hx
            injection hx with hx
            refine .ctx s1 hb ?_ hk (by rw [← hx, c2])
            exact if_pos ⟨hcmd, hr, c2⟩
        · rw [if_neg c2] at hx
          have hb : ∀ q h2c, q < 2 → bellOf v q h2c (.cfg env g) = none := by
            intro q' h' hq'
            unfold bellOf
            refine if_neg fun x => c1 ?_
            have x := x.2.2
            unfold queueCount
            cases h' with
            | true => simp only [if_true] at x; omega
            | false => simp only [Bool.false_eq_true, if_false] at x; omega
          have hcn : command v (.cfg env g) = none := by
            unfold command
            exact if_neg fun x => c2 x.2.2
          refine .quiet ?_ hb hcn
          by_cases c3 : g.addr / 4 = 0 ∨ g.addr / 4 = 0x134 / 4
          · rw [if_pos c3] at hx
            injection hx with hx
            exact Or.inl hx.symm
          · rw [if_neg c3] at hx
            by_cases c4 : g.addr / 4 = 0x2c4 / 4
            · rw [if_pos c4] at hx
              injection hx with hx
              exact Or.inr ⟨_, _, by omega, hx.symm⟩
            · rw [if_neg c4] at hx
              by_cases c5 : g.addr / 4 < nRegs
              · rw [if_pos c5] at hx
                injection hx with hx
                exact Or.inr ⟨_, _, by omega, hx.symm⟩
              · rw [if_neg c5] at hx; cases hx

/-- A context command changes at most the context it names (and registers). -/
theorem ctxCmd_frame (x : BitVec 32) (s s1 : S) (h : ctxCmd x s = .ok s1) :
    s1.host = s.host ∧ s1.card = s.card ∧ s1.axi = s.axi ∧ s1.log = s.log ∧
    (∀ a b, ¬ (a = getF x 7 13 ∧ b = getF x 1 4 ∧ getF x 5 2 ≠ 2) → s1.ctx a b = s.ctx a b) ∧
    (∀ r, ¬ (r = getF x 7 13 ∧ getF x 1 4 = intSel ∧ getF x 5 2 ≠ 2) → s1.slot r = s.slot r) := by
  unfold ctxCmd at h
  simp only at h
  generalize getF x 7 13 = q at *
  generalize getF x 5 2 = c at *
  generalize getF x 1 4 = sel at *
  have key : ∀ (y : Ctx), c ≠ 2 → (∀ a b, ¬ (a = q ∧ b = sel ∧ c ≠ 2) → (s.setCtx q sel y).ctx a b = s.ctx a b) :=
    fun y hc a b hn => setCtx_ne _ _ _ _ _ _ fun e => hn ⟨e.1, e.2, hc⟩
  by_cases c1 : sel = intSel
  · rw [if_pos c1] at h
    subst c1
    unfold irqCtxCmd at h
    split at h
    · cases h
    · split at h
      · injection h with h; rw [← h]
        exact ⟨rfl, rfl, rfl, rfl, key _ (by decide), fun _ _ => rfl⟩
      · simp only at h
        split at h
        · injection h with h; rw [← h]
          refine ⟨rfl, rfl, rfl, rfl, key _ (by decide), fun r hr => ?_⟩
          have : r ≠ q := fun e => hr ⟨e, rfl, by decide⟩
          exact if_neg this
        · injection h with h; rw [← h]
          exact ⟨rfl, rfl, rfl, rfl, key _ (by decide), fun _ _ => rfl⟩
      · injection h with h; rw [← h]
        exact ⟨rfl, rfl, rfl, rfl, fun _ _ _ => rfl, fun _ _ => rfl⟩
      · rename_i n0 n1 n2
        injection h with h; rw [← h]
        exact ⟨rfl, rfl, rfl, rfl, key _ n2, fun _ _ => rfl⟩
  · rw [if_neg c1] at h
    split at h
    · cases h
    · split at h
      · cases h
      · split at h
        · injection h with h; rw [← h]
          exact ⟨rfl, rfl, rfl, rfl, key _ (by decide), fun _ _ => rfl⟩
        · injection h with h; rw [← h]
          exact ⟨rfl, rfl, rfl, rfl, key _ (by decide), fun _ _ => rfl⟩
        · injection h with h; rw [← h]
          exact ⟨rfl, rfl, rfl, rfl, fun _ _ _ => rfl, fun _ _ => rfl⟩
        · injection h with h; rw [← h]
          exact ⟨rfl, rfl, rfl, rfl, fun _ _ _ => rfl, fun _ _ => rfl⟩

/-- An operation that neither rings nor reconfigures a queue. -/
theorem step_quiet (v : Ver) (s s' : S) (q : Nat) (h2c : Bool) (o : Op) (hq : q < 2)
    (h : step v s o = .ok s') (hb : bellOf v q h2c o = none)
    (ht : ¬ Touches v q (swSel h2c) o) (ht' : ¬ Touches v q (hwSel h2c) o) :
    s'.ctx q (swSel h2c) = s.ctx q (swSel h2c) ∧ s'.ctx q (hwSel h2c) = s.ctx q (hwSel h2c) ∧
    descsOf q h2c s'.log = descsOf q h2c s.log := by
  cases o with
  | host m => injection h with h; rw [← h]; exact ⟨rfl, rfl, rfl⟩
  | card m => injection h with h; rw [← h]; exact ⟨rfl, rfl, rfl⟩
  | reset => injection h with h; rw [← h]; exact ⟨rfl, rfl, rfl⟩
  | user g =>
    simp only [step, user] at h
    split at h
    · cases h; exact ⟨rfl, rfl, rfl⟩
    · split at h
      · split at h
        · cases h; exact ⟨rfl, rfl, rfl⟩
        · cases h
      · split at h
        · cases h; exact ⟨rfl, rfl, rfl⟩
        · cases h
      · cases h; exact ⟨rfl, rfl, rfl⟩
  | cfg env g =>
    cases cfg_cases v env g s s' h with
    | quiet h =>
      rcases h with h | ⟨w, x, _, h⟩
      · rw [h]; exact ⟨rfl, rfl, rfl⟩
      · rw [h]; exact ⟨rfl, rfl, rfl⟩
    | bell q' h' p hb' hc ho hp hr =>
      have hne : ¬ (q' = q ∧ h' = h2c) := by
        rintro ⟨rfl, rfl⟩
        rw [hb] at hb'; cases hb'
      obtain ⟨_, _, k1, _, _, _, is, t, hl, hn, _⟩ := run_frame _ _ _ _ _ _ hr
      refine ⟨?_, ?_, ?_⟩
      · rw [k1 _ _ (swSel_ne_int _)]
        · rfl
        · rintro ⟨e, x | x⟩
          · exact hne ⟨e.symm, (swSel_inj x).symm⟩
          · exact swSel_ne _ _ x
      · rw [k1 _ _ (hwSel_ne_int _)]
        · rfl
        · rintro ⟨e, x | x⟩
          · exact swSel_ne _ _ x.symm
          · exact hne ⟨e.symm, (hwSel_inj x).symm⟩
      · rw [hl, descsOf_append, descsOf_append, descsOf_map_ne _ _ _ _ _ hne, descsOf_notDesc _ _ _ hn,
          List.append_nil, List.append_nil]
        rfl
    | ctx s1 hb' hc h1 hs =>
      obtain ⟨_, _, _, k4, k5, _⟩ := ctxCmd_frame _ _ _ h1
      rw [hs]
      refine ⟨k5 _ _ ?_, k5 _ _ ?_, by show descsOf q h2c s1.log = _; rw [k4]⟩
      · rintro ⟨e1, e2, e3⟩
        exact ht ⟨_, e3, by rw [hc, ← e1, ← e2]⟩
      · rintro ⟨e1, e2, e3⟩
        exact ht' ⟨_, e3, by rw [hc, ← e1, ← e2]⟩

/-- An operation that rings a queue. -/
theorem step_bell (v : Ver) (s s' : S) (q p : Nat) (h2c : Bool) (o : Op)
    (h : step v s o = .ok s') (hb : bellOf v q h2c o = some p) (hq : q < 2)
    (hcn : s.cidx q h2c < s.ringSize q h2c) :
    p < s.ringSize q h2c ∧ s'.cidx q h2c = p ∧ s'.ringSize q h2c = s.ringSize q h2c ∧
    descsOf q h2c s'.log = descsOf q h2c s.log ++ ringWalk (s.ringSize q h2c) (s.cidx q h2c) p := by
  cases o with
  | cfg env g =>
    cases cfg_cases v env g s s' h with
    | quiet _ hb' => rw [hb' _ _ hq] at hb; cases hb
    | ctx _ hb' => rw [hb' _ _ hq] at hb; cases hb
    | bell q' h' p' hb' hc ho hp hr =>
      by_cases hne : q = q' ∧ h2c = h'
      · obtain ⟨rfl, rfl⟩ := hne
        rw [hb] at hb'
        injection hb' with hb'
        subst hb'
        obtain ⟨_, _, _, k4, k5, _, is, t, hl, hn, hw⟩ := run_frame _ _ _ _ _ _ hr
        obtain ⟨_, p', hp', hpn, _⟩ := run_inv _ _ _ _ _ _ hr
        rw [setReg_same, hp] at k5 hw hp'
        rw [hp'] at hpn
        refine ⟨hpn, k5, ?_, ?_⟩
        · unfold S.ringSize S.ringCode
          rw [k4 _ _ (by decide)]
          rfl
        · rw [hl, hw hcn, descsOf_append, descsOf_append, descsOf_map, descsOf_notDesc _ _ _ hn,
            List.append_nil]
          rfl
      · rw [ho _ _ hne] at hb; cases hb
  | _ => cases hb

theorem meet_eq (n c p i : Nat) (hc : c < n) (hp : p < n) :
    (c + ((p + n - c) % n + i)) % n = (p + i) % n := by
  have : (c + (p + n - c) % n) % n = p := by
    rw [Nat.add_mod_mod, show c + (p + n - c) = p + n by omega, Nat.add_mod_right, Nat.mod_eq_of_lt hp]
  rw [← Nat.add_assoc, ← Nat.mod_add_mod, this]

theorem walk_posted (n c p k : Nat) (hc : c < n) (hp : p < n) :
    ringWalk n c p ++ (List.range k).map (fun i => (p + i) % n) =
      (List.range ((p + n - c) % n + k)).map fun i => (c + i) % n := by
  unfold ringWalk
  rw [List.range_add, List.map_append, List.map_map]
  congr 1
  apply List.map_congr_left
  intro i _
  simp only [Function.comp]
  rw [meet_eq _ _ _ _ hc hp]

/-! ### The property -/

/-- **Every descriptor once, in ring order, over any history.**  Whatever else is
done to the device — other queues, user registers, context reads, host and card
memory changing under it, resets, refused buses on other queues — as long as the
queue's own contexts are left alone, the descriptors executed for it are the
consecutive ring positions from the first consumer index on, as many as the
doorbells posted: none skipped, none repeated. -/
theorem ring_history (v : Ver) (q : Nat) (h2c : Bool) (hq : q < 2) (os : List Op) :
    ∀ (s s' : S), hist v s os = .ok s' → s.cidx q h2c < s.ringSize q h2c →
    (∀ o ∈ os, ¬ Touches v q (swSel h2c) o ∧ ¬ Touches v q (hwSel h2c) o) →
    descsOf q h2c s'.log = descsOf q h2c s.log ++
      (List.range (posted (s.ringSize q h2c) (s.cidx q h2c) (os.filterMap (bellOf v q h2c)))).map
        (fun k => (s.cidx q h2c + k) % s.ringSize q h2c) ∧
    s'.cidx q h2c = (s.cidx q h2c +
      posted (s.ringSize q h2c) (s.cidx q h2c) (os.filterMap (bellOf v q h2c))) % s.ringSize q h2c := by
  induction os with
  | nil =>
    intro s s' h hc _
    injection h with h
    subst h
    simp [posted, Nat.mod_eq_of_lt hc]
  | cons o os ih =>
    intro s s' h hc ht
    simp only [hist] at h
    cases h1 : step v s o with
    | error e => rw [h1] at h; cases h
    | ok s1 =>
      rw [h1] at h
      simp only at h
      have ht0 := ht o (List.mem_cons_self ..)
      have ht1 : ∀ o ∈ os, ¬ Touches v q (swSel h2c) o ∧ ¬ Touches v q (hwSel h2c) o :=
        fun o ho => ht o (List.mem_cons_of_mem _ ho)
      cases hb : bellOf v q h2c o with
      | none =>
        obtain ⟨k1, k2, k3⟩ := step_quiet v s s1 q h2c o hq h1 hb ht0.1 ht0.2
        have e1 : s1.cidx q h2c = s.cidx q h2c := by unfold S.cidx; rw [k2]
        have e2 : s1.ringSize q h2c = s.ringSize q h2c := by unfold S.ringSize S.ringCode; rw [k1]
        have := ih s1 s' h (by rw [e1, e2]; exact hc) ht1
        rw [e1, e2, k3] at this
        rw [List.filterMap_cons_none hb]
        exact this
      | some p =>
        obtain ⟨k1, k2, k3, k4⟩ := step_bell v s s1 q p h2c o h1 hb hq hc
        obtain ⟨i1, i2⟩ := ih s1 s' h (by rw [k2, k3]; exact k1) ht1
        rw [k2, k3] at i1 i2
        rw [List.filterMap_cons_some hb]
        simp only [posted]
        refine ⟨?_, ?_⟩
        · rw [i1, k4, List.append_assoc, walk_posted _ _ _ _ hc k1]
        · rw [i2, meet_eq _ _ _ _ hc k1]

end Verif.Qdma
