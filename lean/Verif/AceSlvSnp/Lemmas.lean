import Verif.AceSlvSnp.Spec

/-!
# The invariant of the snoops of the ACE to TLM hardware bridge
-/

namespace Verif.AceSlvSnp

theorem setCrResp_bits (r : Nat) : setCrResp r = bitsOf r := by
  have h : ∀ k, (r >>> k &&& 1 == 1) = r.testBit k := by
    intro k
    simp only [Nat.testBit, Nat.and_comm 1, Nat.and_one_is_mod]
    rcases Nat.mod_two_eq_zero_or_one (r >>> k) with h | h <;> rw [h] <;> rfl
  simp only [setCrResp, bitsOf, h]

theorem wordBytes_eq (d : Nat) : wordBytes d = [d % 256, d / 256 % 256, d / 65536 % 256, d / 16777216 % 256] := by
  have h : ∀ n, n &&& 255 = n % 256 := fun n => Nat.and_two_pow_sub_one_eq_mod n 8
  simp [wordBytes, List.range, List.range.loop, Nat.shiftRight_eq_div_pow, h]

/-- The line of a descriptor. -/
def lineAt (m : Nat) (ram : Nat → Nat) (i : Nat) : List Nat := (List.range m).map fun k => ram (i * m + k)

theorem lineAt_length (m : Nat) (ram : Nat → Nat) (i : Nat) : (lineAt m ram i).length = m := by simp [lineAt]

theorem lineAt_set (m : Nat) (ram : Nat → Nat) (i j : Nat) (ws : List Nat) (h : ws.length = m) :
    lineAt m (fun j => if j / m = i then ws.getD (j % m) 0 else ram j) j = if j = i then ws else lineAt m ram j := by
  apply List.ext_getElem
  · split
    · simp [lineAt, h]
    · simp [lineAt]
  · intro k h1 h2
    have hk : k < m := by simpa [lineAt] using h1
    have hd : (j * m + k) / m = j := by
      rw [Nat.mul_comm, Nat.mul_add_div (by omega), Nat.div_eq_of_lt hk]; rfl
    have hm : (j * m + k) % m = k := by
      rw [Nat.mul_comm, Nat.mul_add_mod, Nat.mod_eq_of_lt hk]
    by_cases hj : j = i
    · subst hj
      simp only [lineAt, List.getElem_map, List.getElem_range, hd, hm, if_true]
      rw [List.getD_eq_getElem?_getD, List.getElem?_eq_getElem (by omega)]; rfl
    · simp only [lineAt, List.getElem_map, List.getElem_range, hd, hj, if_false]

theorem bytesOf_length (l : List Nat) : (bytesOf l).length = 4 * l.length := by
  induction l with
  | nil => rfl
  | cons a t ih => simp only [bytesOf, List.flatMap_cons, List.length_append, List.length_cons, List.length_nil] at ih ⊢; omega

theorem bytesOf_append (a b : List Nat) : bytesOf (a ++ b) = bytesOf a ++ bytesOf b := by simp [bytesOf]

theorem bytes_step (m : Nat) (ram : Nat → Nat) (i k len : Nat) (h : k < m) :
    (((bytesOf ((lineAt m ram i).take k)).take len) ++ wordBytes (ram (i * m + k))).take len =
      (bytesOf ((lineAt m ram i).take (k + 1))).take len := by
  have h1 : (lineAt m ram i).take (k + 1) = (lineAt m ram i).take k ++ [ram (i * m + k)] := by
    rw [List.take_add_one]
    simp [lineAt, h]
  rw [h1, bytesOf_append, wordBytes_eq, List.take_append, List.take_take, Nat.min_self, List.take_append]
  congr 1
  simp only [bytesOf, List.flatMap_cons, List.flatMap_nil, List.append_nil, List.length_take]
  by_cases hl : len ≤ (List.flatMap (fun w => [w % 256, w / 256 % 256, w / 65536 % 256, w / 16777216 % 256]) ((lineAt m ram i).take k)).length
  · rw [Nat.min_eq_left hl, Nat.sub_self, Nat.sub_eq_zero_of_le hl]
  · rw [Nat.min_eq_right (by omega)]

/-- The snoop with the thread, before its response; with it; in `pop_cd`; the
descriptor there. -/
def Pc.before : Pc → List Snoop
  | .crPop x _ => [x]
  | _ => []

def Pc.giving : Pc → List (Snoop × Bits)
  | .crGive x a _ => [(x, a)]
  | _ => []

def Pc.reading : Pc → List (Snoop × Bits)
  | .busy x a _ _ _ => [(x, a)]
  | _ => []

def Pc.desc : Pc → List Nat
  | .busy _ _ i _ _ => [i]
  | _ => []

def State.idxs (s : State) : List Nat := s.pc.desc ++ s.descs ++ s.hwCd

def isData (p : Snoop × Nat) : Bool := hasData p.2

def isPlain (p : Snoop × Nat) : Bool := hasErr p.2 || !hasData p.2

def outPlain (p : Snoop × Nat) : Out := ⟨p.1, !hasErr p.2, some (bitsOf p.2), none⟩

def outData (q : (Snoop × Bits) × List Nat) : Out := ⟨q.1.1, true, some q.1.2, some ((bytesOf q.2).take q.1.1.len)⟩

def tag (p : Snoop × Nat) : Snoop × Bits := (p.1, bitsOf p.2)

/-- The counts and bytes of each place in the thread. -/
def PcOk (m : Nat) (s : State) : Prop :=
  match s.pc with
  | .crRead n => n ≤ s.hwCr.length
  | .crPop _ n => n + 1 ≤ s.hwCr.length
  | .crGive _ _ n => n ≤ s.hwCr.length
  | .cdPop n => n ≤ s.hwCd.length
  | .busy x _ i k acc => acc = (bytesOf ((lineAt m s.ram i).take k)).take x.len ∧ x.len ≤ 4 * m
  | _ => True

structure Inv (m : Nat) (w : World) (hd : List Snoop) (rs : List Nat) (dd : List (Snoop × Bits)) (dl : List (List Nat)) : Prop where
  asked : w.asked = hd ++ w.s.pc.before ++ w.s.crFifo ++ w.s.pend
  got : w.got = rs ++ w.s.hwCr
  len : hd.length = rs.length
  few : w.got.length ≤ w.asked.length
  lens : ∀ x ∈ w.asked, x.len ≤ 4 * m
  ok : ∀ r ∈ w.got, ¬(hasErr r = true ∧ hasData r = true)
  plain : w.done.filter (fun o => !o.withData) = ((hd.zip rs).filter isPlain).map outPlain
  data : ((hd.zip rs).filter isData).map tag = dd ++ w.s.pc.reading ++ w.s.cdFifo ++ w.s.pc.giving
  lines : w.lines = dl ++ w.s.idxs.map (lineAt m w.s.ram)
  dlen : dd.length = dl.length
  given : w.done.filter Out.withData = (dd.zip dl).map outData
  nodup : w.s.idxs.Nodup
  used : ∀ i ∈ w.s.idxs, w.s.used i = true
  pcok : PcOk m w.s
  good : w.s.bad = false

theorem inv_start (m : Nat) : Inv m World.start [] [] [] [] := by
  constructor <;> simp [World.start, start, Pc.before, Pc.giving, Pc.reading, Pc.desc, State.idxs, PcOk]

theorem sub_len {m : Nat} {w : World} {hd rs dd dl} (h : Inv m w hd rs dd dl) {p : Snoop × Bits}
    (hp : p ∈ dd ++ w.s.pc.reading ++ w.s.cdFifo ++ w.s.pc.giving) : p.1.len ≤ 4 * m := by
  rw [← h.data] at hp
  obtain ⟨q, hq, rfl⟩ := List.mem_map.mp hp
  have h1 := (List.mem_filter.mp hq).1
  have h2 : q.1 ∈ hd := (List.of_mem_zip (a := q.1) (b := q.2) h1).1
  exact h.lens _ (by rw [h.asked]; simp [tag, h2])

theorem inv_next {m : Nat} {w : World} {hd rs dd dl} (h : Inv m w hd rs dd dl) (e : Ev) (hp : Polite m w e) :
    ∃ hd' rs' dd' dl', Inv m (w.next m e) hd' rs' dd' dl' := by
  have hsub := @sub_len m w hd rs dd dl h
  obtain ⟨⟨pend, crFifo, cdFifo, descs, pc, hwCr, hwCd, used, ram, bad⟩, asked, got, lines, done⟩ := w
  obtain ⟨ha, hg, hl, hf, hle, hok, hpl, hda, hli, hdl, hgi, hnd, hus, hpc, hgo⟩ := h
  simp only [State.idxs] at ha hg hl hf hle hok hpl hda hli hdl hgi hnd hus hpc hgo hsub
  cases e with
  | reset => exact hp.elim
  | push x =>
    refine ⟨hd, rs, dd, dl, ?_⟩
    constructor <;> (try simp only [World.next, step, asks, respOf, lineOf, ended, List.append_nil, State.idxs]) <;> try assumption
    · rw [ha]; simp
    · simp; omega
    · intro y hy
      rcases List.mem_append.mp hy with hy | hy
      · exact hle y hy
      · rw [List.mem_singleton.mp hy]; exact hp
  | queue k =>
    have hk : k = 0 := hp
    subst hk
    refine ⟨hd, rs, dd, dl, ?_⟩
    cases pend with
    | nil =>
      constructor <;> (try simp only [World.next, step, asks, respOf, lineOf, ended, List.append_nil, State.idxs, List.getElem?_nil]) <;>
          first | assumption | simpa using ha | simpa [Pc.reading, Pc.giving] using hda
    | cons x t =>
      by_cases hc : crFifo.length < 16
      · constructor <;>
          (try simp only [World.next, step, asks, respOf, lineOf, ended, List.append_nil, State.idxs, List.getElem?_cons_zero, hc, if_true, List.eraseIdx_zero, List.tail_cons]) <;>
          try assumption
        rw [ha]; simp
      · constructor <;>
          (try simp only [World.next, step, asks, respOf, lineOf, ended, List.append_nil, State.idxs, List.getElem?_cons_zero, hc, if_false]) <;>
          assumption
  | resp r =>
    obtain ⟨hp1, hp2⟩ := hp
    by_cases hc : hwCr.length < 16
    · refine ⟨hd, rs, dd, dl, ?_⟩
      constructor <;>
        (try simp only [World.next, step, asks, respOf, lineOf, ended, List.append_nil, State.idxs, hc, if_true]) <;>
        try assumption
      · rw [hg]; simp
      · simp only [List.length_append, List.length_singleton]; exact hp1
      · intro y hy
        rcases List.mem_append.mp hy with hy | hy
        · exact hok y hy
        · rw [List.mem_singleton.mp hy]; exact hp2
      · cases pc <;> simp only [PcOk, List.length_append, List.length_singleton] at hpc ⊢ <;> first | assumption | omega
    · refine ⟨hd, rs, dd, dl, ?_⟩
      constructor <;> (try simp only [World.next, step, asks, respOf, lineOf, ended, List.append_nil, State.idxs, hc, if_false]) <;> assumption
  | line i ws =>
    refine ⟨hd, rs, dd, dl, ?_⟩
    by_cases hc : i < 16 ∧ used i = false ∧ ws.length = m
    · have hni : i ∉ pc.desc ++ descs ++ hwCd := by
        intro hm
        rw [hus i hm] at hc
        exact absurd hc.2.1 (by decide)
      have hlin : ∀ j ∈ pc.desc ++ descs ++ hwCd, lineAt m (fun j => if j / m = i then ws.getD (j % m) 0 else ram j) j = lineAt m ram j := by
        intro j hj
        rw [lineAt_set m ram i j ws hc.2.2, if_neg (by rintro rfl; exact hni hj)]
      constructor <;>
        (try simp only [World.next, step, asks, respOf, lineOf, ended, List.append_nil, State.idxs, hc, if_true, and_self]) <;>
        try assumption
      · rw [hli, ← List.append_assoc (pc.desc ++ descs), List.map_append (l₂ := [i]), List.map_congr_left hlin]
        rw [List.map_singleton, lineAt_set m ram i i ws hc.2.2, if_pos rfl, List.append_assoc]
      · rw [← List.append_assoc, List.nodup_append]
        refine ⟨hnd, by simp, ?_⟩
        intro a h1 b h2
        rw [List.mem_singleton.mp h2]
        rintro rfl
        exact hni h1
      · intro j hj
        rw [← List.append_assoc] at hj
        simp only [set]
        split
        · rfl
        · rcases List.mem_append.mp hj with hj | hj
          · exact hus j hj
          · exact absurd (List.mem_singleton.mp hj) (by assumption)
      · cases pc <;> simp only [PcOk, List.length_append, List.length_singleton] at hpc ⊢ <;> first | assumption | omega | skip
        rw [hlin _ (by simp [Pc.desc])]
        exact hpc
    · constructor <;> (try simp only [World.next, step, asks, respOf, lineOf, ended, List.append_nil, State.idxs, hc, if_false]) <;> assumption
  | proc =>
    cases pc with
    | crLevel =>
      refine ⟨hd, rs, dd, dl, ?_⟩
      constructor <;> (try simp only [World.next, step, proc, asks, respOf, lineOf, ended, List.append_nil, State.idxs]) <;> try assumption
      simp [PcOk]
    | crRead n =>
      cases n with
      | zero =>
        refine ⟨hd, rs, dd, dl, ?_⟩
        constructor <;> (try simp only [World.next, step, proc, asks, respOf, lineOf, ended, List.append_nil, State.idxs]) <;> assumption
      | succ n =>
        refine ⟨hd, rs, dd, dl, ?_⟩
        cases crFifo with
        | nil => constructor <;> (try simp only [World.next, step, proc, asks, respOf, lineOf, ended, List.append_nil, State.idxs]) <;>
          first | assumption | simpa using ha | simpa [Pc.reading, Pc.giving] using hda
        | cons x t =>
          constructor <;> (try simp only [World.next, step, proc, asks, respOf, lineOf, ended, List.append_nil, State.idxs]) <;> try assumption
          rw [ha]; simp [Pc.before]
    | crPop x n =>
      cases hwCr with
      | nil => exact absurd hpc (by simp [PcOk])
      | cons r t =>
        have hr : ¬(hasErr r = true ∧ hasData r = true) := hok r (by rw [hg]; simp)
        have hz : (hd ++ [x]).zip (rs ++ [r]) = hd.zip rs ++ [(x, r)] := by rw [List.zip_append hl]; rfl
        have he : (setCrResp r).err = hasErr r := by rw [setCrResp_bits]; rfl
        have hd' : (setCrResp r).data = hasData r := by rw [setCrResp_bits]; rfl
        have hn : n ≤ t.length := by simpa [PcOk] using hpc
        refine ⟨hd ++ [x], rs ++ [r], dd, dl, ?_⟩
        cases h1 : hasErr r with
        | true =>
          have h2 : hasData r = false := by cases h2 : hasData r <;> simp_all
          constructor <;>
            (try simp only [World.next, step, proc, asks, respOf, lineOf, ended, List.append_nil, State.idxs, he, hd', h1, h2, if_true]) <;>
            try assumption
          · rw [ha]; simp [Pc.before]
          · rw [hg]; simp
          · simp [hl]
          · rw [List.filter_append, hpl, hz, List.filter_append, List.map_append]
            simp [Out.withData, isPlain, outPlain, h1, setCrResp_bits]
          · rw [hz, List.filter_append, List.map_append, hda]
            simp [isData, h2, Pc.reading, Pc.giving]
          · rw [List.filter_append, hgi]; simp [Out.withData]
        | false =>
          cases h2 : hasData r with
          | true =>
            constructor <;>
              (try simp only [World.next, step, proc, asks, respOf, lineOf, ended, List.append_nil, State.idxs, he, hd', h1, h2, if_true, if_false, Bool.false_eq_true]) <;>
              try assumption
            · rw [ha]; simp [Pc.before]
            · rw [hg]; simp
            · simp [hl]
            · rw [hpl, hz, List.filter_append, List.map_append]
              simp [isPlain, h1, h2]
            · rw [hz, List.filter_append, List.map_append, hda]
              simp [isData, h2, Pc.reading, Pc.giving, tag, setCrResp_bits]
          | false =>
            constructor <;>
              (try simp only [World.next, step, proc, asks, respOf, lineOf, ended, List.append_nil, State.idxs, he, hd', h1, h2, if_false, Bool.false_eq_true]) <;>
              try assumption
            · rw [ha]; simp [Pc.before]
            · rw [hg]; simp
            · simp [hl]
            · rw [List.filter_append, hpl, hz, List.filter_append, List.map_append]
              simp [Out.withData, isPlain, outPlain, h1, h2, setCrResp_bits]
            · rw [hz, List.filter_append, List.map_append, hda]
              simp [isData, h2, Pc.reading, Pc.giving]
            · rw [List.filter_append, hgi]; simp [Out.withData]
    | crGive x a n =>
      refine ⟨hd, rs, dd, dl, ?_⟩
      by_cases hc : cdFifo.length < 16
      · constructor <;>
          (try simp only [World.next, step, proc, asks, respOf, lineOf, ended, List.append_nil, State.idxs, hc, if_true]) <;> try assumption
        rw [hda]; simp [Pc.reading, Pc.giving]
      · constructor <;> (try simp only [World.next, step, proc, asks, respOf, lineOf, ended, List.append_nil, State.idxs, hc, if_false]) <;> assumption
    | cdLevel =>
      refine ⟨hd, rs, dd, dl, ?_⟩
      constructor <;> (try simp only [World.next, step, proc, asks, respOf, lineOf, ended, List.append_nil, State.idxs]) <;> try assumption
      simp [PcOk]
    | cdPop n =>
      cases n with
      | zero =>
        refine ⟨hd, rs, dd, dl, ?_⟩
        constructor <;> (try simp only [World.next, step, proc, asks, respOf, lineOf, ended, List.append_nil, State.idxs]) <;> assumption
      | succ n =>
        cases hwCd with
        | nil => exact absurd hpc (by simp [PcOk])
        | cons i t =>
          refine ⟨hd, rs, dd, dl, ?_⟩
          have hi : Pc.desc (.cdPop n) ++ (descs ++ [i]) ++ t = Pc.desc (.cdPop (n + 1)) ++ descs ++ i :: t := by simp [Pc.desc]
          constructor <;> (try simp only [World.next, step, proc, asks, respOf, lineOf, ended, List.append_nil, State.idxs]) <;>
            first | assumption | (rw [hi]; assumption) | skip
          simpa [PcOk] using hpc
    | cdCheck =>
      refine ⟨hd, rs, dd, dl, ?_⟩
      cases cdFifo with
      | nil => constructor <;> (try simp only [World.next, step, proc, asks, respOf, lineOf, ended, List.append_nil, State.idxs]) <;>
          first | assumption | simpa using ha | simpa [Pc.reading, Pc.giving] using hda
      | cons p t =>
        cases descs with
        | nil =>
          constructor <;> (try simp only [World.next, step, proc, asks, respOf, lineOf, ended, List.append_nil, State.idxs]) <;>
            first | assumption | simpa using hli | simpa using hnd | simpa using hus
        | cons i u =>
          constructor <;> (try simp only [World.next, step, proc, asks, respOf, lineOf, ended, List.append_nil, State.idxs]) <;> try assumption
          · rw [hda]; simp [Pc.reading, Pc.giving]
          · refine ⟨by simp [bytesOf], hsub (p := p) ?_⟩
            simp [Pc.reading, Pc.giving]
    | busy x a i k acc =>
      obtain ⟨hacc, hx⟩ := hpc
      dsimp only at hacc
      have hnd' : i ∉ descs ++ hwCd ∧ (descs ++ hwCd).Nodup := List.nodup_cons.mp hnd
      by_cases hc : acc.length < x.len
      · refine ⟨hd, rs, dd, dl, ?_⟩
        constructor <;>
          (try simp only [World.next, step, proc, asks, respOf, lineOf, ended, List.append_nil, State.idxs, hc, if_true]) <;> try assumption
        refine ⟨?_, hx⟩
        have hk : k < m := by
          rw [hacc, List.length_take, bytesOf_length, List.length_take, lineAt_length] at hc
          omega
        dsimp only
        rw [hacc]
        exact bytes_step m ram i k x.len hk
      · have hfull : acc = (bytesOf (lineAt m ram i)).take x.len := by
          have h0 : (bytesOf (lineAt m ram i)) = bytesOf ((lineAt m ram i).take k) ++ bytesOf ((lineAt m ram i).drop k) := by
            rw [← bytesOf_append, List.take_append_drop]
          have hlen : x.len ≤ (bytesOf ((lineAt m ram i).take k)).length := by
            rw [hacc, List.length_take] at hc
            omega
          rw [h0, List.take_append_of_le_length hlen]
          exact hacc
        refine ⟨hd, rs, dd ++ [(x, a)], dl ++ [lineAt m ram i], ?_⟩
        constructor <;>
          (try simp only [World.next, step, proc, asks, respOf, lineOf, ended, List.append_nil, State.idxs, hc, if_false]) <;> try assumption
        · rw [List.filter_append, hpl]; simp [Out.withData]
        · rw [hda]; simp [Pc.reading, Pc.giving]
        · rw [hli]; simp [Pc.desc]
        · simp [hdl]
        · rw [List.filter_append, hgi, List.zip_append hdl, List.map_append]
          simp [Out.withData, outData, hfull]
        · exact hnd'.2
        · intro j hj
          have hne : j ≠ i := by
            rintro rfl
            exact hnd'.1 hj
          simp only [set, hne, if_false]
          exact hus j (List.mem_cons_of_mem _ hj)

theorem inv_run {m : Nat} {w : World} {hd rs dd dl} (h : Inv m w hd rs dd dl) (evs : List Ev) (hp : AllPolite m w evs) :
    ∃ hd' rs' dd' dl', Inv m (w.run m evs) hd' rs' dd' dl' := by
  induction evs generalizing w hd rs dd dl with
  | nil => exact ⟨hd, rs, dd, dl, h⟩
  | cons e t ih =>
    obtain ⟨_, _, _, _, h'⟩ := inv_next h e hp.1
    exact ih h' hp.2

end Verif.AceSlvSnp
