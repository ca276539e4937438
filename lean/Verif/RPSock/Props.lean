import Verif.RPSock.Lemmas

/-! # Descriptors: what is opened, and where they are misread -/

set_option maxRecDepth 100000

namespace Verif.RPSock

/-- **C98** (part).  Every path of at most 107 characters, and every host without a colon with any
port or none, is opened as it was written, to connect or to listen. -/
theorem opened_as_written_partial (w : Wish) (h : w.Fits) : skOpen w.descr = w.target := by
  cases w with
  | path p =>
    show skOpen ("unix:".toList ++ p) = .unix p
    rw [open_unix, List.take_of_length_le h]
  | addr d n host port =>
    have hp := tcp_parse d n host port h.1 h.2
    cases d with
    | true =>
      have e : "tcpd:".toList = "tcpd".toList ++ [':'] := by decide +kernel
      simp only [Wish.descr, if_true, Wish.target]
      rw [e]
      simp only [List.append_assoc, List.cons_append, List.nil_append]
      rw [open_tcpd]
      simpa [List.append_assoc] using hp
    | false =>
      simp only [Wish.descr, Wish.target, Bool.false_eq_true, if_false]
      simp only [List.append_assoc] at hp ⊢
      rw [open_tcp]; exact hp

example : (Wish.addr true 2 "localhost".toList (some "9000".toList)).Fits ∧
    skOpen "tcpd://localhost:9000".toList =
      .tcp true "localhost".toList (some "9000".toList) := by
  simp only [Wish.Fits]; decide +kernel

/-- **C98** (part).  What starts with none of `unix:`, `tcp:` and `tcpd` is not opened. -/
theorem others_fail (s : List Char) (hl : 4 ≤ s.length) (h1 : s.take 5 ≠ "unix:".toList)
    (h2 : s.take 4 ≠ "tcp:".toList) (h3 : s.take 4 ≠ "tcpd".toList) : skOpen s = .fail := by
  have e1 : "unix:".toList = ['u', 'n', 'i', 'x', ':'] := by decide +kernel
  have e2 : "tcp:".toList = ['t', 'c', 'p', ':'] := by decide +kernel
  have e3 : "tcpd".toList = ['t', 'c', 'p', 'd'] := by decide +kernel
  rw [e1] at h1; rw [e2] at h2; rw [e3] at h3
  match s, hl with
  | a :: b :: c :: d :: [], _ =>
    simp at h1 h2 h3
    have g2 : ¬ (a = 't' ∧ b = 'c' ∧ c = 'p' ∧ d = ':') := fun ⟨x, y, z, w⟩ => h2 x y z w
    have g3 : ¬ (a = 't' ∧ b = 'c' ∧ c = 'p' ∧ d = 'd') := fun ⟨x, y, z, w⟩ => h3 x y z w
    simp [skOpen, same, unixPrefix, tcpdPrefix, tcpPrefix, g2, g3]
  | a :: b :: c :: d :: e :: s, _ =>
    simp at h1 h2 h3
    have g1 : ¬ (a = 'u' ∧ b = 'n' ∧ c = 'i' ∧ d = 'x' ∧ e = ':') :=
      fun ⟨x, y, z, w, v⟩ => h1 x y z w v
    have g2 : ¬ (a = 't' ∧ b = 'c' ∧ c = 'p' ∧ d = ':') := fun ⟨x, y, z, w⟩ => h2 x y z w
    have g3 : ¬ (a = 't' ∧ b = 'c' ∧ c = 'p' ∧ d = 'd') := fun ⟨x, y, z, w⟩ => h3 x y z w
    have hl : ¬ (s.length + 1 + 1 + 1 + 1 + 1 + 1 < 5) := by omega
    simp [skOpen, same, unixPrefix, tcpdPrefix, tcpPrefix, g1, g2, g3, hl]

example : skOpen "udp://localhost:9000".toList = .fail := by decide +kernel

/-- **C98** (part).  A client connects through the first address that takes it, and fails only if
none does. -/
theorem client_first_taken (l : List Addr) (i : Nat) :
    loop false 0 l = .conn i ↔
      l[i]? = some .taken ∧ ∀ j, j < i → l[j]? ≠ some .taken := by
  suffices hgen : ∀ (l : List Addr) (b i : Nat), loop false b l = .conn i ↔
      b ≤ i ∧ l[i - b]? = some .taken ∧ ∀ j, j < i - b → l[j]? ≠ some .taken by
    have := hgen l 0 i
    simpa using this
  intro l
  induction l with
  | nil => intro b i; simp [loop]
  | cons a l ih =>
    intro b i
    have hskip : a ≠ .taken → (loop false (b + 1) l = .conn i ↔ b ≤ i ∧
        (a :: l)[i - b]? = some .taken ∧ ∀ j, j < i - b → (a :: l)[j]? ≠ some .taken) := by
      intro ha
      rw [ih (b + 1) i]
      constructor
      · rintro ⟨h1, h2, h3⟩
        have e : i - b = (i - (b + 1)) + 1 := by omega
        refine ⟨by omega, ?_, ?_⟩
        · rw [e]; simpa using h2
        · intro j hj
          cases j with
          | zero => simpa using ha
          | succ j => simpa using h3 j (by omega)
      · rintro ⟨h1, h2, h3⟩
        have hne : i - b ≠ 0 := by
          intro h0; rw [h0] at h2; simp at h2; exact ha h2
        have e : i - b = (i - (b + 1)) + 1 := by omega
        refine ⟨by omega, ?_, ?_⟩
        · rw [e] at h2; simpa using h2
        · intro j hj
          have := h3 (j + 1) (by omega)
          simpa using this
    cases a with
    | noSocket => exact hskip (by simp)
    | refused => simpa [loop] using hskip (by simp)
    | taken =>
      simp only [loop, End.conn.injEq]
      constructor
      · rintro rfl
        simp
      · rintro ⟨h1, h2, h3⟩
        apply Decidable.byContradiction
        intro hne
        exact h3 0 (by omega) rfl

theorem client_fails_iff (l : List Addr) : loop false 0 l = .fail ↔ Addr.taken ∉ l := by
  suffices hgen : ∀ (l : List Addr) (b : Nat), loop false b l = .fail ↔ Addr.taken ∉ l from hgen l 0
  intro l
  induction l with
  | nil => intro b; simp [loop]
  | cons a l ih => intro b; cases a <;> simp [loop, ih]

example : loop false 0 [.noSocket, .refused, .taken, .taken] = .conn 2 := by decide +kernel

/-- **C98**, violated: a daemon whose first address cannot be bound ends the program, whatever
other addresses there are. -/
theorem daemon_exits (l : List Addr) : loop true 0 (.refused :: l) = .exit := rfl

example : loop false 0 [.refused, .taken] = .conn 1 := by decide +kernel

/-- **C98**, violated: of the daemon's prefix only four characters are looked at, and five are
skipped: any character may stand for the colon. -/
theorem tcpd_any_char (c : Char) (s : List Char) :
    skOpen ("tcpd".toList ++ c :: s) = skOpen ("tcpd:".toList ++ s) := by
  have e : "tcpd:".toList ++ s = "tcpd".toList ++ ':' :: s := by
    have : "tcpd:".toList = "tcpd".toList ++ [':'] := by decide +kernel
    rw [this]; simp
  rw [e, open_tcpd, open_tcpd]

/-- **C98**, violated: an address with colons, as those of IPv6, is cut at the first. -/
theorem colon_host_cut (a b port : List Char) (h : ':' ∉ a) (hs : a.head? ≠ some '/') :
    skOpen ((Wish.addr false 0 (a ++ ':' :: b) (some port)).descr) =
      .tcp false a (some (b ++ ':' :: port)) := by
  have := opened_as_written_partial (.addr false 0 a (some (b ++ ':' :: port))) ⟨h, hs⟩
  simp only [Wish.descr, Wish.target, portText] at this ⊢
  simpa [List.append_assoc] using this

example : skOpen "tcp:fe80::1:9000".toList =
    .tcp false "fe80".toList (some ":1:9000".toList) := by decide +kernel

/-- **C98**, violated: paths that agree in 107 characters open the same socket. -/
theorem long_paths_collide (p q r : List Char) (h : p.length = 107) :
    skOpen ("unix:".toList ++ (p ++ q)) = skOpen ("unix:".toList ++ (p ++ r)) := by
  rw [open_unix, open_unix, ← h, List.take_left, List.take_left]

/-- **C98**, violated: a descriptor of less than four characters, and the descriptor `tcpd`, are
read beyond their end. -/
theorem short_overread (s : List Char) (h : s.length < 4 ∨ s = "tcpd".toList) :
    skOpen s = .overread := by
  rcases h with h | rfl
  · have : s.length + 1 < 5 := by omega
    simp [skOpen, unixPrefix, this]
  · decide +kernel

example : skOpen "".toList = .overread := by decide +kernel

end Verif.RPSock
