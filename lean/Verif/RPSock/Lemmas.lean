import Verif.RPSock.Spec

/-! # How the prefixes and the parts are found -/

set_option maxRecDepth 100000

namespace Verif.RPSock

theorem drop_slashes : ∀ (n : Nat) (r : List Char), r.head? ≠ some '/' →
    (List.replicate n '/' ++ r).dropWhile (· == '/') = r
  | 0, [], _ => rfl
  | 0, c :: r, h => by
    have hc : (c == '/') = false := by
      simp only [List.head?_cons, ne_eq, Option.some.injEq] at h
      simpa using h
    simp [List.dropWhile_cons, hc]
  | n + 1, r, h => by
    rw [List.replicate_succ, List.cons_append, List.dropWhile_cons]
    simpa using drop_slashes n r h

theorem take_host : ∀ (host r : List Char), ':' ∉ host → (r = [] ∨ r.head? = some ':') →
    (host ++ r).takeWhile (· != ':') = host ∧ (host ++ r).dropWhile (· != ':') = r
  | [], [], _, _ => ⟨rfl, rfl⟩
  | [], c :: r, _, h => by
    have hc : c = ':' := by simpa using h
    subst hc
    simp [List.takeWhile_cons, List.dropWhile_cons]
  | c :: host, r, hn, h => by
    have hc : (c != ':') = true := by
      simp only [List.mem_cons, not_or] at hn
      simpa using fun hx => hn.1 hx.symm
    have ih := take_host host r (fun hx => hn (List.mem_cons_of_mem _ hx)) h
    simp [List.takeWhile_cons, List.dropWhile_cons, hc, ih.1, ih.2]

theorem tcp_parse (d : Bool) (n : Nat) (host : List Char) (port : Option (List Char))
    (hc : ':' ∉ host) (hs : host.head? ≠ some '/') :
    tcpTarget d (List.replicate n '/' ++ host ++ portText port) = .tcp d host port := by
  unfold tcpTarget
  cases port with
  | none =>
    rw [portText]
    have hh : (host ++ ([] : List Char)).head? ≠ some '/' := by simpa using hs
    rw [List.append_assoc, drop_slashes n _ hh]
    obtain ⟨h1, h2⟩ := take_host host [] hc (Or.inl rfl)
    simp only [h1, h2]
  | some p =>
    rw [portText]
    have hh : (host ++ ':' :: p).head? ≠ some '/' := by
      cases host with
      | nil => simp
      | cons c host => simpa using hs
    rw [List.append_assoc, drop_slashes n _ hh]
    obtain ⟨h1, h2⟩ := take_host host (':' :: p) hc (Or.inr rfl)
    simp only [h1, h2]

theorem open_unix (p : List Char) : skOpen ("unix:".toList ++ p) = .unix (p.take 107) := by
  have e : "unix:".toList = ['u', 'n', 'i', 'x', ':'] := by decide +kernel
  rw [e]
  simp [skOpen, same, unixPrefix, pathMax]

theorem open_tcp (s : List Char) :
    skOpen ("tcp:".toList ++ s) = tcpTarget false s := by
  have e : "tcp:".toList = ['t', 'c', 'p', ':'] := by decide +kernel
  rw [e]
  have hl : ¬ (s.length + 1 + 1 + 1 + 1 + 1 < 5) := by omega
  simp [skOpen, same, unixPrefix, tcpdPrefix, tcpPrefix, hl]

theorem open_tcpd (c : Char) (s : List Char) :
    skOpen ("tcpd".toList ++ c :: s) = tcpTarget true s := by
  have e : "tcpd".toList = ['t', 'c', 'p', 'd'] := by decide +kernel
  rw [e]
  have hl : ¬ (s.length + 1 + 1 + 1 + 1 + 1 + 1 < 5) := by omega
  have hl' : ¬ (s.length + 1 + 1 + 1 + 1 + 1 < 5) := by omega
  simp [skOpen, same, unixPrefix, tcpdPrefix, tcpPrefix, hl, hl']

end Verif.RPSock
