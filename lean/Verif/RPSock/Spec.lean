import Verif.RPSock.Model

/-!
# What descriptors mean
-/

namespace Verif.RPSock

/-- What a user writes: a path; or a host, a port and whether to listen, with any number of
slashes after the prefix. -/
inductive Wish
  | path (p : List Char)
  | addr (daemon : Bool) (slashes : Nat) (host : List Char) (port : Option (List Char))

/-- A port as it is written. -/
def portText : Option (List Char) → List Char
  | none => []
  | some p => ':' :: p

/-- The descriptor for it. -/
def Wish.descr : Wish → List Char
  | .path p => "unix:".toList ++ p
  | .addr d n host port =>
    (if d then "tcpd:".toList else "tcp:".toList) ++ List.replicate n '/' ++ host ++ portText port

/-- What should be opened. -/
def Wish.target : Wish → Target
  | .path p => .unix p
  | .addr d _ host port => .tcp d host port

/-- A path that fits; a host without a colon that does not start with a slash. -/
def Wish.Fits : Wish → Prop
  | .path p => p.length ≤ 107
  | .addr _ _ host _ => ':' ∉ host ∧ host.head? ≠ some '/'

end Verif.RPSock
