/-!
# Opening a remote-port connection from its descriptor

Model of `sk_open` (libremote-port/remote-port-sk.c 40-42, 64-180): how the descriptor string is
taken apart, and which of the addresses a name stands for is connected to.

Simplifications: a descriptor is the list of characters before its terminating zero; the resolver
is a list of addresses with what `socket`, `connect`, `bind` do with each; what is printed, and the
socket options set on the connection at the end, are not modelled.
-/

namespace Verif.RPSock

/-- What `sk_open` tries to open: a path (connect, else listen), a host and port to connect to, or
to listen on (`daemon`); `fail` is -1; `overread` a read behind the end of the string. -/
inductive Target
  | unix (path : List Char)
  | tcp (daemon : Bool) (host : List Char) (port : Option (List Char))
  | fail
  | overread
  deriving DecidableEq, Repr

/-- `UNIX_PREFIX`, `TCP_PREFIX`, `TCPD_PREFIX` (remote-port-sk.c 40-42). -/
def unixPrefix : List Char := ['u', 'n', 'i', 'x', ':']
def tcpPrefix : List Char := ['t', 'c', 'p', ':']
def tcpdPrefix : List Char := ['t', 'c', 'p', 'd', ':']

/-- `sizeof addr.sun_path - 1` (remote-port-sk.c 74-75; 108 bytes on Linux). -/
def pathMax : Nat := 107

/-- `memcmp(p, s, n) == 0`, where `s` ends in a zero (remote-port-sk.c 167-176). -/
def same (p s : List Char) (n : Nat) : Bool := (s ++ ['\x00']).take n == p.take n

/-- The head of `sk_tcp_client` (remote-port-sk.c 105-116): skip slashes, cut at the first colon. -/
def tcpTarget (daemon : Bool) (s : List Char) : Target :=
  let r := s.dropWhile (· == '/')
  .tcp daemon (r.takeWhile (· != ':'))
    (match r.dropWhile (· != ':') with
     | [] => none
     | _ :: port => some port)

/-- `sk_open` and the head of `sk_unix_client` (remote-port-sk.c 64-75, 160-180).  The first
`memcmp` reads 5 bytes, and the daemon's string starts at the sixth. -/
def skOpen (s : List Char) : Target :=
  if s.length + 1 < unixPrefix.length then .overread
  else if same unixPrefix s unixPrefix.length then .unix ((s.drop unixPrefix.length).take pathMax)
  else if same tcpdPrefix s tcpPrefix.length then
    if s.length < tcpdPrefix.length then .overread else tcpTarget true (s.drop tcpdPrefix.length)
  else if same tcpPrefix s tcpPrefix.length then tcpTarget false (s.drop tcpPrefix.length)
  else .fail

/-- What becomes of an address: no socket for it, refused (by `connect`, or by `bind` and
`listen`), or taken. -/
inductive Addr
  | noSocket | refused | taken
  deriving DecidableEq, Repr

/-- How the loop ends: connected through the address at this place, -1, or the program exits. -/
inductive End
  | conn (i : Nat) | fail | exit
  deriving DecidableEq, Repr

/-- The loop over the addresses (remote-port-sk.c 130-158). -/
def loop (daemon : Bool) : Nat → List Addr → End
  | _, [] => .fail
  | i, .noSocket :: l => loop daemon (i + 1) l
  | i, .refused :: l => if daemon then .exit else loop daemon (i + 1) l
  | i, .taken :: _ => .conn i

end Verif.RPSock
