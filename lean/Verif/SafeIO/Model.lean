import Verif.Base.Bytes

/-!
# Blocking I/O helpers

Models `/repo/libremote-port/safeio.c` 50-89.  The kernel is an arbitrary list
of results (an oracle); the loops consume one result per system call.  A list
that runs out means the call is still blocked (`pending`).
-/

namespace Verif.SafeIO
open Verif

/-- One `read(2)`/`write(2)` result.  `data n`: the call transfers as much as
it can up to `n` bytes, in the sense of `readStep`/`writeStep` below. -/
inductive K
  | data (n : Nat)
  | eintr
  | eagain
  | err
  deriving DecidableEq, Repr

/-- What a loop returned. -/
inductive Res
  | ret (n : Nat)
  | fail
  | pending
  deriving DecidableEq, Repr

/-- Number of bytes one successful `read(2)` of `want` bytes delivers when
`avail` bytes can still arrive before end of file: at least one byte unless at
end of file or nothing was asked for, and never more than asked for or
available.  (Kernel contract.) -/
def readStep (n want avail : Nat) : Nat := min (max n 1) (min want avail)

/-- Number of bytes one successful `write(2)` of `want` bytes accepts: anything
from 0 to `want`.  (Kernel contract.) -/
def writeStep (n want : Nat) : Nat := min n want

/-- `rp_safe_read` (`safeio.c` 50-67).  `count`: requested, `got`: bytes already
in the buffer (`rlen = got.length`), `src`: bytes that will still arrive before
end of file.  Returns the result, the buffer contents and the unread bytes.
`continue` inside the C `do`/`while` re-evaluates the loop condition, with
`r = -1`. -/
def safeRead (count : Nat) : List K → List Byte → List Byte → Res × List Byte × List Byte
  | [], got, src => (.pending, got, src)
  | .eintr :: ks, got, src =>
    if got.length < count then safeRead count ks got src else (.ret got.length, got, src)
  | .eagain :: _, got, src => (.fail, got, src)
  | .err :: _, got, src => (.fail, got, src)
  | .data n :: ks, got, src =>
    let r := readStep n (count - got.length) src.length
    let got' := got ++ src.take r
    let src' := src.drop r
    if got'.length < count ∧ r ≠ 0 then safeRead count ks got' src'
    else (.ret got'.length, got', src')

/-- `rp_safe_write` (`safeio.c` 69-89).  `buf`: bytes not yet written, `out`:
bytes the kernel has accepted (`wlen = out.length`). -/
def safeWrite : List K → List Byte → List Byte → Res × List Byte × List Byte
  | [], buf, out => (.pending, buf, out)
  | .eintr :: ks, buf, out => if buf ≠ [] then safeWrite ks buf out else (.ret out.length, buf, out)
  | .eagain :: _, buf, out => (.ret out.length, buf, out)
  | .err :: _, buf, out => (.fail, buf, out)
  | .data n :: ks, buf, out =>
    let r := writeStep n buf.length
    let buf' := buf.drop r
    let out' := out ++ buf.take r
    if buf' ≠ [] then safeWrite ks buf' out' else (.ret out'.length, buf', out')

end Verif.SafeIO
