import Verif.CcixLink.Model

/-! What the credits of a link are for. -/
namespace Verif.CcixLink.Spec
open Verif.CcixLink

/-- Transaction identifiers of a port (`TxnIDs::NumIDs`). -/
def room : Nat := 256

/-- Requests the sender has sent and the other port has not finished. -/
def open_ (s : St) : Nat := s.wire.all + s.held.all

/-- Snoops likewise. -/
def openSnp (s : St) : Nat := s.wireSnp + s.heldSnp

/-- Credits on their way to the sender. -/
def coming (f : Credits → Nat) (s : St) : Nat := (s.flight.map f).sum

/-- The credits another message carries (CCIX: two bits each for requests, data and
snoops, in this order from bit 0). -/
def carried (b : BitVec 8) : Credits := ⟨b.toNat % 4, b.toNat / 4 % 4, b.toNat / 16 % 4⟩

/-- The ways a request node finishes a write: with its data, and if it said so with an
acknowledgement, before the data, after it or in it. -/
def finishes (exp : Bool) : List (List Msg) :=
  if exp then [[.data, .ack], [.ack, .data], [.dataAck]] else [[.data]]

end Verif.CcixLink.Spec
