import Verif.RtlLink.Model

/-!
The handshakes of a link: each has a request and an acknowledgement.  The
request may rise when the acknowledgement is low and fall when it is high; the
acknowledgement may rise when the request is high and fall when it is low.
-/

namespace Verif.RtlLink

open Verif.RtlTx (Kind)

/-- The link with the wires of the other side as they were in the last cycle. -/
structure World where
  s : Regs
  ack : Bool
  req : Bool
  deriving DecidableEq

def World.start : World := ⟨reset, false, false⟩

def World.next (k : Kind) (w : World) (i : In) : World := ⟨step k w.s i, i.ack, i.req⟩

def World.run (k : Kind) (w : World) : List In → World
  | [] => w
  | i :: t => (w.next k i).run k t

/-- The other side changes its acknowledgement and its request as a handshake
allows: it sees the wires of the bridge in this cycle. -/
def Peer (w : World) (i : In) : Prop :=
  (i.ack ≠ w.ack → i.ack = w.s.req) ∧ (i.req ≠ w.req → i.req = !w.s.ack)

instance (w : World) (i : In) : Decidable (Peer w i) := by unfold Peer; infer_instance

def All (p : World → In → Prop) (k : Kind) (w : World) : List In → Prop
  | [] => True
  | i :: t => p w i ∧ All p k (w.next k i) t

end Verif.RtlLink
