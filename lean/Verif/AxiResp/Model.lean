import Verif.Base.Tlm

/-! # AXI response codes and TLM status

`tlm-bridges/amba.h`, `tlm-bridges/axi2tlm-bridge.h`, `tlm-bridges/axilite2tlm-bridge.h`. -/

namespace Verif.AxiResp
open Verif

/-- The two-bit response (amba.h 33-38). -/
inductive Resp | okay | exokay | slverr | decerr
deriving DecidableEq, Repr

/-- The two flags of the attribute extension that matter here; `none`: the payload
has no such extension. -/
structure Ext where
  exclusive : Bool
  exclusiveHandled : Bool
deriving DecidableEq, Repr

/-- `tlm_gp_set_axi_resp` (amba.h 130-153): new status and extension.
`set_exclusive_handled()` is called without argument, whose default is false
(tlm-extensions/genattr.h 33-36 and 211). -/
def setAxiResp (e : Option Ext) : Resp → Status × Option Ext
  | .exokay => (.ok, e.map fun x => { x with exclusiveHandled := false })
  | .okay => (.ok, e)
  | .decerr => (.address, e)
  | .slverr => (.generic, e)

/-- `tlm_gp_get_axi_resp` (amba.h 157-179). -/
def getAxiResp (s : Status) (e : Option Ext) : Resp :=
  match s with
  | .ok => match e with
    | some x => if x.exclusiveHandled then .exokay else .okay
    | none => .okay
  | .address => .decerr
  | _ => .slverr

/-- Response of the AXI-to-TLM bridge (axi2tlm-bridge.h 967-982 for reads,
1277-1292 for writes: the same switch). -/
def axi2tlmResp (s : Status) (x : Ext) : Resp :=
  match s with
  | .address => .decerr
  | .generic => .slverr
  | _ => if x.exclusive && x.exclusiveHandled then .exokay else .okay

/-- Response of the AXI-Lite-to-TLM bridge (axilite2tlm-bridge.h 404-415, 503-514). -/
def axilite2tlmResp (s : Status) : Resp :=
  match s with
  | .address => .decerr
  | .generic => .slverr
  | _ => .okay

end Verif.AxiResp
